import Verif.EnumSigProofs
import Verif.Expr

/-!
# `enumerate` with its index signals, as a part of expressions (C71)
-/

namespace Verif.EnumSig

variable {α : Type}

theorem newValues_values (values : List α) (s : Store) (index : Nat) :
    (newValues s index values).1.map (·.2) = values := by
  induction values generalizing s index with
  | nil => rfl
  | cons a values ih => simp [newValues, ih]

/-- The emitted change is the received one, with cells. -/
theorem change_values {ids ids' : List Nat} {s s' : Store} {d : VecDiff α} {e : VecDiff (Nat × α)}
    (h : change ids s d = some (e, ids', s')) : e.map (·.2) = d := by
  cases d <;> simp only [change] at h <;>
    (repeat' split at h) <;> cases h <;> simp [VecDiff.map, newValues_values]

theorem World.poll_values {W W' : World α} {w : Waker} (h : W.poll w = .ok W')
    (hi : W.outs.map (Poll.mapItem (VecDiff.map (·.2))) = W.signal.hist.map (·.2)) :
    W'.outs.map (Poll.mapItem (VecDiff.map (·.2))) = W'.signal.hist.map (·.2) := by
  simp only [World.poll, Src.poll] at h
  cases ht : W.signal.todo with
  | nil => simp only [ht] at h; cases h; simp [hi, Poll.mapItem]
  | cons r rs =>
    simp only [ht] at h
    rcases r with (_ | d) | _
    · cases h; simp [hi, Poll.mapItem]
    · cases hc : change W.mutables W.store d with
      | none => simp [hc] at h
      | some q =>
        obtain ⟨e, ids, s⟩ := q
        simp only [hc] at h
        cases h
        simp [hi, Poll.mapItem, change_values hc]
    · cases h; simp [hi, Poll.mapItem]

theorem runs_values {W W' : World α} {es : List Ev} (h : W.runs es = .ok W')
    (hi : W.outs.map (Poll.mapItem (VecDiff.map (·.2))) = W.signal.hist.map (·.2)) :
    W'.outs.map (Poll.mapItem (VecDiff.map (·.2))) = W'.signal.hist.map (·.2) := by
  induction es generalizing W with
  | nil => cases h; exact hi
  | cons e es ih =>
    simp only [World.runs] at h
    cases hs : W.step e with
    | no => simp [hs] at h
    | panic => simp [hs] at h
    | ok W1 =>
      simp only [hs] at h
      refine ih h ?_
      cases e with
      | poll w =>
        simp only [World.step] at hs
        split at hs
        · cases hs
        · exact World.poll_values hs hi
      | drop =>
        simp only [World.step] at hs
        split at hs
        · cases hs
        · split at hs <;> cases hs
          exact hi
      | use id u =>
        simp only [World.step] at hs
        split at hs <;> cases hs
        exact hi

/-- An `Enumerate` answers as its input does, with the same wakers. -/
theorem trace_values {script : List (Poll (Option (VecDiff α)))} {es : List Ev} {W : World α}
    (h : (World.init script).runs es = .ok W) :
    W.trace.map (·.2) = W.outs ∧
    W.signal.hist = W.trace.map fun q => (q.1, q.2.mapItem (VecDiff.map (·.2))) := by
  have hv := runs_values h rfl
  have hl : W.outs.length = W.signal.hist.length := by simpa using congrArg List.length hv
  constructor
  · rw [World.trace, List.map_snd_zip]
    simp [hl]
  · have : ∀ (a : List (Waker × Poll (Option (VecDiff α)))) (b : List (Poll (Option (VecDiff (Nat × α))))),
        b.map (Poll.mapItem (VecDiff.map (·.2))) = a.map (·.2) →
        a = ((a.map (·.1)).zip b).map fun q => (q.1, q.2.mapItem (VecDiff.map (·.2))) := by
      intro a
      induction a with
      | nil => intro b _; rfl
      | cons q a ih =>
        intro b hb
        cases b with
        | nil => simp at hb
        | cons r b =>
          simp only [List.map_cons, List.cons.injEq] at hb
          simp only [List.map_cons, List.zip_cons_cons, List.cons.injEq]
          exact ⟨by rw [hb.1], ih b hb.2⟩
    exact this _ _ hv

theorem trace_rest {script : List (Poll (Option (VecDiff α)))} {es : List Ev} {W : World α}
    (h : (World.init script).runs es = .ok W) {o : Option Waker} (hr : Rest o W.trace) :
    Rest o W.signal.hist := by
  rw [(trace_values h).2]
  rcases hr with ⟨x, ho, hl⟩ | ⟨y, hl⟩
  · exact .inl ⟨x, ho, by simp [hl, Poll.mapItem]⟩
  · exact .inr ⟨y, by simp [hl, Poll.mapItem]⟩

theorem items_mapItem {β γ : Type} (f : β → γ) (rs : List (Poll (Option β))) :
    items (rs.map (Poll.mapItem f)) = (items rs).map f := by
  induction rs with
  | nil => rfl
  | cons r rs ih => rcases r with (_ | d) | _ <;> simp [Poll.mapItem, items, ih]

theorem trace_diffs {script : List (Poll (Option (VecDiff α)))} {es : List Ev} {W : World α}
    (h : (World.init script).runs es = .ok W) :
    Trace.diffs W.signal.hist = (Trace.diffs W.trace).map (VecDiff.map (·.2)) := by
  rw [(trace_values h).2]
  simp only [Trace.diffs, Trace.answers, List.map_map]
  rw [show ((fun q : Waker × Poll (Option (VecDiff α)) => q.2) ∘
    fun q : Waker × Poll (Option (VecDiff (Nat × α))) => (q.1, q.2.mapItem (VecDiff.map (·.2)))) =
    Poll.mapItem (VecDiff.map (·.2)) ∘ Prod.snd from rfl, ← List.map_map, items_mapItem]

theorem trace_brisk {script : List (Poll (Option (VecDiff α)))} {es : List Ev} {W : World α}
    (h : (World.init script).runs es = .ok W) (hb : Trace.Brisk W.signal.hist) :
    Trace.Brisk W.trace := by
  intro a d b hd ha
  have := hb (a.map (VecDiff.map (·.2))) (d.map (·.2)) (b.map (VecDiff.map (·.2)))
    (by rw [trace_diffs h, hd]; simp) (replay_map (·.2) (xs := []) ha)
  constructor <;> rintro rfl
  · exact this.1 rfl
  · exact this.2 rfl

theorem trace_fwd {script : List (Poll (Option (VecDiff α)))} {es : List Ev} {W : World α}
    (h : (World.init script).runs es = .ok W) (hf : (Ty.vec α).Fwds W.signal.hist) :
    (Ty.vec (Nat × α)).Fwds W.trace := by
  intro d hd
  have := hf (d.map (·.2)) (by rw [trace_diffs h]; exact List.mem_map.2 ⟨d, hd, rfl⟩)
  cases d <;> simpa [Fwd, VecDiff.map] using this

/-- What an `Enumerate` shows: the list of its input; each element has a cell of its own, which says
where it stands. -/
theorem trace_shows {script : List (Poll (Option (VecDiff α)))}
    (hwf : ∃ z, replay (items script) [] = some z) {es : List Ev} {W : World α}
    (h : (World.init script).runs es = .ok W) :
    ∃ ys, (Ty.vec (Nat × α)).Shows W.trace ys ∧ (Ty.vec α).Shows W.signal.hist (ys.map (·.2)) ∧
      ∀ (i : Nat) (q : Nat × α), ys[i]? = some q → place W.outs q.1 = some i := by
  obtain ⟨ys, hi⟩ := runs_inv hwf h
  refine ⟨ys, ?_, hi.signal.now, fun i q hq => ?_⟩
  · simp only [Ty.Shows, Trace.diffs, Trace.answers, (trace_values h).1]
    exact hi.outs
  · rw [hi.place]
    exact idxOf_get hi.cells.nodup (by simp [hq])

/-- The index of an element is a source. -/
theorem index_ok {script : List (Poll (Option (VecDiff α)))}
    (hwf : ∃ z, replay (items script) [] = some z) {es : List Ev} {W : World α}
    (h : (World.init script).runs es = .ok W) (id : Nat) (mine : Nat → Prop) :
    (Source.index W id mine).Ok := by
  obtain ⟨ys, hi⟩ := runs_inv hwf h
  constructor
  · intro i _
    simp only [Source.index]
    split
    · rename_i c hc
      exact (Mut.polled_value i (hi.owns id c hc).1).1
    · exact .inl rfl
  · rintro i _ ⟨c, hc, hk⟩ o ho
    have hr := (hi.owns id c hc).1
    simp only [Source.index, hc] at ho ⊢
    rcases Mut.polled_rest hr hk ho with h1 | ⟨x, hx, hw⟩
    · left
      simp only [Ty.Shows]
      rw [h1, ← hi.value hc, hr.value]
    · exact .inr ⟨x, hx, c, rfl, hw⟩

end Verif.EnumSig
