import Verif.SignalVec2
import Verif.SignalVec3
import Verif.SignalVec4
import Verif.SignalVec5
import Verif.SignalVec1

/-!
# Changes that do not fit (C90): lemmas

Whether a change can be applied depends only on the length of the list.
-/

namespace Verif

variable {α β ι σ ρ κ : Type}

/-- The change can be applied to a list of length `n`. -/
def VecDiff.Room : VecDiff α → Nat → Prop
  | .insertAt index _, n => index ≤ n
  | .updateAt index _, n => index < n
  | .removeAt index, n => index < n
  | .move oldIndex newIndex, n => oldIndex < n ∧ newIndex < n
  | .pop, n => 0 < n
  | _, _ => True

/-- The length of the list after the change. -/
def VecDiff.lenAfter : VecDiff α → Nat → Nat
  | .replace values, _ => values.length
  | .insertAt _ _, n => n + 1
  | .push _, n => n + 1
  | .removeAt _, n => n - 1
  | .pop, n => n - 1
  | .clear, _ => 0
  | _, n => n

theorem room_apply {d : VecDiff α} {xs : List α} (h : d.Room xs.length) :
    ∃ ys, d.apply xs = some ys ∧ ys.length = d.lenAfter xs.length := by
  cases d with
  | replace values => exact ⟨_, rfl, rfl⟩
  | insertAt index value =>
    have h : index ≤ xs.length := h
    exact ⟨xs.insertIdx index value, by simp [VecDiff.apply, vInsert, h], by simp [List.length_insertIdx, h, VecDiff.lenAfter]⟩
  | updateAt index value =>
    have h : index < xs.length := h
    exact ⟨xs.set index value, by simp [VecDiff.apply, vSet, h], by simp [VecDiff.lenAfter]⟩
  | removeAt index =>
    have h : index < xs.length := h
    exact ⟨_, by simp [VecDiff.apply, vRemove, h]; rfl, by simp [List.length_eraseIdx, h, VecDiff.lenAfter]⟩
  | move o n =>
    obtain ⟨h1, h2⟩ : o < xs.length ∧ n < xs.length := h
    have h3 : n ≤ (xs.eraseIdx o).length := by simp [List.length_eraseIdx, h1]; omega
    refine ⟨(xs.eraseIdx o).insertIdx n xs[o], by simp [VecDiff.apply, vRemove, h1, vInsert, h3], ?_⟩
    rw [List.length_insertIdx, if_pos h3, List.length_eraseIdx, if_pos h1]
    simp only [VecDiff.lenAfter]
    omega
  | push value => exact ⟨_, rfl, by simp [VecDiff.lenAfter]⟩
  | pop =>
    have h : 0 < xs.length := h
    obtain ⟨ys, a, rfl⟩ : ∃ ys a, xs = ys ++ [a] :=
      ⟨_, _, (List.dropLast_concat_getLast (List.ne_nil_of_length_pos h)).symm⟩
    exact ⟨ys, by simp [VecDiff.apply, vPop], by simp [VecDiff.lenAfter]⟩
  | clear => exact ⟨_, rfl, rfl⟩

theorem vInsert_room {l l' : List α} {i : Nat} {a : α} (h : vInsert l i a = some l') :
    i ≤ l.length ∧ l'.length = l.length + 1 := by
  unfold vInsert at h
  split at h
  · rename_i hi
    cases h
    exact ⟨hi, by simp [List.length_insertIdx, hi]⟩
  · cases h

theorem vRemove_room {l l' : List α} {i : Nat} {a : α} (h : vRemove l i = some (a, l')) :
    i < l.length ∧ l'.length = l.length - 1 := by
  obtain ⟨p, q, rfl, rfl, rfl⟩ := vRemove_eq_some.1 h
  simp

theorem vSet_room {l l' : List α} {i : Nat} {a : α} (h : vSet l i a = some l') :
    i < l.length ∧ l'.length = l.length := by
  unfold vSet at h
  split at h
  · rename_i hi
    cases h
    exact ⟨hi, by simp⟩
  · cases h

theorem vPop_room {l l' : List α} {a : α} (h : vPop l = (some a, l')) : 0 < l.length ∧ l'.length = l.length - 1 := by
  have := vPop_eq_some.1 h
  subst this
  simp

theorem getElem_room {l : List α} {i : Nat} {a : α} (h : l[i]? = some a) : i < l.length := by
  obtain ⟨h, -⟩ := List.getElem?_eq_some_iff.1 h
  exact h

/-- If the body of a loop does not panic, the change can be applied to a list of the length that the loop
variables stand for, and they stand for the new length afterwards. -/
def Checks (len : σ → Nat) (body : σ → VecDiff α → Ctl σ ρ) : Prop :=
  ∀ s d, match body s d with
    | .cont s' => d.Room (len s) ∧ len s' = d.lenAfter (len s)
    | .ret s' _ => d.Room (len s) ∧ len s' = d.lenAfter (len s)
    | .panic => True

/-- The changes taken so far can be applied, one after the other, and give a list of length `n`. -/
def Taken (ds : List (VecDiff α)) (n : Nat) : Prop := ∃ z, replay ds [] = some z ∧ z.length = n

theorem Taken.snoc {ds : List (VecDiff α)} {n : Nat} {d : VecDiff α} (h : Taken ds n) (hd : d.Room n) :
    Taken (ds ++ [d]) (d.lenAfter n) := by
  obtain ⟨z, h1, rfl⟩ := h
  obtain ⟨y, h2, h3⟩ := room_apply hd
  exact ⟨y, replay_append_some h1 (by rw [replay_singleton, h2]), h3⟩

theorem Src.loop_checks {len : σ → Nat} {body : σ → VecDiff α → Ctl σ ρ} (hb : Checks len body) {w : Waker}
    {src src' : Src (Option (VecDiff α))} {s s' : σ} {st : Stop ρ} (h : src.loop w body s = (st, s', src'))
    (hs : st ≠ .panic) (h0 : Taken src.got (len s)) : Taken src'.got (len s') := by
  have key := pollLoop_rule (w := w) (body := body) (fun s src => Taken src.got (len s))
    (fun st s src => st = .panic ∨ Taken src.got (len s)) ?_ ?_ ?_ ?_ ?_ src s h0
  · rw [h] at key
    exact key.resolve_left hs
  · intro s a t h s' hT hc
    have := hb s a
    rw [hc] at this
    rw [got_snoc]
    rw [this.2]
    exact hT.snoc this.1
  · intro s a t h s' r hT hc
    have := hb s a
    rw [hc] at this
    rw [got_snoc]
    rw [this.2]
    exact .inr (hT.snoc this.1)
  · intros; exact .inl rfl
  · intro s t h hT
    rw [got_snoc]
    exact .inr (by simpa [Src.got] using hT)
  · intro s t t' h hT ht
    rw [got_snoc]
    rcases ht with rfl | ⟨rfl, rfl⟩ <;> exact .inr (by simpa [Src.got] using hT)

theorem Inp.loop_checks {len : σ → Nat} {body : σ → VecDiff α → Ctl σ ρ} (hb : Checks len body) {w : Waker}
    {i i' : Inp (Option (VecDiff α))} {s s' : σ} {st : Stop ρ} (h : i.loop w body s = (st, s', i'))
    (hs : st ≠ .panic) (h0 : Taken i.src.got (len s)) : Taken i'.src.got (len s') := by
  unfold Inp.loop at h
  split at h
  · split at h
    · rename_i h1
      cases h
      exact Src.loop_checks hb h1 hs h0
    · rename_i h1
      cases h
      exact Src.loop_checks hb h1 hs h0
  · cases h
    exact h0

theorem Src.poll_got (w : Waker) (src : Src (Option α)) :
    (src.poll w).2.got = src.got ++ items [(src.poll w).1] := by
  obtain ⟨todo, hist⟩ := src
  match todo with
  | [] => exact got_snoc _ _ _ _
  | r :: todo => exact got_snoc _ _ _ _

theorem run_keeps {poll : Waker → σ → Option (Poll (Option β) × σ)} {I : σ → Prop}
    (hstep : ∀ w s r s', I s → poll w s = some (r, s') → I s') {ws : List Waker} {s0 s : σ}
    {outs : List (Poll (Option β))} (h : run poll ws s0 = some (outs, s)) (h0 : I s0) : I s := by
  induction ws generalizing s0 outs with
  | nil => cases h; exact h0
  | cons w ws ih =>
    simp only [run] at h
    split at h
    · cases h
    · rename_i h1
      cases h
      exact hstep _ _ _ _ h0 h1
    · rename_i h1
      split at h
      · cases h
      · rename_i h2
        cases h
        exact ih h2 (hstep _ _ _ _ h0 h1)

theorem taken_nil : Taken ([] : List (VecDiff α)) 0 := ⟨[], rfl, rfl⟩

/-! ## The bodies -/

macro "room" : tactic => `(tactic| (
  repeat' split
  all_goals grind [→ vInsert_room, → vRemove_room, → vSet_room, → vPop_room, → getElem_room, VecDiff.Room,
    VecDiff.lenAfter]))

theorem toSignalBody_checks : Checks (fun s : List α × Bool => s.1.length) (toSignalBody (α := α)) := by
  intro ⟨values, changed⟩ d
  unfold toSignalBody
  cases d <;> simp only [] <;> room

theorem sumBody_checks : Checks (fun s : List α × Bool => s.1.length) (sumBody (α := α)) := by
  intro ⟨values, changed⟩ d
  unfold sumBody
  cases d <;> simp only [] <;> room

theorem filterMapS_length (f : κ → α → Option β × κ) (k : κ) (values : List α) :
    (filterMapS f k values).2.1.length = values.length := by
  induction values generalizing k with
  | nil => rfl
  | cons a as ih =>
    simp [filterMapS, ih]

theorem filterMapBody_checks (f : κ → α → Option β × κ) :
    Checks (fun s : List Bool × κ => s.1.length) (filterMapBody f) := by
  intro ⟨indexes, k⟩ d
  unfold filterMapBody
  cases d with
  | replace values => exact ⟨trivial, filterMapS_length f k values⟩
  | _ => simp only [] <;> room

theorem enumValues_length (cells : Cells) (index : Nat) (values : List α) :
    (enumValues cells index values).2.1.length = values.length := by
  induction values generalizing cells index with
  | nil => rfl
  | cons a as ih => simp [enumValues, ih]

theorem enumChange_checks {mutables mutables' : List Nat} {cells cells' : Cells} {d : VecDiff α}
    {d' : VecDiff (Nat × α)} (h : enumChange mutables cells d = some (d', mutables', cells')) :
    d.Room mutables.length ∧ mutables'.length = d.lenAfter mutables.length := by
  unfold enumChange at h
  cases d with
  | replace values => cases h; exact ⟨trivial, enumValues_length _ _ _⟩
  | _ =>
    simp only [] at h
    grind [→ vInsert_room, → vRemove_room, → vSet_room, → vPop_room, → getElem_room, VecDiff.Room,
      VecDiff.lenAfter]

theorem mapNewAll_length {g : ι → List (Poll (Option β))} {w : Waker} {ts : List ι} {bs : List β}
    {ss : List (MState ι β)} (h : mapNewAll g w ts = some (bs, ss)) : ss.length = ts.length := by
  induction ts generalizing bs ss with
  | nil => cases h; rfl
  | cons t ts ih =>
    simp only [mapNewAll] at h
    grind

theorem mapSignalBody_checks (g : ι → List (Poll (Option β))) (w : Waker) :
    Checks (fun s : List (MState ι β) × List (VecDiff β) => s.1.length) (mapSignalBody g w) := by
  intro ⟨signals, np⟩ d
  unfold mapSignalBody
  cases d with
  | replace values =>
    simp only []
    repeat' split
    all_goals grind [→ mapNewAll_length, VecDiff.Room, VecDiff.lenAfter]
  | _ => simp only [] <;> room

theorem fcNewAll_length {g : α → List (Poll (Option Bool))} {w : Waker} {ts bs : List α}
    {ss : List (FCState α)} (h : fcNewAll g w ts = some (bs, ss)) : ss.length = ts.length := by
  induction ts generalizing bs ss with
  | nil => cases h; rfl
  | cons t ts ih =>
    simp only [fcNewAll] at h
    grind

theorem filterSignalBody_checks (g : α → List (Poll (Option Bool))) (w : Waker) :
    Checks (fun s : List (FCState α) × List (VecDiff α) => s.1.length) (filterSignalBody g w) := by
  intro ⟨signals, np⟩ d
  unfold filterSignalBody
  cases d with
  | replace values =>
    simp only []
    repeat' split
    all_goals grind [→ fcNewAll_length, VecDiff.Room, VecDiff.lenAfter]
  | _ => simp only [] <;> room

theorem pollAllValues_length {w : Waker} {ss ss' : List (FState ι β)} {vs : List β}
    (h : pollAllValues w ss = some (vs, ss')) : ss'.length = ss.length := by
  induction ss generalizing vs ss' with
  | nil => cases h; rfl
  | cons t ts ih =>
    simp only [pollAllValues] at h
    grind

theorem flattenBody_checks (g : ι → List (Poll (Option (VecDiff β)))) (w : Waker) :
    Checks (fun s : List (FState ι β) => s.length) (flattenBody g w) := by
  intro inner d
  unfold flattenBody
  cases d with
  | replace values =>
    simp only []
    repeat' split
    all_goals grind [→ pollAllValues_length, VecDiff.Room, VecDiff.lenAfter]
  | _ => simp only [] <;> room

theorem sortBody_checks (S : SliceFns) (cmp : α → α → Ordering) :
    Checks (fun s : List α × List Nat => s.1.length) (sortBody S cmp) := by
  intro ⟨values, indexes⟩ d
  unfold sortBody
  cases d with
  | pop =>
    simp only [vPop]
    repeat' split
    all_goals grind [VecDiff.Room, VecDiff.lenAfter]
  | clear => exact ⟨trivial, rfl⟩
  | _ =>
    simp only []
    split
    case h_3 => trivial
    all_goals
      rename_i heq
      repeat' split at heq
      all_goals cases heq
      all_goals grind [→ vInsert_room, → vRemove_room, → vSet_room, VecDiff.Room, VecDiff.lenAfter]

theorem pollSignals_length (w : Waker) (k : Nat) (np : List (VecDiff β)) (ss : List (MState ι β)) :
    (pollSignals w k np ss).2.2.length = ss.length := by
  induction ss generalizing k np with
  | nil => rfl
  | cons s ss ih =>
    simp only [pollSignals]
    split <;> simp [ih]

theorem drainSignals_length (w : Waker) (k : Nat) (np : List (VecDiff α)) (ss : List (FCState α)) :
    (drainSignals w k np ss).2.2.length = ss.length := by
  induction ss generalizing k np with
  | nil => rfl
  | cons s ss ih =>
    simp only [drainSignals]
    simp [ih]

theorem pollAllPending_length {w : Waker} {k : Nat} {np np' : List (VecDiff β)} {ss ss' : List (FState ι β)}
    {b : Bool} (h : pollAllPending w k np ss = some (b, np', ss')) : ss'.length = ss.length := by
  induction ss generalizing k np ss' b np' with
  | nil => cases h; rfl
  | cons s ss ih =>
    simp only [pollAllPending] at h
    grind

end Verif
