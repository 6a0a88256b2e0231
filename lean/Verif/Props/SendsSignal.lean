import Verif.SendsSignal
import Verif.Props.Sends
import Verif.SignalVec3
import Verif.SignalMap
import Verif.SignalVec5

/-!
# The changes a combinator sends (C98): `map_signal`, `map_value_signal`, `filter_signal_cloned`, `delay_remove`
-/

namespace Verif

variable {α β δ ε σ ι K V : Type}

theorem Src.loop_trace {body : σ → δ → Ctl σ Empty} (I : List δ → σ → Prop)
    (hb : ∀ g s d s', I g s → body s d = .cont s' → I (g ++ [d]) s') {w : Waker} {src src' : Src (Option δ)} {s s' : σ}
    {st : Stop Empty} (h : src.loop w body s = (st, s', src')) (hs : st ≠ .panic) (h0 : I src.got s) : I src'.got s' := by
  obtain ⟨todo, hist⟩ := src
  unfold Src.loop at h
  dsimp only at h
  induction todo generalizing hist s with
  | nil => cases h; simpa [Src.got, items_append] using h0
  | cons r rs ih =>
    rcases r with ((_ | a) | _)
    · cases h; simpa [Src.got, items_append] using h0
    · simp only [pollLoop] at h
      split at h
      · rename_i s1 h1
        refine ih (s := s1) (hist ++ [(w, .ready (some a))]) h ?_
        have := hb _ _ _ _ h0 h1
        simpa [Src.got, items_append] using this
      · rename_i r _; exact r.elim
      · cases h; exact absurd rfl hs
    · cases h; simpa [Src.got, items_append] using h0

theorem Inp.loop_trace {body : σ → δ → Ctl σ Empty} (I : List δ → σ → Prop)
    (hb : ∀ g s d s', I g s → body s d = .cont s' → I (g ++ [d]) s') {w : Waker} {i i' : Inp (Option δ)} {s s' : σ}
    {st : Stop Empty} (h : i.loop w body s = (st, s', i')) (hs : st ≠ .panic) (h0 : I i.src.got s) : I i'.src.got s' := by
  unfold Inp.loop at h
  split at h
  · split at h
    · rename_i h1; cases h; exact Src.loop_trace I hb h1 hs h0
    · rename_i h1; cases h; exact Src.loop_trace I hb h1 hs h0
  · cases h; exact h0

theorem Woven.others {P : ε → Prop} {ds out es : List ε} (h : Woven P ds out) (he : ∀ e ∈ es, P e) : Woven P ds (out ++ es) := by
  induction es generalizing out with
  | nil => simpa using h
  | cons e es ih =>
    have := ih (h.other (he e (by simp))) (fun x hx => he x (by simp [hx]))
    simpa using this

/-! ## `map_signal` -/

theorem MState.new_first {g : ι → List (Poll (Option β))} {first : ι → β}
    (hg : ∀ a, (g a).head? = some (.ready (some (first a)))) {w : Waker} {a : ι} {p} (h : MState.new g w a = some p) :
    p.1 = first a := by
  have := hg a
  cases hga : g a with
  | nil => simp [hga] at this
  | cons r rs =>
    simp only [hga, List.head?_cons, Option.some.injEq] at this
    subst this
    simp only [MState.new, Src.mk', Src.poll, hga, unwrapPoll, Option.some.injEq] at h
    subst h
    rfl

theorem mapNewAll_first {g : ι → List (Poll (Option β))} {first : ι → β}
    (hg : ∀ a, (g a).head? = some (.ready (some (first a)))) {w : Waker} {as : List ι} {p}
    (h : mapNewAll g w as = some p) : p.1 = as.map first := by
  induction as generalizing p with
  | nil => cases h; rfl
  | cons a as ih =>
    simp only [mapNewAll] at h
    split at h
    · cases h
    · rename_i b s h1
      split at h
      · cases h
      · rename_i bs ss h2
        cases h
        have := ih h2
        have := MState.new_first hg h1
        simp_all

theorem mapSignalBody_sends {g : ι → List (Poll (Option β))} {first : ι → β}
    (hg : ∀ a, (g a).head? = some (.ready (some (first a)))) {w : Waker} {s s' : List (MState ι β) × List (VecDiff β)}
    {d : VecDiff ι} (h : mapSignalBody g w s d = .cont s') : s'.2 = s.2 ++ [d.map first] := by
  obtain ⟨signals, np⟩ := s
  cases d with
  | replace values =>
    simp only [mapSignalBody] at h
    split at h
    · cases h
    · rename_i h1; cases h; simp [VecDiff.map, ← mapNewAll_first hg h1]
  | insertAt i a =>
    simp only [mapSignalBody] at h
    split at h
    · cases h
    · rename_i h1
      split at h
      · cases h
      · cases h; simp [VecDiff.map, ← MState.new_first hg h1]
  | updateAt i a =>
    simp only [mapSignalBody] at h
    split at h
    · cases h
    · rename_i h1
      split at h
      · cases h
      · cases h; simp [VecDiff.map, ← MState.new_first hg h1]
  | push a =>
    simp only [mapSignalBody] at h
    split at h
    · cases h
    · rename_i h1; cases h; simp [VecDiff.map, ← MState.new_first hg h1]
  | move i j =>
    simp only [mapSignalBody] at h
    split at h
    · cases h
    · split at h
      · cases h
      · cases h; rfl
  | removeAt i =>
    simp only [mapSignalBody] at h
    split at h
    · cases h
    · cases h; rfl
  | pop =>
    simp only [mapSignalBody] at h
    split at h
    · cases h
    · cases h; rfl
  | clear => cases h; rfl

/-- A change of the value of one element. -/
def IsUpdate (e : VecDiff β) : Prop := ∃ i b, e = .updateAt i b

theorem pollSignals_sends (w : Waker) (ss : List (MState ι β)) (i : Nat) (np : List (VecDiff β)) :
    ∃ es, (pollSignals w i np ss).2.1 = np ++ es ∧ ∀ e ∈ es, IsUpdate e := by
  induction ss generalizing i np with
  | nil => exact ⟨[], by simp [pollSignals]⟩
  | cons s ss ih =>
    simp only [pollSignals]
    split
    · rename_i value _ _
      obtain ⟨es, h1, h2⟩ := ih (i + 1) (np ++ [.updateAt i value])
      refine ⟨.updateAt i value :: es, by simp [h1], ?_⟩
      simp only [List.mem_cons, forall_eq_or_imp]
      exact ⟨⟨i, value, rfl⟩, h2⟩
    · exact ih _ _
    · exact ih _ _
    · exact ih _ _

theorem VMapSignal.finish_sends (w : Waker) (done : Bool) (i : Inp (Option (VecDiff ι))) (ss : List (MState ι β))
    (np : List (VecDiff β)) : ∃ es, items [(VMapSignal.finish w done i ss np).1] ++ (VMapSignal.finish w done i ss np).2.pending =
      np ++ es ∧ (∀ e ∈ es, IsUpdate e) ∧ (VMapSignal.finish w done i ss np).2.signal = i := by
  obtain ⟨es, h1, h2⟩ := pollSignals_sends w ss 0 np
  refine ⟨es, ?_, h2, ?_⟩
  · unfold VMapSignal.finish
    split
    · rename_i hp; simp [hp] at h1; simpa using h1
    · rename_i hp; simp only [hp] at h1
      split <;> simpa using h1
  · unfold VMapSignal.finish
    split
    · rfl
    · split <;> rfl

/-- **C98**, `map_signal`: it sends for each change it takes one of the same kind at the same position, with the first
values of the new signals, in order, and besides these only `UpdateAt`. -/
theorem C98_map_signal (g : ι → List (Poll (Option β))) (first : ι → β)
    (hg : ∀ a, (g a).head? = some (.ready (some (first a)))) (script : List (Poll (Option (VecDiff ι)))) (ws : List Waker)
    (outs : List (Poll (Option (VecDiff β)))) (s : VMapSignal ι β)
    (h : run (VMapSignal.poll g) ws (VMapSignal.init script) = some (outs, s)) :
    Woven (fun e => ∃ i b, e = .updateAt i b) (s.signal.src.got.map (VecDiff.map first)) (items outs ++ s.pending) := by
  have := run_trace (fun outs s => Woven IsUpdate (s.signal.src.got.map (VecDiff.map first)) (items outs ++ s.pending))
    (outs0 := []) (by
      intro w outs s r s' hI h
      unfold VMapSignal.poll at h
      split at h
      · rename_i diff rest hp
        cases h
        rw [hp] at hI
        simpa [items_append] using hI
      · rename_i hp
        rw [hp] at hI
        have key : ∀ st signals np i, s.signal.loop w (mapSignalBody g w) (s.signals, []) = (st, (signals, np), i) →
            st ≠ .panic → Woven IsUpdate (i.src.got.map (VecDiff.map first)) (items outs ++ np) := by
          intro st signals np i hl hs
          refine Inp.loop_trace (fun g s => Woven IsUpdate (g.map (VecDiff.map first)) (items outs ++ s.2)) ?_ hl hs hI
          intro g s d s' hI hb
          rw [mapSignalBody_sends hg hb, List.map_append, List.map_singleton, ← List.append_assoc]
          exact hI.own _
        split at h
        · cases h
        · cases h
        all_goals
          rename_i signals np i hl
          simp only [Option.some.injEq] at h
          obtain ⟨es, e1, e2, e3⟩ := VMapSignal.finish_sends w _ i signals np
          rw [h] at e1 e3
          have := (key _ _ _ _ hl (by simp)).others e2
          rw [items_append, List.append_assoc, e1, e3, ← List.append_assoc]
          exact this) h (by simpa [VMapSignal.init, Inp.mk', Src.mk', Src.got] using Woven.nil)
  rw [List.nil_append] at this
  exact this

/-- Two elements, and a value of the first signal in between. -/
example : ∃ s, run (VMapSignal.poll (fun n : Nat => [.ready (some n), .ready (some (n + 10))])) [0, 0, 0, 0]
      (VMapSignal.init [.ready (some (.push 1)), .pending, .ready (some (.push 2))]) =
    some ([.ready (some (.push 1)), .ready (some (.updateAt 0 11)), .ready (some (.push 2)), .ready (some (.updateAt 1 12))], s) :=
  ⟨_, rfl⟩

/-! ## `map_value_signal` -/

section

variable [LinearOrder K]

theorem newEntries_first {g : V → List (Poll (Option β))} {first : V → β}
    (hg : ∀ a, (g a).head? = some (.ready (some (first a)))) {w : Waker} {es : List (K × V)} {ss : List (K × MState V β)} {p}
    (h : newEntries g w es ss = some p) : p.1 = es.map fun e => (e.1, first e.2) := by
  induction es generalizing ss p with
  | nil => cases h; rfl
  | cons e es ih =>
    simp only [newEntries] at h
    split at h
    · cases h
    · rename_i b s h1
      split at h
      · cases h
      · rename_i bs ss h2
        cases h
        have := ih h2
        have := MState.new_first hg h1
        simp_all

theorem mapValueBody_sends {g : V → List (Poll (Option β))} {first : V → β}
    (hg : ∀ a, (g a).head? = some (.ready (some (first a)))) {w : Waker}
    {s s' : List (K × MState V β) × List (MapDiff K β)} {d : MapDiff K V} (h : mapValueBody g w s d = .cont s') :
    s'.2 = s.2 ++ [d.map first] := by
  obtain ⟨signals, np⟩ := s
  cases d with
  | replace es =>
    simp only [mapValueBody] at h
    split at h
    · cases h
    · rename_i h1; cases h; simp [MapDiff.map, ← newEntries_first hg h1]
  | insert k a =>
    simp only [mapValueBody] at h
    split at h
    · cases h
    · rename_i h1; cases h; simp [MapDiff.map, ← MState.new_first hg h1]
  | update k a =>
    simp only [mapValueBody] at h
    split at h
    · cases h
    · rename_i h1
      split at h
      · cases h
      · cases h; simp [MapDiff.map, ← MState.new_first hg h1]
  | remove k => cases h; rfl
  | clear => cases h; rfl

/-- A change of the value of one key. -/
def IsValueUpdate (e : MapDiff K β) : Prop := ∃ k b, e = .update k b

theorem pollEntries_sends (w : Waker) (ss : List (K × MState V β)) (np : List (MapDiff K β)) :
    ∃ es, (pollEntries w np ss).2.1 = np ++ es ∧ ∀ e ∈ es, IsValueUpdate e := by
  induction ss generalizing np with
  | nil => exact ⟨[], by simp [pollEntries]⟩
  | cons s ss ih =>
    simp only [pollEntries]
    split
    · rename_i value _ _
      obtain ⟨es, h1, h2⟩ := ih (np ++ [.update s.1 value])
      refine ⟨.update s.1 value :: es, by simp [h1], ?_⟩
      simp only [List.mem_cons, forall_eq_or_imp]
      exact ⟨⟨s.1, value, rfl⟩, h2⟩
    · exact ih _
    · exact ih _
    · exact ih _

theorem MMapSignal.finish_sends (w : Waker) (done : Bool) (i : Inp (Option (MapDiff K V))) (ss : List (K × MState V β))
    (np : List (MapDiff K β)) : ∃ es, items [(MMapSignal.finish w done i ss np).1] ++ (MMapSignal.finish w done i ss np).2.pending =
      np ++ es ∧ (∀ e ∈ es, IsValueUpdate e) ∧ (MMapSignal.finish w done i ss np).2.signal = i := by
  obtain ⟨es, h1, h2⟩ := pollEntries_sends w ss np
  refine ⟨es, ?_, h2, ?_⟩
  · unfold MMapSignal.finish
    split
    · rename_i hp; simp [hp] at h1; simpa using h1
    · rename_i hp; simp only [hp] at h1
      split <;> simpa using h1
  · unfold MMapSignal.finish
    split
    · rfl
    · split <;> rfl

/-- **C98**, `map_value_signal`: it sends for each change it takes one of the same kind for the same key, with the first
value of the new signal, in order, and besides these only `Update`. -/
theorem C98_map_value_signal (g : V → List (Poll (Option β))) (first : V → β)
    (hg : ∀ a, (g a).head? = some (.ready (some (first a)))) (script : List (Poll (Option (MapDiff K V)))) (ws : List Waker)
    (outs : List (Poll (Option (MapDiff K β)))) (s : MMapSignal K V β)
    (h : run (MMapSignal.poll g) ws (MMapSignal.init script) = some (outs, s)) :
    Woven (fun e => ∃ k b, e = .update k b) (s.signal.src.got.map (MapDiff.map first)) (items outs ++ s.pending) := by
  have := run_trace (fun outs s => Woven IsValueUpdate (s.signal.src.got.map (MapDiff.map first)) (items outs ++ s.pending))
    (outs0 := []) (by
      intro w outs s r s' hI h
      unfold MMapSignal.poll at h
      split at h
      · rename_i diff rest hp
        cases h
        rw [hp] at hI
        simpa [items_append] using hI
      · rename_i hp
        rw [hp] at hI
        have key : ∀ st signals np i, s.signal.loop w (mapValueBody g w) (s.signals, []) = (st, (signals, np), i) →
            st ≠ .panic → Woven IsValueUpdate (i.src.got.map (MapDiff.map first)) (items outs ++ np) := by
          intro st signals np i hl hs
          refine Inp.loop_trace (fun g s => Woven IsValueUpdate (g.map (MapDiff.map first)) (items outs ++ s.2)) ?_ hl hs hI
          intro g s d s' hI hb
          rw [mapValueBody_sends hg hb, List.map_append, List.map_singleton, ← List.append_assoc]
          exact hI.own _
        split at h
        · cases h
        · cases h
        all_goals
          rename_i signals np i hl
          simp only [Option.some.injEq] at h
          obtain ⟨es, e1, e2, e3⟩ := MMapSignal.finish_sends w _ i signals np
          rw [h] at e1 e3
          have := (key _ _ _ _ hl (by simp)).others e2
          rw [items_append, List.append_assoc, e1, e3, ← List.append_assoc]
          exact this) h (by simpa [MMapSignal.init, Inp.mk', Src.mk', Src.got] using Woven.nil)
  rw [List.nil_append] at this
  exact this

end

example : ∃ s, run (MMapSignal.poll (fun n : Nat => [.ready (some n), .ready (some (n + 10))])) [0, 0, 0]
      (MMapSignal.init [.ready (some (.insert 7 1)), .pending, .ready (some (.remove 7))]) =
    some ([.ready (some (.insert 7 1)), .ready (some (.update 7 11)), .ready (some (.remove 7))], s) :=
  ⟨_, rfl⟩

/-! ## `filter_signal_cloned` -/

/-- The elements with what their signals say. -/
def flagged (ss : List (FCState α)) : List (α × Bool) := ss.map fun s => (s.value, s.isIn)

theorem keptBefore_flagged (ss : List (FCState α)) (i : Nat) :
    keptBefore ifShown (flagged ss) i = ((ss.take i).filter (·.isIn)).length := by
  unfold keptBefore flagged
  rw [← List.map_take]
  induction ss.take i with
  | nil => rfl
  | cons s ss ih => cases h : s.isIn <;> simp_all [ifShown]

theorem fcFindIndex_kept {ss : List (FCState α)} {i k : Nat} (h : fcFindIndex ss i = some k) :
    k = keptBefore ifShown (flagged ss) i := by
  unfold fcFindIndex at h
  split at h
  · cases h; exact (keptBefore_flagged ss i).symm
  · cases h

theorem FCState.new_first {g : α → List (Poll (Option Bool))} {first : α → Bool}
    (hg : ∀ a, (g a).head? = some (.ready (some (first a)))) {w : Waker} {a : α} {p} (h : FCState.new g w a = some p) :
    p.isIn = first a ∧ p.value = a := by
  have := hg a
  cases hga : g a with
  | nil => simp [hga] at this
  | cons r rs =>
    simp only [hga, List.head?_cons, Option.some.injEq] at this
    subst this
    simp only [FCState.new, Src.mk', Src.poll, hga, unwrapPoll, Option.some.injEq] at h
    subst h
    exact ⟨rfl, rfl⟩

theorem fcNewAll_first {g : α → List (Poll (Option Bool))} {first : α → Bool}
    (hg : ∀ a, (g a).head? = some (.ready (some (first a)))) {w : Waker} {as : List α} {p}
    (h : fcNewAll g w as = some p) :
    flagged p.2 = as.map (fun a => (a, first a)) ∧ p.1 = (as.map (fun a => (a, first a))).filterMap ifShown := by
  induction as generalizing p with
  | nil => cases h; exact ⟨rfl, rfl⟩
  | cons a as ih =>
    simp only [fcNewAll] at h
    split at h
    · cases h
    · rename_i s h1
      split at h
      · cases h
      · rename_i bs ss h2
        cases h
        obtain ⟨e1, e2⟩ := ih h2
        obtain ⟨e3, e4⟩ := FCState.new_first hg h1
        dsimp only at e1 e2 ⊢
        refine ⟨by simp [flagged, e3, e4] at e1 ⊢; exact e1, ?_⟩
        rw [e3, e2]
        cases hf : first a <;> simp [ifShown, hf]

theorem flagged_take (ss : List (FCState α)) (i : Nat) : flagged (ss.take i) = (flagged ss).take i := by simp [flagged]

theorem flagged_get (ss : List (FCState α)) (i : Nat) : (flagged ss)[i]? = ss[i]?.map fun s => (s.value, s.isIn) := by
  simp [flagged]

theorem keptBefore_congr {f : α → Option β} {xs ys : List α} {i : Nat} (h : xs.take i = ys.take i) :
    keptBefore f xs i = keptBefore f ys i := by simp [keptBefore, h]

theorem filterSignalBody_says {g : α → List (Poll (Option Bool))} {first : α → Bool}
    (hg : ∀ a, (g a).head? = some (.ready (some (first a)))) {w : Waker} {s s' : List (FCState α) × List (VecDiff α)}
    {d : VecDiff α} (h : filterSignalBody g w s d = .cont s') :
    (Notices.took d).apply first (flagged s.1) = some (flagged s'.1) ∧
      s'.2 = s.2 ++ (Notices.took d).says first (flagged s.1) (flagged s'.1) := by
  obtain ⟨signals, np⟩ := s
  have happ : ∀ p q : List (FCState α), flagged (p ++ q) = flagged p ++ flagged q := fun p q => by simp [flagged]
  have hcons : ∀ (x : FCState α) q, flagged (x :: q) = (x.value, x.isIn) :: flagged q := fun x q => rfl
  have hlen : ∀ p : List (FCState α), (flagged p).length = p.length := fun p => by simp [flagged]
  cases d with
  | replace values =>
    simp only [filterSignalBody] at h
    split at h
    · cases h
    · rename_i vs ss h1
      cases h
      obtain ⟨e1, e2⟩ := fcNewAll_first hg h1
      dsimp only at e1 e2
      simp [Notices.apply, Notices.says, VecDiff.map, VecDiff.apply, filterSays, e1, e2]
  | insertAt i a =>
    simp only [filterSignalBody] at h
    split at h
    · cases h
    · rename_i st h1
      obtain ⟨e1, e2⟩ := FCState.new_first hg h1
      split at h
      · cases h
      · rename_i ss h2
        obtain ⟨p, q, rfl, rfl, rfl⟩ := vInsert_eq_some.1 h2
        have hap : (Notices.took (.insertAt p.length a)).apply first (flagged (p ++ q)) = some (flagged (p ++ st :: q)) := by
          simp only [Notices.apply, VecDiff.map, VecDiff.apply, happ, hcons, e1, e2]
          rw [← hlen p, vInsert_append]
        split at h
        · rename_i hin
          split at h
          · cases h
          · rename_i k hk
            cases h
            refine ⟨hap, ?_⟩
            rw [fcFindIndex_kept hk]
            have hf : first a = true := by rw [← e1, hin]
            simp only [Notices.says, VecDiff.map, filterSays, ifShown, hf, happ, ← hlen p, keptBefore_append]
            simp
        · rename_i hin
          cases h
          refine ⟨hap, ?_⟩
          have hf : first a = false := by rw [← e1]; simpa using hin
          simp [Notices.says, VecDiff.map, filterSays, ifShown, hf]
  | updateAt i a =>
    simp only [filterSignalBody] at h
    split at h
    · cases h
    · rename_i st h1
      obtain ⟨e1, e2⟩ := FCState.new_first hg h1
      split at h
      · cases h
      · rename_i old h2
        have hlt := (List.getElem?_eq_some_iff.1 h2).1
        obtain ⟨p, b, q, hs, hi, h3⟩ := vSet_eq_some.1 (show vSet signals i st = some (signals.set i st) by simp [vSet, hlt])
        subst hi
        rw [h3] at h
        subst hs
        have hb : b = old := by simpa using h2
        subst hb
        have hap : (Notices.took (.updateAt p.length a)).apply first (flagged (p ++ b :: q)) = some (flagged (p ++ st :: q)) := by
          simp only [Notices.apply, VecDiff.map, VecDiff.apply, happ, hcons, e1, e2]
          rw [← hlen p, vSet_append]
        have hget : (flagged p ++ (b.value, b.isIn) :: flagged q)[(flagged p).length]? = some (b.value, b.isIn) := by simp
        split at h
        · rename_i hin
          have hf : first a = true := by rw [← e1, hin]
          split at h
          all_goals
            rename_i hold
            split at h
            · cases h
            · rename_i k hk
              cases h
              refine ⟨hap, ?_⟩
              rw [fcFindIndex_kept hk]
              simp only [Notices.says, VecDiff.map, filterSays, happ, hcons, ← hlen p, keptBefore_append, hget]
              simp_all [ifShown]
        · rename_i hin
          have hf : first a = false := by rw [← e1]; simpa using hin
          split at h
          · rename_i hold
            split at h
            · cases h
            · rename_i k hk
              cases h
              refine ⟨hap, ?_⟩
              rw [fcFindIndex_kept hk]
              simp only [Notices.says, VecDiff.map, filterSays, happ, hcons, ← hlen p, keptBefore_append, hget]
              simp_all [ifShown]
          · rename_i hold
            cases h
            refine ⟨hap, ?_⟩
            simp only [Notices.says, VecDiff.map, filterSays, happ, hcons, ← hlen p, hget]
            simp_all [ifShown]
  | push a =>
    simp only [filterSignalBody] at h
    split at h
    · cases h
    · rename_i st h1
      obtain ⟨e1, e2⟩ := FCState.new_first hg h1
      split at h
      · rename_i hin
        cases h
        have hf : first a = true := by rw [← e1, hin]
        simp [Notices.apply, Notices.says, VecDiff.map, VecDiff.apply, filterSays, ifShown, hf, happ, flagged, e1, e2]
      · rename_i hin
        cases h
        have hf : first a = false := by rw [← e1]; simpa using hin
        simp [Notices.apply, Notices.says, VecDiff.map, VecDiff.apply, filterSays, ifShown, hf, happ, flagged, e1, e2]
  | move i j =>
    simp only [filterSignalBody] at h
    split at h
    · cases h
    · rename_i st ss h1
      obtain ⟨p, q, rfl, rfl, rfl⟩ := vRemove_eq_some.1 h1
      split at h
      · cases h
      · rename_i ss h2
        obtain ⟨p', q', h3, rfl, rfl⟩ := vInsert_eq_some.1 h2
        have hap : (Notices.took (.move p.length p'.length)).apply first (flagged (p ++ st :: q)) =
            some (flagged (p' ++ st :: q')) := by
          simp only [Notices.apply, VecDiff.map, VecDiff.apply, happ, hcons]
          rw [← hlen p, vRemove_append]
          dsimp only
          rw [← happ, h3, happ, ← hlen p', vInsert_append]
        have hget : (flagged p ++ (st.value, st.isIn) :: flagged q)[(flagged p).length]? = some (st.value, st.isIn) := by simp
        split at h
        · rename_i hin
          split at h
          · rename_i k l hk hl
            cases h
            refine ⟨hap, ?_⟩
            rw [fcFindIndex_kept hk, fcFindIndex_kept hl]
            have : (((flagged (p ++ st :: q))[p.length]?).bind ifShown).isSome = true := by
              rw [happ, hcons, ← hlen p, hget]; simp [ifShown, hin]
            simp only [Notices.says, VecDiff.map, filterSays, this, ↓reduceIte]
          · cases h
        · rename_i hin
          cases h
          refine ⟨hap, ?_⟩
          have : (((flagged (p ++ st :: q))[p.length]?).bind ifShown).isSome = false := by
            rw [happ, hcons, ← hlen p, hget]; simpa [ifShown] using hin
          simp [Notices.says, VecDiff.map, filterSays, this]
  | removeAt i =>
    simp only [filterSignalBody] at h
    split at h
    · cases h
    · rename_i st ss h1
      obtain ⟨p, q, rfl, rfl, rfl⟩ := vRemove_eq_some.1 h1
      have hap : (Notices.took (.removeAt p.length)).apply first (flagged (p ++ st :: q)) = some (flagged (p ++ q)) := by
        simp only [Notices.apply, VecDiff.map, VecDiff.apply, happ, hcons]
        rw [← hlen p, vRemove_append]
      have hget : (flagged p ++ (st.value, st.isIn) :: flagged q)[(flagged p).length]? = some (st.value, st.isIn) := by simp
      split at h
      · rename_i hin
        split at h
        · cases h
        · rename_i k hk
          cases h
          refine ⟨hap, ?_⟩
          rw [fcFindIndex_kept hk]
          simp only [Notices.says, VecDiff.map, filterSays, happ, hcons, ← hlen p, keptBefore_append, hget]
          simp [ifShown, hin]
      · rename_i hin
        cases h
        refine ⟨hap, ?_⟩
        simp only [Notices.says, VecDiff.map, filterSays, happ, hcons, ← hlen p, hget]
        simp_all [ifShown]
  | pop =>
    simp only [filterSignalBody] at h
    split at h
    · cases h
    · rename_i st ss h1
      obtain rfl := vPop_eq_some.1 h1
      have hap : (Notices.took .pop).apply first (flagged (ss ++ [st])) = some (flagged ss) := by
        simp only [Notices.apply, VecDiff.map, VecDiff.apply, happ, hcons]
        rw [show flagged ([] : List (FCState α)) = [] from rfl, vPop_snoc]
      split at h
      all_goals
        rename_i hin
        cases h
        refine ⟨hap, ?_⟩
        simp only [Notices.says, VecDiff.map, filterSays, happ, hcons]
        simp_all [ifShown, flagged]
  | clear => cases h; simp [Notices.apply, Notices.says, VecDiff.map, VecDiff.apply, filterSays, flagged]

theorem contents_append {τ : Type} {apply : δ → τ → Option τ} {x y : τ} {ds : List δ} (h : contents apply x ds = some y)
    (es : List δ) : contents apply x (ds ++ es) = contents apply y es := by
  induction ds generalizing x with
  | nil => cases h; rfl
  | cons d ds ih =>
    simp only [contents, List.cons_append] at h ⊢
    cases hd : apply d x with
    | none => simp [hd] at h
    | some z => rw [hd] at h; exact ih h

theorem sends_append {τ : Type} {apply : δ → τ → Option τ} {says : τ → τ → δ → List ε} {x y : τ} {ds : List δ}
    (h : contents apply x ds = some y) (es : List δ) :
    sends apply says x (ds ++ es) = sends apply says x ds ++ sends apply says y es := by
  induction ds generalizing x with
  | nil => cases h; rfl
  | cons d ds ih =>
    simp only [contents, List.cons_append, sends] at h ⊢
    cases hd : apply d x with
    | none => simp [hd] at h
    | some z => rw [hd] at h; simp [ih h]

theorem FCState.drain_value (w : Waker) (s : FCState α) : (s.drain w).2.value = s.value := by
  unfold FCState.drain
  split <;> rfl

theorem drainSignals_says (first : α → Bool) (w : Waker) (ss pre : List (FCState α)) (np : List (VecDiff α)) :
    ∃ ts : List (Notices α), ts.filterMap Notices.taken = [] ∧
      contents (Notices.apply first) (flagged (pre ++ ss)) ts =
        some (flagged (pre ++ (drainSignals w (pre.filter (·.isIn)).length np ss).2.2)) ∧
      (drainSignals w (pre.filter (·.isIn)).length np ss).2.1 =
        np ++ sends (Notices.apply first) (Notices.says first) (flagged (pre ++ ss)) ts := by
  induction ss generalizing pre np with
  | nil => exact ⟨[], rfl, by simp [drainSignals, contents], by simp [drainSignals, sends]⟩
  | cons s ss ih =>
    have hv := FCState.drain_value w s
    rcases hdr : s.drain w with ⟨p, s1⟩
    rw [hdr] at hv
    dsimp only at hv
    have hri : (if s1.isIn then (pre.filter (·.isIn)).length + 1 else (pre.filter (·.isIn)).length) =
        ((pre ++ [s1]).filter (·.isIn)).length := by
      cases h : s1.isIn <;> simp [h]
    have hkb : keptBefore ifShown (flagged (pre ++ s :: ss)) pre.length = (pre.filter (·.isIn)).length := by
      rw [keptBefore_flagged]; simp
    by_cases hne : s1.isIn = s.isIn
    · obtain ⟨ts, t1, t2, t3⟩ := ih (pre ++ [s1]) np
      have hfl : flagged (pre ++ s :: ss) = flagged (pre ++ [s1] ++ ss) := by simp [flagged, hv, hne]
      refine ⟨ts, t1, ?_, ?_⟩
      · simp only [drainSignals, hdr, hne, ne_eq, not_true_eq_false, ↓reduceIte]
        rw [← hne, hri, hfl, t2]
        simp
      · simp only [drainSignals, hdr, hne, ne_eq, not_true_eq_false, ↓reduceIte]
        rw [← hne, hri, hfl, t3]
    · have hap : (Notices.turned pre.length s1.isIn).apply first (flagged (pre ++ s :: ss)) =
          some (flagged (pre ++ [s1] ++ ss)) := by
        simp [Notices.apply, flagged, hv, List.getElem?_append_right, List.set_append_right]
      have hsay : (Notices.turned pre.length s1.isIn).says first (flagged (pre ++ s :: ss)) (flagged (pre ++ [s1] ++ ss)) =
          if s1.isIn then [.insertAt (pre.filter (·.isIn)).length s1.value] else [.removeAt (pre.filter (·.isIn)).length] := by
        have hg : (flagged (pre ++ s :: ss))[pre.length]? = some (s.value, s.isIn) := by simp [flagged]
        simp only [Notices.says, hg, hkb]
        cases h1 : s1.isIn <;> cases h2 : s.isIn <;> simp_all
      obtain ⟨ts, t1, t2, t3⟩ := ih (pre ++ [s1]) (if s1.isIn then np ++ [.insertAt (pre.filter (·.isIn)).length s1.value]
        else np ++ [.removeAt (pre.filter (·.isIn)).length])
      refine ⟨.turned pre.length s1.isIn :: ts, by simpa [Notices.taken] using t1, ?_, ?_⟩
      · simp only [drainSignals, hdr, ne_eq, hne, not_false_eq_true, ↓reduceIte, contents, hap]
        rw [hri, t2]
        simp
      · simp only [drainSignals, hdr, ne_eq, hne, not_false_eq_true, ↓reduceIte, sends, hap, hsay]
        rw [hri, t3]
        cases s1.isIn <;> simp

theorem VFilterSignal.finish_says (first : α → Bool) (w : Waker) (done : Bool) (i : Inp (Option (VecDiff α)))
    (ss : List (FCState α)) (np : List (VecDiff α)) : ∃ ts : List (Notices α), ts.filterMap Notices.taken = [] ∧
      contents (Notices.apply first) (flagged ss) ts = some (flagged (VFilterSignal.finish w done i ss np).2.signals) ∧
      items [(VFilterSignal.finish w done i ss np).1] ++ (VFilterSignal.finish w done i ss np).2.pending =
        np ++ sends (Notices.apply first) (Notices.says first) (flagged ss) ts ∧
      (VFilterSignal.finish w done i ss np).2.signal = i := by
  obtain ⟨ts, h1, h2, h3⟩ := drainSignals_says first w ss [] np
  simp only [List.filter_nil, List.length_nil, List.nil_append] at h2 h3
  refine ⟨ts, h1, ?_⟩
  unfold VFilterSignal.finish
  split
  · rename_i hp
    simp only [hp] at h2 h3
    exact ⟨h2, by simpa using h3, rfl⟩
  · rename_i hp
    simp only [hp] at h2 h3
    split <;> exact ⟨h2, by simpa using h3, rfl⟩

/-- **C98**, `filter_signal_cloned`: it notices the changes of its input in order, and in between that signals of its
elements changed.  What it sends is what `Notices.says` says for each of these, and nothing else.  (Its state at the end
is that of following these.) -/
theorem C98_filter_signal (g : α → List (Poll (Option Bool))) (first : α → Bool)
    (hg : ∀ a, (g a).head? = some (.ready (some (first a)))) (script : List (Poll (Option (VecDiff α)))) (ws : List Waker)
    (outs : List (Poll (Option (VecDiff α)))) (s : VFilterSignal α)
    (h : run (VFilterSignal.poll g) ws (VFilterSignal.init script) = some (outs, s)) :
    ∃ trace : List (Notices α), trace.filterMap Notices.taken = s.signal.src.got ∧
      contents (Notices.apply first) [] trace = some (s.signals.map fun x => (x.value, x.isIn)) ∧
      items outs ++ s.pending = sends (Notices.apply first) (Notices.says first) [] trace := by
  have := run_trace (fun outs s => ∃ trace : List (Notices α), trace.filterMap Notices.taken = s.signal.src.got ∧
      contents (Notices.apply first) [] trace = some (flagged s.signals) ∧
      items outs ++ s.pending = sends (Notices.apply first) (Notices.says first) [] trace)
    (outs0 := []) (by
      intro w outs s r s' hI h
      unfold VFilterSignal.poll at h
      split at h
      · rename_i diff rest hp
        cases h
        rw [hp] at hI
        simpa [items_append] using hI
      · rename_i hp
        rw [hp] at hI
        have key : ∀ st signals np i, s.signal.loop w (filterSignalBody g w) (s.signals, []) = (st, (signals, np), i) →
            st ≠ .panic → ∃ trace : List (Notices α), trace.filterMap Notices.taken = i.src.got ∧
              contents (Notices.apply first) [] trace = some (flagged signals) ∧
              items outs ++ np = sends (Notices.apply first) (Notices.says first) [] trace := by
          intro st signals np i hl hs
          refine Inp.loop_trace (fun g s => ∃ trace : List (Notices α), trace.filterMap Notices.taken = g ∧
              contents (Notices.apply first) [] trace = some (flagged s.1) ∧
              items outs ++ s.2 = sends (Notices.apply first) (Notices.says first) [] trace) ?_ hl hs hI
          rintro g s d s' ⟨tr, t1, t2, t3⟩ hb
          obtain ⟨b1, b2⟩ := filterSignalBody_says hg hb
          refine ⟨tr ++ [.took d], by simp [t1, Notices.taken], (contents_snoc t2 _).trans b1, ?_⟩
          rw [sends_snoc t2 b1, ← t3, b2, List.append_assoc]
        split at h
        · cases h
        · cases h
        all_goals
          rename_i signals np i hl
          simp only [Option.some.injEq] at h
          obtain ⟨tr, t1, t2, t3⟩ := key _ _ _ _ hl (by simp)
          obtain ⟨ts, e1, e2, e3, e4⟩ := VFilterSignal.finish_says first w _ i signals np
          rw [h] at e2 e3 e4
          dsimp only at e2 e3 e4
          refine ⟨tr ++ ts, by simp [t1, e1, e4], (contents_append t2 ts).trans e2, ?_⟩
          rw [sends_append t2, ← t3, items_append, List.append_assoc, e3, List.append_assoc]) h
    ⟨[], by simp [VFilterSignal.init, Inp.mk', Src.mk', Src.got], rfl, by simp [VFilterSignal.init, sends]⟩
  simpa [flagged] using this

/-- Two elements; the first is shown at first, then hidden. -/
example : ∃ s, run (VFilterSignal.poll (fun n : Nat => [.ready (some true), .pending, .ready (some (n != 1))])) [0, 0, 0]
      (VFilterSignal.init [.ready (some (.push 1)), .ready (some (.push 2)), .pending]) =
    some ([.ready (some (.push 1)), .ready (some (.push 2)), .ready (some (.removeAt 0))], s) :=
  ⟨_, rfl⟩

/-! ## `delay_remove` -/

theorem DVars.removeIndex_adds {v v' : DVars α} {i : Nat} (h : v.removeIndex i = some v') :
    v'.newPending.flatMap VecDiff.adds = v.newPending.flatMap VecDiff.adds := by
  unfold DVars.removeIndex at h
  split at h
  · cases h
  · split at h
    · split at h
      · cases h; simp [VecDiff.adds]
      · cases h
    · split at h
      · cases h; simp [VecDiff.adds]
      · cases h

theorem DVars.removeAll_adds {v v' : DVars α} {is : List Nat} (h : v.removeAll is = some v') :
    v'.newPending.flatMap VecDiff.adds = v.newPending.flatMap VecDiff.adds := by
  induction is generalizing v with
  | nil => cases h; rfl
  | cons i is ih =>
    simp only [DVars.removeAll] at h
    split at h
    · rename_i v1 h1; rw [ih h, DVars.removeIndex_adds h1]
    · cases h

theorem DVars.removeOne_adds {w : Waker} {v v' : DVars α} {i : Nat} (h : v.removeOne w i = some v') :
    v'.newPending.flatMap VecDiff.adds = v.newPending.flatMap VecDiff.adds := by
  unfold DVars.removeOne at h
  split at h
  · cases h
  · split at h
    · cases h
    · simpa using DVars.removeIndex_adds h
    · cases h; rfl

theorem delayBody_adds {g : α → List (Poll Unit)} {w : Waker} {v v' : DVars α} {d : VecDiff α}
    (h : delayBody g w v d = .cont v') :
    v'.newPending.flatMap VecDiff.adds = v.newPending.flatMap VecDiff.adds ++ d.adds := by
  have hgo : ∀ o : Option (DVars α), goOn o = .cont v' → o = some v' := by
    intro o ho
    cases o with
    | none => cases ho
    | some x => cases ho; rfl
  cases d with
  | replace values =>
    simp only [delayBody] at h
    split at h
    · cases h; simp [VecDiff.adds]
    · split at h
      · cases h
      · rename_i v1 h1
        cases h
        have := DVars.removeAll_adds h1
        simp only [List.flatMap_append, this, VecDiff.adds]
        congr 1
        clear hgo
        induction values with
        | nil => rfl
        | cons a as ih => simp [VecDiff.adds, ih]
  | insertAt i a =>
    simp only [delayBody] at h
    split at h
    · cases h
    · cases h; simp [VecDiff.adds]
  | push a => cases h; simp [VecDiff.adds]
  | updateAt i a =>
    simp only [delayBody] at h
    split at h
    · cases h
    · split at h
      · cases h
      · cases h; simp [VecDiff.adds]
  | move i j =>
    simp only [delayBody] at h
    split at h
    · cases h
    · split at h
      · cases h
      · split at h
        · cases h
        · cases h; simp [VecDiff.adds]
  | removeAt i =>
    simp only [delayBody] at h
    split at h
    · cases h
    · simpa [VecDiff.adds] using DVars.removeOne_adds (hgo _ h)
  | pop =>
    simp only [delayBody] at h
    split at h
    · cases h
    · simpa [VecDiff.adds] using DVars.removeOne_adds (hgo _ h)
  | clear => simpa [VecDiff.adds] using DVars.removeAll_adds (hgo _ h)

theorem VDelay.finish_adds {w : Waker} {done : Bool} {i : Inp (Option (VecDiff α))} {v : DVars α} {r} {s : VDelay α}
    (h : VDelay.finish w done i v = some (r, s)) :
    (items [r] ++ s.pending).flatMap VecDiff.adds = v.newPending.flatMap VecDiff.adds ∧ s.signal = i := by
  unfold VDelay.finish at h
  dsimp only at h
  split at h
  · cases h
  · rename_i v1 h1
    have := DVars.removeAll_adds h1
    dsimp only at this
    split at h
    · rename_i hp; cases h; rw [← this, hp]; exact ⟨by simp, rfl⟩
    · rename_i hp
      rw [hp] at this
      split at h
      all_goals
        cases h
        exact ⟨by rw [← this]; simp, rfl⟩

/-- **C98**, `delay_remove`: besides removals it sends exactly the changes it took, in order and with their values, except
that a `Replace` may come as that many `Push`. -/
theorem C98_delay_remove (g : α → List (Poll Unit)) (script : List (Poll (Option (VecDiff α)))) (ws : List Waker)
    (outs : List (Poll (Option (VecDiff α)))) (s : VDelay α)
    (h : run (VDelay.poll g) ws (VDelay.init script) = some (outs, s)) :
    (items outs ++ s.pending).flatMap VecDiff.adds = s.signal.src.got.flatMap VecDiff.adds := by
  have := run_trace (fun outs (s : VDelay α) =>
      (items outs ++ s.pending).flatMap VecDiff.adds = s.signal.src.got.flatMap VecDiff.adds)
    (outs0 := []) (by
      intro w outs s r s' hI h
      unfold VDelay.poll at h
      split at h
      · rename_i diff rest hp
        cases h
        rw [hp] at hI
        simpa [items_append] using hI
      · rename_i hp
        rw [hp] at hI
        have key : ∀ st v i, s.signal.loop w (delayBody g w) ⟨s.futures, [], s.gone⟩ = (st, v, i) → st ≠ .panic →
            (items outs ++ v.newPending).flatMap VecDiff.adds = i.src.got.flatMap VecDiff.adds := by
          intro st v i hl hs
          refine Inp.loop_trace (fun g (v : DVars α) => (items outs ++ v.newPending).flatMap VecDiff.adds =
            g.flatMap VecDiff.adds) ?_ hl hs hI
          intro g v d v' hI hb
          rw [List.flatMap_append, delayBody_adds hb, ← List.append_assoc, ← List.flatMap_append, hI]
          simp
        split at h
        · rename_i v i hl
          obtain ⟨e1, e2⟩ := VDelay.finish_adds h
          rw [items_append, List.append_assoc, List.flatMap_append, e1, ← List.flatMap_append, e2]
          exact key _ _ _ hl (by simp)
        · rename_i v i hl
          obtain ⟨e1, e2⟩ := VDelay.finish_adds h
          rw [items_append, List.append_assoc, List.flatMap_append, e1, ← List.flatMap_append, e2]
          exact key _ _ _ hl (by simp)
        · cases h) h (by simp [VDelay.init, Inp.mk', Src.mk', Src.got])
  rw [List.nil_append] at this
  exact this

/-- A `Replace` while an element is leaving. -/
example : ∃ s, run (VDelay.poll (fun n : Nat => if n = 1 then [.pending, .ready ()] else [.ready ()])) [0, 0, 0, 0, 0]
      (VDelay.init [.ready (some (.push 1)), .ready (some (.push 2)), .ready (some (.replace [3])), .pending]) =
    some ([.ready (some (.push 1)), .ready (some (.push 2)), .ready (some .pop), .ready (some (.push 3)),
      .ready (some (.removeAt 0))], s) :=
  ⟨_, rfl⟩

end Verif
