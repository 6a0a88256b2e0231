import Verif.Checks
import Verif.Props.SignalVecMap
import Verif.Props.SignalVecSort

/-!
# C90: changes that do not fit

The inputs here are arbitrary: they may send changes that cannot be applied to the present list, as a
`SignalVec` written by the user, or a faulty one (C13, C14), may do.
-/

namespace Verif

variable {α β ι κ : Type}

/-- **C90**, `to_signal_map`, `to_signal_cloned`: the first change that cannot be applied makes the poll that
takes it panic: as long as no poll panicked, all changes taken fit. -/
theorem C90_to_signal (callback : List α → β) (script : List (Poll (Option (VecDiff α)))) (ws : List Waker)
    {outs : List (Poll (Option β))} {s : VToSignal α}
    (h : run (VToSignal.poll callback) ws (VToSignal.init script) = some (outs, s)) :
    ∃ z, replay s.signal.src.got [] = some z := by
  have := run_keeps (I := fun s : VToSignal α => Taken s.signal.src.got s.values.length) ?_ h taken_nil
  · exact ⟨_, this.choose_spec.1⟩
  · intro w s r s' hI hp
    unfold VToSignal.poll at hp
    split at hp
    · cases hp
    · cases hp
    · rename_i st values changed i h1 h2 hl
      have := Inp.loop_checks toSignalBody_checks hl (by rintro rfl; exact h1 rfl) hI
      split at hp
      · cases hp; exact this
      · split at hp <;> (cases hp; exact this)

/-- **C90**, `sum`. -/
theorem C90_sum (add : α → α → α) (zero : α) (script : List (Poll (Option (VecDiff α)))) (ws : List Waker)
    {outs : List (Poll (Option α))} {s : VToSignal α}
    (h : run (VSum.poll add zero) ws (VToSignal.init script) = some (outs, s)) :
    ∃ z, replay s.signal.src.got [] = some z := by
  have := run_keeps (I := fun s : VToSignal α => Taken s.signal.src.got s.values.length) ?_ h taken_nil
  · exact ⟨_, this.choose_spec.1⟩
  · intro w s r s' hI hp
    unfold VSum.poll at hp
    split at hp
    · cases hp
    · cases hp
    · rename_i st values changed i h1 h2 hl
      have := Inp.loop_checks sumBody_checks hl (by rintro rfl; exact h1 rfl) hI
      split at hp
      · cases hp; exact this
      · split at hp <;> (cases hp; exact this)

/-- **C90**, `filter_map`. -/
theorem C90_filter_map (f : κ → α → Option β × κ) (k : κ) (script : List (Poll (Option (VecDiff α))))
    (ws : List Waker) {outs : List (Poll (Option (VecDiff β)))} {s : VFilterMap κ α}
    (h : run (VFilterMap.poll f) ws (VFilterMap.init k script) = some (outs, s)) :
    ∃ z, replay s.signal.got [] = some z := by
  have := run_keeps (I := fun s : VFilterMap κ α => Taken s.signal.got s.indexes.length) ?_ h taken_nil
  · exact ⟨_, this.choose_spec.1⟩
  · intro w s r s' hI hp
    unfold VFilterMap.poll at hp
    split at hp
    · rename_i hl
      have := Src.loop_checks (filterMapBody_checks f) hl (by simp) hI
      cases hp; exact this
    · rename_i hl
      have := Src.loop_checks (filterMapBody_checks f) hl (by simp) hI
      cases hp; exact this
    · rename_i hl
      have := Src.loop_checks (filterMapBody_checks f) hl (by simp) hI
      cases hp; exact this
    · cases hp

/-- **C90**, `filter`. -/
theorem C90_filter (f : κ → α → Bool × κ) (k : κ) (script : List (Poll (Option (VecDiff α))))
    (ws : List Waker) {outs : List (Poll (Option (VecDiff α)))} {s : VFilterMap κ α}
    (h : run (VFilter.poll f) ws (VFilterMap.init k script) = some (outs, s)) :
    ∃ z, replay s.signal.got [] = some z :=
  C90_filter_map _ k script ws h

/-- **C90**, `enumerate`. -/
theorem C90_enumerate (script : List (Poll (Option (VecDiff α)))) (ws : List Waker)
    {outs : List (Poll (Option (VecDiff (Nat × α))))} {s : VEnumerate α}
    (h : run VEnumerate.poll ws (VEnumerate.init script) = some (outs, s)) :
    ∃ z, replay s.signal.got [] = some z := by
  have := run_keeps (I := fun s : VEnumerate α => Taken s.signal.got s.mutables.length) ?_ h taken_nil
  · exact ⟨_, this.choose_spec.1⟩
  · intro w s r s' hI hp
    have hg := Src.poll_got w s.signal
    unfold VEnumerate.poll at hp
    split at hp
    · rename_i d src hs
      rw [hs] at hg
      split at hp
      · cases hp
      · rename_i hc
        cases hp
        obtain ⟨h1, h2⟩ := enumChange_checks hc
        show Taken src.got _
        rw [hg, h2]
        exact hI.snoc h1
    · rename_i hs
      rw [hs] at hg
      cases hp
      simpa [hg, items] using hI
    · rename_i hs
      rw [hs] at hg
      cases hp
      simpa [hg, items] using hI

/-- **C90**, `map_signal`. -/
theorem C90_map_signal (g : ι → List (Poll (Option β))) (script : List (Poll (Option (VecDiff ι))))
    (ws : List Waker) {outs : List (Poll (Option (VecDiff β)))} {s : VMapSignal ι β}
    (h : run (VMapSignal.poll g) ws (VMapSignal.init script) = some (outs, s)) :
    ∃ z, replay s.signal.src.got [] = some z := by
  have := run_keeps (I := fun s : VMapSignal ι β => Taken s.signal.src.got s.signals.length) ?_ h taken_nil
  · exact ⟨_, this.choose_spec.1⟩
  · intro w s r s' hI hp
    have fin : ∀ done i signals np, Taken i.src.got signals.length →
        VMapSignal.finish w done i signals np = (r, s') → Taken s'.signal.src.got s'.signals.length := by
      intro done i signals np hT hf
      have hn := pollSignals_length w 0 np signals
      unfold VMapSignal.finish at hf
      split at hf
      · rename_i hq; rw [hq] at hn; cases hf; rw [← hn] at hT; exact hT
      · rename_i hq; rw [hq] at hn; rw [← hn] at hT; split at hf <;> (cases hf; exact hT)
    unfold VMapSignal.poll at hp
    split at hp
    · cases hp; exact hI
    · split at hp
      · cases hp
      · cases hp
      · rename_i hl
        exact fin _ _ _ _ (Inp.loop_checks (mapSignalBody_checks g w) hl (by simp) hI) (Option.some.inj hp)
      · rename_i hl
        exact fin _ _ _ _ (Inp.loop_checks (mapSignalBody_checks g w) hl (by simp) hI) (Option.some.inj hp)

/-- **C90**, `filter_signal_cloned`. -/
theorem C90_filter_signal (g : α → List (Poll (Option Bool))) (script : List (Poll (Option (VecDiff α))))
    (ws : List Waker) {outs : List (Poll (Option (VecDiff α)))} {s : VFilterSignal α}
    (h : run (VFilterSignal.poll g) ws (VFilterSignal.init script) = some (outs, s)) :
    ∃ z, replay s.signal.src.got [] = some z := by
  have := run_keeps (I := fun s : VFilterSignal α => Taken s.signal.src.got s.signals.length) ?_ h taken_nil
  · exact ⟨_, this.choose_spec.1⟩
  · intro w s r s' hI hp
    have fin : ∀ done i signals np, Taken i.src.got signals.length →
        VFilterSignal.finish w done i signals np = (r, s') → Taken s'.signal.src.got s'.signals.length := by
      intro done i signals np hT hf
      have hn := drainSignals_length w 0 np signals
      unfold VFilterSignal.finish at hf
      split at hf
      · rename_i hq; rw [hq] at hn; cases hf; rw [← hn] at hT; exact hT
      · rename_i hq; rw [hq] at hn; rw [← hn] at hT; split at hf <;> (cases hf; exact hT)
    unfold VFilterSignal.poll at hp
    split at hp
    · cases hp; exact hI
    · split at hp
      · cases hp
      · cases hp
      · rename_i hl
        exact fin _ _ _ _ (Inp.loop_checks (filterSignalBody_checks g w) hl (by simp) hI) (Option.some.inj hp)
      · rename_i hl
        exact fin _ _ _ _ (Inp.loop_checks (filterSignalBody_checks g w) hl (by simp) hI) (Option.some.inj hp)

/-- **C90**, `flatten`, the outer vector. -/
theorem C90_flatten (g : ι → List (Poll (Option (VecDiff β)))) (script : List (Poll (Option (VecDiff ι))))
    (ws : List Waker) {outs : List (Poll (Option (VecDiff β)))} {s : VFlatten ι β}
    (h : run (VFlatten.poll g) ws (VFlatten.init script) = some (outs, s)) :
    ∃ z, replay s.signal.src.got [] = some z := by
  have := run_keeps (I := fun s : VFlatten ι β => Taken s.signal.src.got s.inner.length) ?_ h taken_nil
  · exact ⟨_, this.choose_spec.1⟩
  · intro w s r s' hI hp
    have fin : ∀ done i inner, Taken i.src.got inner.length →
        VFlatten.finish w done i inner = some (r, s') → Taken s'.signal.src.got s'.inner.length := by
      intro done i inner hT hf
      unfold VFlatten.finish at hf
      split at hf
      · cases hf
      · rename_i hq; have hn := pollAllPending_length hq; cases hf; rw [← hn] at hT; exact hT
      · rename_i hq; have hn := pollAllPending_length hq; rw [← hn] at hT; split at hf <;> (cases hf; exact hT)
    unfold VFlatten.poll at hp
    split at hp
    · cases hp; exact hI
    · split at hp
      · cases hp
      · rename_i hl
        have := Inp.loop_checks (flattenBody_checks g w) hl (by simp) hI
        cases hp; exact this
      · rename_i hl
        exact fin _ _ _ (Inp.loop_checks (flattenBody_checks g w) hl (by simp) hI) hp
      · rename_i hl
        exact fin _ _ _ (Inp.loop_checks (flattenBody_checks g w) hl (by simp) hI) hp

/-- **C90**, `sort_by_cloned`. -/
theorem C90_sort (S : SliceFns) (cmp : α → α → Ordering) (script : List (Poll (Option (VecDiff α))))
    (ws : List Waker) {outs : List (Poll (Option (VecDiff α)))} {s : VSort α}
    (h : run (VSort.poll S cmp) ws (VSort.init script) = some (outs, s)) :
    ∃ z, replay s.signal.got [] = some z := by
  have := run_keeps (I := fun s : VSort α => Taken s.signal.got s.values.length) ?_ h taken_nil
  · exact ⟨_, this.choose_spec.1⟩
  · intro w s r s' hI hp
    unfold VSort.poll at hp
    split at hp
    · cases hp; exact hI
    · split at hp
      · cases hp
      · rename_i hl
        have := Src.loop_checks (sortBody_checks S cmp) hl (by simp) hI
        cases hp; exact this
      · rename_i hl
        have := Src.loop_checks (sortBody_checks S cmp) hl (by simp) hI
        cases hp; exact this
      · rename_i hl
        have := Src.loop_checks (sortBody_checks S cmp) hl (by simp) hI
        cases hp; exact this

/-- **C90**, `map` keeps no list: it passes a change on as it is.  So if a change that does not fit is taken,
what `map` sends does not fit either, and whoever keeps the list notices. -/
theorem C90_map (f : α → β) (script : List (Poll (Option (VecDiff α)))) (ws : List Waker) :
    ∃ outs s, run (VMap.poll (logging f)) ws (VMap.init [] script) = some (outs, s) ∧
      replay (items outs) [] = (replay s.signal.got []).map (List.map f) := by
  have nat : ∀ (ds : List (VecDiff α)) (xs : List α),
      replay (ds.map (VecDiff.map f)) (xs.map f) = (replay ds xs).map (List.map f) := by
    intro ds
    induction ds with
    | nil => intro xs; rfl
    | cons d ds ih =>
      intro xs
      simp only [List.map_cons, replay, C06_map_natural]
      cases d.apply xs with
      | none => rfl
      | some ys => exact ih ys
  have step : ∀ w outs s, items outs = s.signal.got.map (VecDiff.map f) → .ready none ∉ outs →
      ∃ r s', VMap.poll (logging f) w s = some (r, s') ∧
        items (outs ++ [r]) = s'.signal.got.map (VecDiff.map f) := by
    intro w outs s hI _
    have hg := Src.poll_got w s.signal
    unfold VMap.poll
    split
    · rename_i d src hs
      rw [hs] at hg
      refine ⟨_, _, rfl, ?_⟩
      show items (outs ++ _) = src.got.map _
      rw [hg, items_append, hI]
      cases d <;> simp [items, VecDiff.mapS, VecDiff.map, logging, mapS_logging]
    · rename_i src hs
      rw [hs] at hg
      refine ⟨_, _, rfl, ?_⟩
      show items (outs ++ _) = src.got.map _
      rw [hg, items_append, hI]
      simp [items]
    · rename_i src hs
      rw [hs] at hg
      refine ⟨_, _, rfl, ?_⟩
      show items (outs ++ _) = src.got.map _
      rw [hg, items_append, hI]
      simp [items]
  obtain ⟨outs, s, h1, h2⟩ := run_rule (fun outs s => items outs = s.signal.got.map (VecDiff.map f)) step ws []
    (VMap.init [] script) rfl (by simp)
  refine ⟨outs, s, h1, ?_⟩
  have := nat s.signal.got []
  rw [← h2] at this
  simpa using this

/-- **C90** is false for `len`: it counts without looking at the positions. -/
theorem C90_len_unchecked : ∃ (script : List (Poll (Option (VecDiff Nat)))) (outs : _) (s : _),
    run VLen.poll [0, 0] (VLen.init script) = some (outs, s) ∧ replay s.signal.src.got [] = none ∧
      outs = [.ready (some 1), .ready none] :=
  ⟨[.ready (some (.insertAt 5 7)), .ready none], _, _, rfl, rfl, rfl⟩

/-- **C90** is false for `delay_remove`: a position after the end is taken for the end. -/
theorem C90_delay_unchecked : ∃ (script : List (Poll (Option (VecDiff Nat)))) (outs : _) (s : _),
    run (VDelay.poll fun _ => [.ready ()]) [0, 0] (VDelay.init script) = some (outs, s) ∧
      replay s.signal.src.got [] = none ∧ replay (items outs) [] = some [7] :=
  ⟨[.ready (some (.insertAt 5 7)), .ready none], _, _, rfl, rfl, rfl⟩

/-- **C90** is false for `chain`: a change of the left vector with a position in the right one changes the
right one. -/
theorem C90_chain_unchecked : ∃ (l r : List (Poll (Option (VecDiff Nat)))) (outs : _) (s : _),
    run VChain.poll [0, 0, 0] (VChain.init l r) = some (outs, s) ∧ replay s.left.src.got [] = none ∧
      replay s.right.src.got [] = some [1, 2] ∧ replay (items outs) [] = some [1, 7] :=
  ⟨[.pending, .ready (some (.updateAt 1 7)), .ready none],
    [.ready (some (.replace [1, 2])), .ready none], _, _, rfl, rfl, rfl, rfl⟩

/-! ## Examples -/

/-- A script whose third change does not fit, and one whose changes all fit. -/
def misfit : List (Poll (Option (VecDiff Nat))) :=
  [.ready (some (.replace [1, 2])), .ready (some .pop), .pending, .ready (some (.removeAt 1)), .ready none]

def fit : List (Poll (Option (VecDiff Nat))) :=
  [.ready (some (.replace [1, 2])), .ready (some .pop), .pending, .ready (some (.removeAt 0)), .ready none]

example : (run (VToSignal.poll id) [0, 0] (VToSignal.init misfit)).isNone := by rfl
example : (run (VToSignal.poll id) [0, 0] (VToSignal.init fit)).isSome := by rfl
example : (run (VSum.poll (· + ·) 0) [0, 0] (VToSignal.init misfit)).isNone := by rfl
example : (run (VSum.poll (· + ·) 0) [0, 0] (VToSignal.init fit)).isSome := by rfl
example : (run (VFilter.poll (logging (· > 0))) [0, 0, 0, 0] (VFilterMap.init [] misfit)).isNone := by rfl
example : (run (VFilter.poll (logging (· > 0))) [0, 0, 0, 0] (VFilterMap.init [] fit)).isSome := by rfl
example : (run (VFilterMap.poll (logging (fun n => if n > 0 then some n else none))) [0, 0, 0, 0]
    (VFilterMap.init [] fit)).isSome := by rfl
example : (run VEnumerate.poll [0, 0, 0, 0] (VEnumerate.init misfit)).isNone := by rfl
example : (run VEnumerate.poll [0, 0, 0, 0] (VEnumerate.init fit)).isSome := by rfl
example : (run (VMapSignal.poll fun n => [.ready (some n)]) [0, 0, 0, 0] (VMapSignal.init misfit)).isNone := by rfl
example : (run (VMapSignal.poll fun n => [.ready (some n)]) [0, 0, 0, 0] (VMapSignal.init fit)).isSome := by rfl
example : (run (VFilterSignal.poll fun n => [.ready (some (n > 0))]) [0, 0, 0, 0]
    (VFilterSignal.init misfit)).isNone := by rfl
example : (run (VFilterSignal.poll fun n => [.ready (some (n > 0))]) [0, 0, 0, 0]
    (VFilterSignal.init fit)).isSome := by rfl
example : (run (VFlatten.poll fun n => [.ready (some (.push n))]) [0, 0, 0, 0] (VFlatten.init misfit)).isNone := by
  rfl
example : (run (VFlatten.poll fun n => [.ready (some (.push n))]) [0, 0, 0, 0] (VFlatten.init fit)).isSome := by
  rfl
example : (run (VSort.poll demoFns compare) [0, 0, 0, 0] (VSort.init misfit)).isNone := by rfl
example : (run (VSort.poll demoFns compare) [0, 0, 0, 0] (VSort.init fit)).isSome := by rfl

end Verif
