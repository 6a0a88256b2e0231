import Verif.Props.WholeVec

/-!
# C103: `map_value` and `map_value_signal`, and the keys and entries of a `MutableBTreeMap`
-/

namespace Verif

variable {K V W β : Type}

theorem mIsReplace_map (f : V → W) (d : MapDiff K V) : (d.map f).isReplace = d.isReplace := by cases d <;> rfl

theorem mIsClear_map (f : V → W) (d : MapDiff K V) : (d.map f).isClear = d.isClear := by cases d <;> rfl

section
variable [LinearOrder K]

/-- **C103**, `map_value`. -/
theorem C103_map_value (f : V → W) (script : List (Poll (Option (MapDiff K V)))) (ws : List Waker) :
    ∃ outs s, run (MMapValue.poll (logging f)) ws (MMapValue.init [] script) = some (outs, s) ∧
      (items outs).countP MapDiff.isReplace = s.signal.got.countP MapDiff.isReplace ∧
      (items outs).countP MapDiff.isClear = s.signal.got.countP MapDiff.isClear := by
  obtain ⟨outs, s, h1, h2⟩ := C98_map_value f script ws
  refine ⟨outs, s, h1, ?_, ?_⟩ <;> rw [h2, List.countP_map] <;>
    simp [Function.comp_def, mIsReplace_map, mIsClear_map]

/-- **C103**, `map_value_signal`: a new value of a signal never makes it send the map again. -/
theorem C103_map_value_signal (g : V → List (Poll (Option β))) (first : V → β)
    (hg : ∀ a, (g a).head? = some (.ready (some (first a)))) (script : List (Poll (Option (MapDiff K V)))) (ws : List Waker)
    (outs : List (Poll (Option (MapDiff K β)))) (s : MMapSignal K V β)
    (h : run (MMapSignal.poll g) ws (MMapSignal.init script) = some (outs, s)) :
    (items outs ++ s.pending).countP MapDiff.isReplace = s.signal.src.got.countP MapDiff.isReplace ∧
      (items outs ++ s.pending).countP MapDiff.isClear = s.signal.src.got.countP MapDiff.isClear := by
  have h1 := C98_map_value_signal g first hg script ws outs s h
  constructor
  · rw [woven_count (by rintro e ⟨k, b, rfl⟩; rfl) h1, List.countP_map]
    simp [Function.comp_def, mIsReplace_map]
  · rw [woven_count (by rintro e ⟨k, b, rfl⟩; rfl) h1, List.countP_map]
    simp [Function.comp_def, mIsClear_map]

/-- Two entries whose signals change once: one `Replace`, then updates. -/
example : (run (MMapSignal.poll fun n : Nat => [.ready (some n), .pending, .ready (some (n + 1))]) [0, 0, 0, 0]
      (MMapSignal.init [.ready (some (.replace [(1, 10), (2, 20)])), .pending] : MMapSignal Nat Nat Nat)).map
        (fun q => items q.1) = some [.replace [(1, 10), (2, 20)], .update 1 11, .update 2 21] :=
  rfl

end

end Verif
