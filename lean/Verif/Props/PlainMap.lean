import Verif.Props.PlainStages
import Verif.Props.SignalMap

/-!
# C102: keys and entries of a map do not come as plain changes
-/

namespace Verif

variable {K V α : Type}

/-- No `Push` and no `Pop`. -/
def NoEnds (ds : List (VecDiff α)) : Prop := VecDiff.pop ∉ ds ∧ ∀ a, VecDiff.push a ∉ ds

theorem sends_noEnds {δ τ : Type} (apply : δ → τ → Option τ) (says : τ → τ → δ → List (VecDiff α))
    (h : ∀ x y d, NoEnds (says x y d)) (x : τ) (ds : List δ) : NoEnds (sends apply says x ds) := by
  induction ds generalizing x with
  | nil => simp [NoEnds, sends]
  | cons d ds ih =>
    simp only [sends]
    split
    · simp [NoEnds]
    · rename_i y _
      have h1 := h x y d
      have h2 := ih y
      unfold NoEnds at *
      simp only [List.mem_append]
      exact ⟨fun h => h.elim h1.1 h2.1, fun a h => h.elim (h1.2 a) (h2.2 a)⟩

section
variable [LinearOrder K]

/-- **C102**, `signal_vec_keys` never says `Push` or `Pop`: a key that is inserted after all others comes as `InsertAt`, and
if it is removed as `RemoveAt`. -/
theorem C102_keys_never (bs : List K → K → Except Nat Nat) (hbs : SearchOk bs)
    (script : List (Poll (Option (MapDiff K V))))
    (hwf : ∃ m, mreplay (items script) noKeys = some m) (hsort : ∀ d ∈ items script, Sorted d) (ws : List Waker) :
    ∃ outs s, run (MKeys.poll bs) ws (MKeys.init script) = some (outs, s) ∧ NoEnds (items outs) := by
  obtain ⟨outs, s, h1, h2⟩ := C98_keys bs hbs script hwf hsort ws
  refine ⟨outs, s, h1, ?_⟩
  rw [h2]
  refine sends_noEnds _ _ (fun x y d => ?_) _ _
  cases d <;> simp [NoEnds, keySays]

/-- **C102**, `entries_cloned` and `signal_vec_entries` never say `Push` or `Pop`. -/
theorem C102_entries_never (bs : List K → K → Except Nat Nat) (hbs : SearchOk bs)
    (script : List (Poll (Option (MapDiff K V))))
    (hwf : ∃ m, mreplay (items script) noKeys = some m) (hsort : ∀ d ∈ items script, Sorted d) (ws : List Waker) :
    ∃ outs s, run (MEntries.poll bs) ws (MKeys.init script) = some (outs, s) ∧ NoEnds (items outs) := by
  obtain ⟨outs, s, h1, h2⟩ := C98_entries bs hbs script hwf hsort ws
  refine ⟨outs, s, h1, ?_⟩
  rw [h2]
  refine sends_noEnds _ _ (fun x y d => ?_) _ _
  cases d <;> simp [NoEnds, entrySays]

end

/-- So what they send is not plain: here the second key comes after the first, and is then removed. -/
theorem C102_not_keys :
    (run (MKeys.poll linearSearch) (List.replicate 4 0) (MKeys.init
      [.ready (some (.replace [(1, 10)])), .ready (some (.insert 2 20)), .ready (some (.remove 2)), .pending] :
        MKeys Nat Nat)).map (fun q => items q.1) = some [.replace [1], .insertAt 1 2, .removeAt 1] ∧
    (run (MEntries.poll linearSearch) (List.replicate 4 0) (MKeys.init
      [.ready (some (.replace [(1, 10)])), .ready (some (.insert 2 20)), .ready (some (.remove 2)), .pending] :
        MKeys Nat Nat)).map (fun q => items q.1) = some [.replace [(1, 10)], .insertAt 1 (2, 20), .removeAt 1] ∧
    ¬ Plain (VecDiff.insertAt 1 2) [1] ∧ ¬ Plain (VecDiff.removeAt 1) [1, 2] :=
  ⟨by rfl, by rfl, by simp [Plain], by simp [Plain]⟩

example : (∃ m, mreplay (items demoMap) noKeys = some m) ∧ (∀ d ∈ items demoMap, Sorted d) ∧
    SearchOk (linearSearch (K := Nat)) :=
  ⟨⟨_, rfl⟩, by
    intro d hd
    simp only [demoMap, items, List.mem_cons, List.not_mem_nil, or_false] at hd
    rcases hd with rfl | rfl | rfl | rfl | rfl
    · simp only [Sorted]; unfold Ascending; decide
    all_goals trivial, linearSearch_ok⟩

end Verif
