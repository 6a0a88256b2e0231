import Verif.MutableConc

/-!
# `Mutable`, interleaving model: specification
-/

namespace Verif.MutConc

variable {α : Type}

/-- No thread is inside a call. -/
def AtRest (m : World α) : Prop :=
  m.writer = none ∧ m.ending = false ∧ ∀ i, (m.sigs i).pc = .idle ∨ (m.sigs i).pc = .unborn

/-- In no step of the schedule the waker of a signal is taken while a poll of that signal is between
its check of `changed` and its storing of its waker. -/
def NoWindow (a : α) (es : List (Ev α)) : Prop :=
  ∀ k m wr i, es[k]? = some .wstep → (World.init a).runs (es.take k) = some m →
    m.writer = some wr → wr.phase = .take i →
    ∀ w c, (m.sigs i).pc ≠ .load w c ∧ (m.sigs i).pc ≠ .setWaker w c

/-- The answer is a value. -/
def Answer.isValue (a : Answer α) : Prop := ∃ x, a.answer = .ready (some x)

/-- The values among the answers, with their versions. -/
def produced : List (Answer α) → List (Nat × α)
  | [] => []
  | ⟨_, _, .ready (some x), v⟩ :: as => (v, x) :: produced as
  | _ :: as => produced as

end Verif.MutConc
