import Verif.SignalVec1
import Verif.Polite

/-!
# Specification vocabulary for the single-input `SignalVec` combinators
-/

namespace Verif

variable {α β : Type}

/-- The closure `|a| { log.push(a); f(a) }`: its state is the list of arguments it was called on. -/
def logging (f : α → β) : List α → α → β × List α := fun log a => (f a, log ++ [a])

/-- A condition on `Move` diffs under which `filter` and `filter_map` are correct: if the element is
moved towards the front, then it is filtered out itself, or the element just before it is kept. -/
def MoveOk (f : α → Option β) (d : VecDiff α) (xs : List α) : Prop :=
  match d with
  | .move old new => new < old →
      (∀ a, xs[old]? = some a → f a = none) ∨ (∀ b, xs[old - 1]? = some b → (f b).isSome)
  | _ => True

/-- The same for `filter_signal_cloned`: if the element is moved towards the front, then its signal
only ever says `false`, or that of the element just before it only ever says `true`. -/
def FMoveOk (g : α → List (Poll (Option Bool))) (d : VecDiff α) (xs : List α) : Prop :=
  match d with
  | .move old new => new < old →
      (∀ a, xs[old]? = some a → ∀ v ∈ items (g a), v = false) ∨
      (∀ b, xs[old - 1]? = some b → ∀ v ∈ items (g b), v = true)
  | _ => True

/-- The predicate of `filter` as a partial function. -/
def keep (p : α → Bool) : α → Option α := fun a => if p a then some a else none

end Verif
