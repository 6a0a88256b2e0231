import Verif.Cancelable

/-!
# `cancelable_future`: specification
-/

namespace Verif.Cancelable

variable {ο : Type}

/-- The wakers of the polls made before the handle was discarded. -/
def innerPolls : List Ev → List Waker
  | [] => []
  | .poll w :: es => w :: innerPolls es
  | .discard :: _ => []
  | .dropFuture :: es => innerPolls es

/-- What the inner future answers to its `n`th poll. -/
def answer (script : List (Poll ο)) (n : Nat) : Poll ο := script[n]?.getD .pending

/-- The answer of a poll after the history `es`. -/
def pollAnswer (script : List (Poll ο)) (c : ο) (es : List Ev) : Poll ο :=
  if .discard ∈ es then .ready c else answer script (innerPolls es).length

end Verif.Cancelable
