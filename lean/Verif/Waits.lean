import Verif.Basic

/-!
# Specification of C99: the polls that answered `Pending`
-/

namespace Verif

/-- How often `w` was given to a poll that answered `Pending`. -/
def waits {ρ : Type} (w : Waker) (polls : List (Waker × Poll ρ)) : Nat :=
  polls.countP fun p => p.1 == w && match p.2 with
    | .pending => true
    | .ready _ => false

end Verif
