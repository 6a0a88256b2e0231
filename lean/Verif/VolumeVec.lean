import Verif.Volume
import Verif.MutableVecSpec

/-!
# Specification for C93: what is given to the calls of a `MutableVec`
-/

namespace Verif.MutVec

variable {α : Type}

/-- The number of elements given to a call. -/
def Op.given : Op α → Nat
  | .push _ | .pushCloned _ | .insert _ _ | .insertCloned _ _ | .set _ _ | .setCloned _ _ => 1
  | .replace vs | .replaceCloned vs | .extend vs => vs.length
  | .applyVecDiff d => d.payload.length
  | .pop | .remove _ | .clear | .moveFromTo _ _ | .swap _ _ | .retain _ | .drain _ _ | .truncate _
  | .reverse => 0

/-- The elements given to all calls of a history. -/
def givenAll : List (Ev α) → Nat
  | [] => 0
  | .op o :: es => o.given + givenAll es
  | _ :: es => givenAll es

/-- The number of calls of a history. -/
def calls : List (Ev α) → Nat
  | [] => 0
  | .op _ :: es => 1 + calls es
  | _ :: es => calls es

end Verif.MutVec
