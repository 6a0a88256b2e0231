import Verif.Volume
import Verif.MutableBTreeMapSpec

/-!
# Specification for C93: what is given to the calls of a `MutableBTreeMap`
-/

namespace Verif.MutMap

variable {K V : Type} [LinearOrder K]

/-- The number of entries given to a call. -/
def Op.given : Op K V → Nat
  | .insert _ _ | .insertCloned _ _ => 1
  | .replace vs | .replaceCloned vs => vs.1.length
  | .remove _ | .clear => 0

/-- The entries given to all calls of a history. -/
def givenAll : List (Ev K V) → Nat
  | [] => 0
  | .op o :: es => o.given + givenAll es
  | _ :: es => givenAll es

/-- The number of calls of a history. -/
def calls : List (Ev K V) → Nat
  | [] => 0
  | .op _ :: es => 1 + calls es
  | _ :: es => calls es

end Verif.MutMap
