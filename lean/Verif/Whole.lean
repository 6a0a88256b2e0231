import Verif.VecDiff

/-!
# Specification for C103: changes that affect the list as a whole
-/

namespace Verif

variable {α : Type}

/-- `Replace`. -/
def VecDiff.isReplace : VecDiff α → Bool
  | .replace _ => true
  | _ => false

/-- `Clear`. -/
def VecDiff.isClear : VecDiff α → Bool
  | .clear => true
  | _ => false

/-- How often a list was sent as a whole. -/
def replaces (ds : List (VecDiff α)) : Nat := ds.countP VecDiff.isReplace

/-- How often a list was cleared. -/
def clearsIn (ds : List (VecDiff α)) : Nat := ds.countP VecDiff.isClear

end Verif
