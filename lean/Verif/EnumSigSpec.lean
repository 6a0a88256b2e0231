import Verif.EnumSig

/-!
# Specification of the index signals of `enumerate`
-/

namespace Verif.EnumSig

variable {α : Type}

/-- Where the element with the cell `id` stands in the list that the emitted diffs describe; `none`
if it is not in that list. -/
def place (outs : List (Poll (Option (VecDiff (Nat × α))))) (id : Nat) : Option Nat :=
  match replay (items outs) [] with
  | some ys => (ys.map (·.1)).idxOf? id
  | none => none

end Verif.EnumSig
