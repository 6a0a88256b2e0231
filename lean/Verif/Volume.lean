import Verif.Input
import Verif.MapDiff

/-!
# Volume of changes: specification (property C93)
-/

namespace Verif

variable {α β ι τ K V : Type}

/-- The size of a change of a list: one, and one for each element it carries. -/
def VecDiff.size : VecDiff α → Nat
  | .replace values => values.length + 1
  | .insertAt _ _ => 2
  | .updateAt _ _ => 2
  | .removeAt _ => 1
  | .move _ _ => 1
  | .push _ => 2
  | .pop => 1
  | .clear => 1

/-- The size of a change of a map. -/
def MapDiff.size : MapDiff K V → Nat
  | .replace entries => entries.length + 1
  | .insert _ _ => 2
  | .update _ _ => 2
  | .remove _ => 1
  | .clear => 1

/-- The sum of the weights of a list. -/
def sumBy (f : α → Nat) (l : List α) : Nat := (l.map f).sum

/-- The volume of a list of changes. -/
def vol (ds : List (VecDiff α)) : Nat := sumBy VecDiff.size ds

/-- What a change of the outer list costs: one, and for each inner list it brings thrice the volume
of that list. -/
def flattenCost (g : ι → List (Poll (Option (VecDiff β)))) (d : VecDiff ι) : Nat :=
  1 + sumBy (fun t => 3 * vol (items (g t))) d.payload

/-- What a change of the list costs: one, and for each signal it brings twice the number of the values
of that signal. -/
def signalsCost (g : ι → List (Poll (Option β))) (d : VecDiff ι) : Nat :=
  1 + sumBy (fun t => 2 * (items (g t)).length) d.payload

/-- What a value of the outer signal costs. -/
def switchCost (g : τ → List (Poll (Option (VecDiff α)))) (t : τ) : Nat := 1 + vol (items (g t))

/-- The values a change of a map carries. -/
def MapDiff.values : MapDiff K V → List V
  | .replace entries => entries.map (·.2)
  | .insert _ v => [v]
  | .update _ v => [v]
  | .remove _ => []
  | .clear => []

/-- What a change of the map costs: one, and for each signal it brings twice the number of the values
of that signal. -/
def mapSignalsCost (g : V → List (Poll (Option β))) (d : MapDiff K V) : Nat :=
  1 + sumBy (fun t => 2 * (items (g t)).length) d.values

end Verif
