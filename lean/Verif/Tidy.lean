import Verif.VecDiff

/-!
# Specification for C100: changes in their plain form
-/

namespace Verif

variable {α : Type}

/-- The change says what it does in the plainest way: an insertion at the end is a `Push`, a removal at the end a `Pop`,
nothing moves to where it is, and nothing empty is cleared. -/
def Plain : VecDiff α → List α → Prop
  | .insertAt i _, l => i ≠ l.length
  | .removeAt i, l => i + 1 ≠ l.length
  | .move i j, _ => i ≠ j
  | .clear, l => l ≠ []
  | _, _ => True

/-- The plain form of a change of this list. -/
def tidy : VecDiff α → List α → List (VecDiff α)
  | .insertAt i a, l => if i = l.length then [.push a] else [.insertAt i a]
  | .removeAt i, l => if i + 1 = l.length then [.pop] else [.removeAt i]
  | .move i j, _ => if i = j then [] else [.move i j]
  | .clear, l => if l = [] then [] else [.clear]
  | d, _ => [d]

/-- The plain form of changes, the first of which is a change of this list. -/
def tidied : List (VecDiff α) → List α → List (VecDiff α)
  | [], _ => []
  | d :: ds, l =>
    match d.apply l with
    | some l' => tidy d l ++ tidied ds l'
    | none => []

end Verif
