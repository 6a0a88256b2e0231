import Verif.Sends

/-!
# Specification for C98: `delay_remove`

The elements that are shown are listed with whether they are leaving, that is, the input removed them but their futures
have not finished.
-/

namespace Verif

variable {α : Type}

/-- The changes that tell that the marked elements go, the last one first: `Pop` if all the elements after it go too, and
otherwise `RemoveAt`.  `i` is the position of the first mark. -/
def departures : Nat → List Bool → List (VecDiff α)
  | _, [] => []
  | i, b :: bs => departures (i + 1) bs ++ if b then [if bs.all id then .pop else .removeAt i] else []

/-- What is shown after the marked elements have gone. -/
def depart (goes : List Bool) (xs : List (α × Bool)) : List (α × Bool) := ((xs.zip goes).filter (!·.2)).map (·.1)

/-- The position of the `i`-th element that is not leaving, or the end. -/
def place : List (α × Bool) → Nat → Nat
  | [], _ => 0
  | (_, true) :: xs, i => place xs i + 1
  | (_, false) :: _, 0 => 0
  | (_, false) :: xs, i + 1 => place xs i + 1

/-- The element at this position is leaving now. -/
def leaves (xs : List (α × Bool)) (i : Nat) : List (α × Bool) := xs.modify i fun x => (x.1, true)

/-- Who is leaving after a change of the input. -/
def VecDiff.marks : VecDiff α → List (α × Bool) → List (α × Bool)
  | .removeAt i, xs => leaves xs (place xs i)
  | .pop, xs => leaves xs (place xs ((xs.filter (!·.2)).length - 1))
  | .clear, xs => xs.map fun x => (x.1, true)
  | .replace _, xs => xs.map fun x => (x.1, true)
  | _, xs => xs

/-- What is sent for a change of the input besides removals, given what was shown before and what is shown after the
removals. -/
def VecDiff.brings : VecDiff α → List (α × Bool) → List (α × Bool) → List (VecDiff α)
  | .replace vs, before, _ => if before.length = 0 then [.replace vs] else vs.map .push
  | .insertAt i a, _, xs => [.insertAt (place xs i) a]
  | .updateAt i a, _, xs => [.updateAt (place xs i) a]
  | .push a, _, _ => [.push a]
  | .move i j, _, xs => [.move (place xs i) (place (xs.eraseIdx (place xs i)) j)]
  | .removeAt _, _, _ => []
  | .pop, _, _ => []
  | .clear, _, _ => []

/-- What `delay_remove` notices at one time: a change of its input, if any, and whose futures have finished. -/
structure Leaving (α : Type) where
  change : Option (VecDiff α)
  goes : List Bool

/-- Who is leaving. -/
def Leaving.marked (n : Leaving α) (xs : List (α × Bool)) : List (α × Bool) :=
  match n.change with
  | some d => d.marks xs
  | none => xs

/-- Who may go: with a change of the input those that it removes, otherwise those that are leaving. -/
def Leaving.may (n : Leaving α) (xs : List (α × Bool)) : List Bool :=
  match n.change with
  | some d => List.zipWith (fun x y => !x.2 && y.2) xs (d.marks xs)
  | none => xs.map (·.2)

/-- Nobody else goes. -/
def Leaving.fair (n : Leaving α) (xs : List (α × Bool)) : Bool :=
  n.goes.length = xs.length && (n.goes.zip (n.may xs)).all fun p => !p.1 || p.2

/-- What is sent. -/
def Leaving.says (before _after : List (α × Bool)) (n : Leaving α) : List (VecDiff α) :=
  departures 0 n.goes ++
    match n.change with
    | some d => d.brings before (depart n.goes (n.marked before))
    | none => []

/-- What is shown afterwards. -/
def Leaving.apply (n : Leaving α) (before : List (α × Bool)) : Option (List (α × Bool)) :=
  if n.fair before then
    match n.change with
    | some d =>
      replay ((d.brings before (depart n.goes (n.marked before))).map (VecDiff.map fun a => (a, false)))
        (depart n.goes (n.marked before))
    | none => some (depart n.goes before)
  else none

end Verif
