import Verif.Basic

/-!
# `Vec` operations and `VecDiff`
-/

namespace Verif

variable {α β : Type}

/-- `Vec::insert(i, a)`; panics (`none`) iff `i > len`. -/
def vInsert (l : List α) (i : Nat) (a : α) : Option (List α) :=
  if i ≤ l.length then some (l.insertIdx i a) else none

/-- `Vec::remove(i)`; panics iff `i >= len`. -/
def vRemove (l : List α) (i : Nat) : Option (α × List α) :=
  match l[i]? with
  | some a => some (a, l.eraseIdx i)
  | none => none

/-- `vec[i] = a`; panics iff `i >= len`. -/
def vSet (l : List α) (i : Nat) (a : α) : Option (List α) :=
  if i < l.length then some (l.set i a) else none

/-- `Vec::pop()`. -/
def vPop (l : List α) : Option α × List α := (l.getLast?, l.dropLast)

/-- `VecDiff`, `/repo/src/signal_vec.rs:19-61`. -/
inductive VecDiff (α : Type) where
  | replace (values : List α)
  | insertAt (index : Nat) (value : α)
  | updateAt (index : Nat) (value : α)
  | removeAt (index : Nat)
  | move (oldIndex newIndex : Nat)
  | push (value : α)
  | pop
  | clear
deriving DecidableEq, Repr

/-- `VecDiff::map`, `/repo/src/signal_vec.rs:65-77`.  The callback is a pure function here;
`VecDiff.payload` gives the values it is called on. -/
def VecDiff.map (f : α → β) : VecDiff α → VecDiff β
  | .replace values => .replace (values.map f)
  | .insertAt index value => .insertAt index (f value)
  | .updateAt index value => .updateAt index (f value)
  | .push value => .push (f value)
  | .removeAt index => .removeAt index
  | .move oldIndex newIndex => .move oldIndex newIndex
  | .pop => .pop
  | .clear => .clear

/-- `VecDiff::apply_to_vec`, `/repo/src/signal_vec.rs:79-107`; `none` is a panic. -/
def VecDiff.apply : VecDiff α → List α → Option (List α)
  | .replace values, _ => some values
  | .insertAt index value, vec => vInsert vec index value
  | .updateAt index value, vec => vSet vec index value
  | .push value, vec => some (vec ++ [value])
  | .removeAt index, vec =>
    match vRemove vec index with
    | some (_, vec) => some vec
    | none => none
  | .move oldIndex newIndex, vec =>
    match vRemove vec oldIndex with
    | some (value, vec) => vInsert vec newIndex value
    | none => none
  | .pop, vec =>
    match vPop vec with
    | (some _, vec) => some vec
    | (none, _) => none
  | .clear, _ => some []

/-- Applying diffs in order: what a consumer of a `SignalVec` does
(`/repo/src/lib.rs:482-587`).  `none` if any application panics. -/
def replay : List (VecDiff α) → List α → Option (List α)
  | [], xs => some xs
  | d :: ds, xs =>
    match d.apply xs with
    | some ys => replay ds ys
    | none => none

/-- The values carried by a diff, in order. -/
def VecDiff.payload : VecDiff α → List α
  | .replace values => values
  | .insertAt _ value => [value]
  | .updateAt _ value => [value]
  | .push value => [value]
  | .removeAt _ => []
  | .move _ _ => []
  | .pop => []
  | .clear => []

end Verif
