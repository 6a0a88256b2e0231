import Verif.Sends

/-!
# Specification for C98: combinators with a signal for each element

Besides the changes of their input these send changes when one of the signals changes.
-/

namespace Verif

variable {α β ε : Type}

/-- `out` consists of the changes `ds`, in this order, and of changes with the property `P` in between. -/
inductive Woven (P : ε → Prop) : List ε → List ε → Prop
  | nil : Woven P [] []
  | own {ds out} (d : ε) : Woven P ds out → Woven P (ds ++ [d]) (out ++ [d])
  | other {ds out} {e : ε} : P e → Woven P ds out → Woven P ds (out ++ [e])

/-- What `filter_signal_cloned` notices: a change of its input, or that the signal of element `i` now says `b`. -/
inductive Notices (α : Type) where
  | took (d : VecDiff α)
  | turned (i : Nat) (b : Bool)

/-- The change of the input that was noticed. -/
def Notices.taken : Notices α → Option (VecDiff α)
  | .took d => some d
  | .turned _ _ => none

/-- The elements with what their signals say.  `first a` is what the signal of `a` says at first. -/
def Notices.apply (first : α → Bool) : Notices α → List (α × Bool) → Option (List (α × Bool))
  | .took d, xs => (d.map fun a => (a, first a)).apply xs
  | .turned i b, xs => xs[i]?.map fun x => xs.set i (x.1, b)

/-- The element, if its signal says so. -/
def ifShown : α × Bool → Option α
  | (a, b) => if b then some a else none

/-- What is sent: for a change of the input what `filter_map` would send, for a signal that changed the insertion or
removal of its element. -/
def Notices.says (first : α → Bool) (before after : List (α × Bool)) : Notices α → List (VecDiff α)
  | .took d => filterSays ifShown before after (d.map fun a => (a, first a))
  | .turned i b =>
    match before[i]? with
    | some (a, false) => if b then [.insertAt (keptBefore ifShown before i) a] else []
    | some (_, true) => if b then [] else [.removeAt (keptBefore ifShown before i)]
    | none => []

/-- A change that removes nothing, without positions. -/
inductive Adds (α : Type) where
  | pushed (a : α)
  | inserted (a : α)
  | updated (a : α)
  | moved
deriving DecidableEq

/-- What a change does besides removing. -/
def VecDiff.adds : VecDiff α → List (Adds α)
  | .replace values => values.map .pushed
  | .insertAt _ a => [.inserted a]
  | .updateAt _ a => [.updated a]
  | .push a => [.pushed a]
  | .move _ _ => [.moved]
  | .removeAt _ => []
  | .pop => []
  | .clear => []

end Verif
