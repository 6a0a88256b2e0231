import Verif.VecDiff

/-!
# Specification for C98: `SignalVec::flatten`

An inner `SignalVec` is described by its element in the outer vector and the changes it has given so far.
-/

namespace Verif

variable {β ι : Type}

/-- The changes a `SignalVec` gives when it is polled again and again right from the start, until it has none. -/
def atFirst : List (Poll (Option (VecDiff β))) → List (VecDiff β)
  | .ready (some d) :: rs => d :: atFirst rs
  | _ => []

/-- The elements that changes describe. -/
def described (ds : List (VecDiff β)) : List β := (replay ds []).getD []

/-- What `flatten` notices: a change of the outer vector, or one of the `k`th inner vector. -/
inductive Flattens (ι β : Type) where
  | outer (d : VecDiff ι)
  | inner (k : Nat) (d : VecDiff β)

/-- The change of the outer vector, if it is one. -/
def Flattens.taken : Flattens ι β → Option (VecDiff ι)
  | .outer d => some d
  | .inner _ _ => none

/-- The inner vectors after a notice: those of a `Replace` are polled at once, any other new one has given nothing yet. -/
def Flattens.apply (g : ι → List (Poll (Option (VecDiff β)))) :
    Flattens ι β → List (ι × List (VecDiff β)) → Option (List (ι × List (VecDiff β)))
  | .outer (.replace ts), _ => some (ts.map fun t => (t, atFirst (g t)))
  | .outer d, parts => (d.map fun t => (t, [])).apply parts
  | .inner k d, parts => if k < parts.length then some (parts.modify k fun p => (p.1, p.2 ++ [d])) else none

/-- A change of an inner vector of `n` elements, with `m` elements before it. -/
def innerSays (m n : Nat) : VecDiff β → List (VecDiff β)
  | .replace values =>
    (List.range n).reverse.map (fun i => .removeAt (m + i)) ++ (values.zipIdx m).map fun v => .insertAt v.2 v.1
  | .insertAt i a => [.insertAt (m + i) a]
  | .updateAt i a => [.updateAt (m + i) a]
  | .removeAt i => [.removeAt (m + i)]
  | .move i j => [.move (m + i) (m + j)]
  | .push a => [.insertAt (m + n) a]
  | .pop => [.removeAt (m + (n - 1))]
  | .clear => (List.range n).reverse.map fun i => .removeAt (m + i)

/-- What `flatten` sends for a notice. -/
def Flattens.says (before after : List (ι × List (VecDiff β))) : Flattens ι β → List (VecDiff β)
  | .outer (.replace _) => [.replace (after.flatMap fun p => described p.2)]
  | .outer .clear => [.clear]
  | .outer _ => []
  | .inner k d =>
    innerSays ((before.take k).flatMap fun p => described p.2).length
      (described ((before[k]?.map (·.2)).getD [])).length d

end Verif
