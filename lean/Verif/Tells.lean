import Verif.MutableVecSpec
import Verif.MutableBTreeMapSpec

/-!
# Specification for C97: the changes each call sends
-/

namespace Verif.MutVec

variable {α : Type}

/-- The changes that tell that of `n` elements only those at the positions in `keep` stay: none if there is nothing,
`Clear` if nothing stays, and otherwise one change for each element that goes, the last element first, which is `Pop` if
nothing that stays comes after the element, and `RemoveAt` otherwise. -/
def leaving (n : Nat) (keep : Nat → Bool) : List (VecDiff α) :=
  if n = 0 then []
  else if ∀ j, j < n → keep j = false then [.clear]
  else ((List.range n).filter fun i => !keep i).reverse.map fun i =>
    if ∃ j, j < n ∧ i < j ∧ keep j = true then .removeAt i else .pop

/-- The changes that a call sends to each subscriber, given the contents before the call. -/
def Op.tells : Op α → List α → List (VecDiff α)
  | .pop, l => if l = [] then [] else [.pop]
  | .remove i, l => if i + 1 = l.length then [.pop] else [.removeAt i]
  | .clear, l => if l = [] then [] else [.clear]
  | .moveFromTo i j, _ => if i = j then [] else [.move i j]
  | .swap a b, _ =>
    if a = b then []
    else if a + 1 = b ∨ b + 1 = a then [.move a b]
    else if a < b then [.move a b, .move (b - 1) a]
    else [.move a b, .move (b + 1) a]
  | .retain f, l => leaving l.length fun i => l[i]?.any f
  | .drain lo hi, l => leaving l.length fun i => decide (i < lo.lower ∨ hi.upper l.length ≤ i)
  | .truncate n, l => leaving l.length fun i => decide (i < n)
  | .reverse, l => (List.range (l.length - 1)).map fun i => .move (l.length - 1) i
  | .push a, _ => [.push a]
  | .pushCloned a, _ => [.push a]
  | .insert i a, l => if i = l.length then [.push a] else [.insertAt i a]
  | .insertCloned i a, l => if i = l.length then [.push a] else [.insertAt i a]
  | .set i a, _ => [.updateAt i a]
  | .setCloned i a, _ => [.updateAt i a]
  | .replace vs, _ => [.replace vs]
  | .replaceCloned vs, _ => [.replace vs]
  | .extend vs, _ => vs.map .push
  | .applyVecDiff (.insertAt i a), l => if i = l.length then [.push a] else [.insertAt i a]
  | .applyVecDiff (.removeAt i), l => if i + 1 = l.length then [.pop] else [.removeAt i]
  | .applyVecDiff (.move i j), _ => if i = j then [] else [.move i j]
  | .applyVecDiff .clear, l => if l = [] then [] else [.clear]
  | .applyVecDiff d, _ => [d]

/-- What a subscriber gets at first. -/
def greeting (l : List α) : List (VecDiff α) := if l = [] then [] else [.replace l]

/-- What a history sends to subscriber `k`, if nobody drops it: the contents when it subscribes, and the changes of each
call after that.  `n` counts the subscriptions before the history. -/
def sentTo (k : Nat) : Nat → World α → List (Ev α) → List (VecDiff α)
  | _, _, [] => []
  | n, w, e :: es =>
    let now := match e with
      | .op o => if k < n ∧ w.handles ≠ 0 then o.tells w.values else []
      | .subscribe => if k = n ∧ w.handles ≠ 0 then greeting w.values else []
      | _ => []
    let m := match e with
      | .subscribe => if w.handles ≠ 0 then n + 1 else n
      | _ => n
    match w.step e with
    | none => now
    | some w' => now ++ sentTo k m w' es

end Verif.MutVec

namespace Verif.MutMap

variable {K V : Type} [LinearOrder K]

/-- The changes that a call sends to each subscriber, given the entries before the call. -/
def Op.tells : Op K V → List (K × V) → List (MapDiff K V)
  | .clear, l => if l = [] then [] else [.clear]
  | .remove key, l => if key ∈ l.map (·.1) then [.remove key] else []
  | .replaceCloned values, _ => [.replace values.1]
  | .replace values, _ => [.replace values.1]
  | .insertCloned key value, l => if key ∈ l.map (·.1) then [.update key value] else [.insert key value]
  | .insert key value, l => if key ∈ l.map (·.1) then [.update key value] else [.insert key value]

/-- What a subscriber gets at first. -/
def greeting (l : List (K × V)) : List (MapDiff K V) := if l = [] then [] else [.replace l]

/-- What a history sends to subscriber `k`, if nobody drops it (see `MutVec.sentTo`). -/
def sentTo (k : Nat) : Nat → World K V → List (Ev K V) → List (MapDiff K V)
  | _, _, [] => []
  | n, w, e :: es =>
    let now := match e with
      | .op o => if k < n ∧ w.hub.handles ≠ 0 then o.tells w.values.1 else []
      | .subscribe => if k = n ∧ w.hub.handles ≠ 0 then greeting w.values.1 else []
      | _ => []
    let m := match e with
      | .subscribe => if w.hub.handles ≠ 0 then n + 1 else n
      | _ => n
    match w.step e with
    | none => now
    | some w' => now ++ sentTo k m w' es

end Verif.MutMap
