import Verif.Basic
import Mathlib.Order.Defs.LinearOrder

/-!
# Maps and `MapDiff`
-/

namespace Verif

variable {K V W κ : Type}

/-- `MapDiff`, `/repo/src/signal_map.rs:16-36`. -/
inductive MapDiff (K V : Type) where
  | replace (entries : List (K × V))
  | insert (key : K) (value : V)
  | update (key : K) (value : V)
  | remove (key : K)
  | clear
deriving DecidableEq, Repr

/-- `MapDiff::map`, `/repo/src/signal_map.rs:40-49`, with a pure callback. -/
def MapDiff.map (f : V → W) : MapDiff K V → MapDiff K W
  | .replace entries => .replace (entries.map fun e => (e.1, f e.2))
  | .insert key value => .insert key (f value)
  | .update key value => .update key (f value)
  | .remove key => .remove key
  | .clear => .clear

/-- The values carried by a diff, in order. -/
def MapDiff.payload : MapDiff K V → List V
  | .replace entries => entries.map (·.2)
  | .insert _ value => [value]
  | .update _ value => [value]
  | .remove _ => []
  | .clear => []

/-! ## What a diff means

A map is a partial function from keys to values. -/

/-- The empty map. -/
def noKeys : K → Option V := fun _ => none

section

variable [DecidableEq K]

/-- Change the entry of one key. -/
def upd (m : K → Option V) (key : K) (value : Option V) : K → Option V :=
  fun k => if k = key then value else m k

/-- The map with the given entries; the first entry of a key counts. -/
def mapOf : List (K × V) → K → Option V
  | [], _ => none
  | e :: es, k => if e.1 = k then some e.2 else mapOf es k

/-- Applying a diff to a map.  `none` if it is not applicable: `Replace` must have distinct keys,
`Insert` an absent key, `Update` and `Remove` a present one (`/repo/src/signal_map.rs:16-36`, the
names of the variants; there is no function in the crate that applies a `MapDiff`). -/
def MapDiff.apply : MapDiff K V → (K → Option V) → Option (K → Option V)
  | .replace entries, _ => if (entries.map (·.1)).Nodup then some (mapOf entries) else none
  | .insert key value, m => if (m key).isNone then some (upd m key (some value)) else none
  | .update key value, m => if (m key).isSome then some (upd m key (some value)) else none
  | .remove key, m => if (m key).isSome then some (upd m key none) else none
  | .clear, _ => some noKeys

/-- Applying diffs in order. -/
def mreplay : List (MapDiff K V) → (K → Option V) → Option (K → Option V)
  | [], m => some m
  | d :: ds, m =>
    match d.apply m with
    | some m' => mreplay ds m'
    | none => none

end

/-! ## Ordered maps

`std::collections::BTreeMap` (external code): an association list with ascending keys.  Keys that
compare equal are the same key. -/

variable [LinearOrder K]

/-- Strictly ascending keys. -/
def Ascending (l : List (K × V)) : Prop := l.Pairwise (fun a b => a.1 < b.1)

/-- The entries of a `Replace` are in ascending order of the keys. -/
def Sorted : MapDiff K V → Prop
  | .replace es => Ascending es
  | _ => True

/-- `BTreeMap::insert`: the previous value of the key and the new map. -/
def bInsert (key : K) (value : V) : List (K × V) → Option V × List (K × V)
  | [] => (none, [(key, value)])
  | e :: es =>
    if key < e.1 then (none, (key, value) :: e :: es)
    else if key = e.1 then (some e.2, (key, value) :: es)
    else
      let r := bInsert key value es
      (r.1, e :: r.2)

/-- `BTreeMap::remove`: the value of the key and the new map. -/
def bRemove (key : K) : List (K × V) → Option V × List (K × V)
  | [] => (none, [])
  | e :: es =>
    if key < e.1 then (none, e :: es)
    else if key = e.1 then (some e.2, es)
    else
      let r := bRemove key es
      (r.1, e :: r.2)

/-- `*map.get_mut(key).expect(…) = value`; `none` if the key is absent. -/
def bUpdate (key : K) (value : V) : List (K × V) → Option (List (K × V))
  | [] => none
  | e :: es =>
    if key = e.1 then some ((key, value) :: es)
    else
      match bUpdate key value es with
      | none => none
      | some r => some (e :: r)

end Verif
