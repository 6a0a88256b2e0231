import Verif.BTree
import Verif.Hub

/-!
# `MutableBTreeMap`

`/repo/src/signal_map.rs:510-950`.  API-level model: each method call takes the `RwLock` and is
atomic.
-/

namespace Verif.MutMap

variable {K V : Type} [LinearOrder K]

/-- `std::collections::BTreeMap` (external code): an association list with strictly ascending keys. -/
abbrev BMap (K V : Type) [LinearOrder K] := { l : List (K × V) // Ascending l }

/-- `BTreeMap::insert` (external). -/
def BMap.insert (m : BMap K V) (key : K) (value : V) : Option V × BMap K V :=
  ((bInsert key value m.1).1, ⟨(bInsert key value m.1).2, (bInsert_spec m.2 key value).2.1⟩)

/-- `BTreeMap::remove` (external). -/
def BMap.remove (m : BMap K V) (key : K) : Option V × BMap K V :=
  ((bRemove key m.1).1, ⟨(bRemove key m.1).2, (bRemove_spec m.2 key).2.1⟩)

/-- `BTreeMap::new` (external). -/
def BMap.empty : BMap K V := ⟨[], List.Pairwise.nil⟩

/-- A `MutableBTreeMap` and its environment.  `values` is the field of `MutableBTreeState`
(`/repo/src/signal_map.rs:526-530`); the field `senders` is in `hub`, with the channels, the number
of handles and the wakers woken. -/
structure World (K V : Type) [LinearOrder K] where
  values : BMap K V
  hub : Hub (MapDiff K V)

/-- A new `MutableBTreeMap` (`with_values`/`From`, `/repo/src/signal_map.rs:811-813`, `838-846`):
one handle, no subscribers. -/
def World.init (vs : BMap K V) : World K V := ⟨vs, ⟨[], [], 1, []⟩⟩

/-- `MutableBTreeState::clear`, `/repo/src/signal_map.rs:578-584`. -/
def World.clear (w : World K V) : World K V :=
  if w.values.1.isEmpty then w
  else ⟨BMap.empty, w.hub.notify .clear⟩

/-- `MutableBTreeState::remove`, `/repo/src/signal_map.rs:588-596`. -/
def World.remove (w : World K V) (key : K) : Option (Option V × World K V) :=
  match w.values.remove key with
  | (none, values) => some (none, ⟨values, w.hub⟩)
  | (some value, values) =>
    match w.hub.notifyClone (w.hub.change key) (fun key => .remove key) with
    | none => none
    | some hub => some (some value, ⟨values, hub⟩)

/-- `MutableBTreeState::replace_cloned`, `/repo/src/signal_map.rs:605-611`; `entries_cloned`
(`599-603`) lists the entries in order of the keys. -/
def World.replaceCloned (w : World K V) (values : BMap K V) : Option (World K V) :=
  let entries := w.hub.change values.1
  match w.hub.notifyClone entries (fun entries => .replace entries) with
  | none => none
  | some hub => some ⟨values, hub⟩

/-- `MutableBTreeState::insert_cloned`, `/repo/src/signal_map.rs:613-624`. -/
def World.insertCloned (w : World K V) (key : K) (value : V) : Option (Option V × World K V) :=
  let x := w.hub.change (key, value)
  match w.values.insert key value with
  | (some old, values) =>
    match w.hub.notifyClone x (fun e => .update e.1 e.2) with
    | none => none
    | some hub => some (some old, ⟨values, hub⟩)
  | (none, values) =>
    match w.hub.notifyClone x (fun e => .insert e.1 e.2) with
    | none => none
    | some hub => some (none, ⟨values, hub⟩)

/-- `MutableBTreeState::replace`, `/repo/src/signal_map.rs:650-656`; `entries` is `644-648`. -/
def World.replace (w : World K V) (values : BMap K V) : Option (World K V) :=
  let entries := w.hub.change values.1
  match w.hub.notifyClone entries (fun entries => .replace entries) with
  | none => none
  | some hub => some ⟨values, hub⟩

/-- `MutableBTreeState::insert`, `/repo/src/signal_map.rs:658-667`. -/
def World.insert (w : World K V) (key : K) (value : V) : Option V × World K V :=
  match w.values.insert key value with
  | (some old, values) => (some old, ⟨values, w.hub.notify (.update key value)⟩)
  | (none, values) => (none, ⟨values, w.hub.notify (.insert key value)⟩)

/-- `MutableBTreeState::signal_map_cloned` and `signal_map`, `/repo/src/signal_map.rs:626-641`,
`669-684` (the same but for how values are copied). -/
def World.signalMap (w : World K V) : World K V :=
  { w with hub := w.hub.subscribe (if w.values.1.isEmpty then [] else [.replace w.values.1]) }

/-- The methods of `MutableBTreeMapLockMut`, `/repo/src/signal_map.rs:762-802`. -/
inductive Op (K V : Type) [LinearOrder K] where
  | clear
  | remove (key : K)
  | replaceCloned (values : BMap K V)
  | insertCloned (key : K) (value : V)
  | replace (values : BMap K V)
  | insert (key : K) (value : V)

/-- What a method returns. -/
inductive Ret (V : Type) where
  | unit
  | opt (v : Option V)
deriving DecidableEq, Repr

/-- One method call; `none` is a panic. -/
def World.exec (w : World K V) : Op K V → Option (Ret V × World K V)
  | .clear => some (.unit, w.clear)
  | .remove key => (w.remove key).map fun r => (.opt r.1, r.2)
  | .replaceCloned values => (w.replaceCloned values).map fun w' => (.unit, w')
  | .insertCloned key value => (w.insertCloned key value).map fun r => (.opt r.1, r.2)
  | .replace values => (w.replace values).map fun w' => (.unit, w')
  | .insert key value => some (.opt (w.insert key value).1, (w.insert key value).2)

/-- What can happen to a `MutableBTreeMap` and its subscribers: method calls through some handle,
subscriptions, polls and drops of subscribers, cloning (`/repo/src/signal_map.rs:925-930`) and
dropping handles. -/
inductive Ev (K V : Type) [LinearOrder K] where
  | op (o : Op K V)
  | subscribe
  | poll (id : Nat) (cx : Waker)
  | dropRx (id : Nat)
  | cloneHandle
  | dropHandle

/-- One event; `none` if an operation panics.  Events that need a handle or receiver that is gone
do nothing.  A poll is `MutableSignalMap::poll_map_change`, `/repo/src/signal_map.rs:945-947`. -/
def World.step (w : World K V) : Ev K V → Option (World K V)
  | .op o => if w.hub.handles = 0 then some w else (w.exec o).map (·.2)
  | .subscribe => if w.hub.handles = 0 then some w else some w.signalMap
  | .poll id cx =>
    if w.hub.rxLive id then some { w with hub := (w.hub.pollRx id cx).2 } else some w
  | .dropRx id => if w.hub.rxLive id then some { w with hub := w.hub.dropRx id } else some w
  | .cloneHandle =>
    if w.hub.handles = 0 then some w
    else some { w with hub := { w.hub with handles := w.hub.handles + 1 } }
  | .dropHandle => if w.hub.handles = 0 then some w else some { w with hub := w.hub.dropHandle }

/-- A history of events. -/
def World.runs (w : World K V) : List (Ev K V) → Option (World K V)
  | [] => some w
  | e :: es =>
    match w.step e with
    | none => none
    | some w' => w'.runs es

end Verif.MutMap
