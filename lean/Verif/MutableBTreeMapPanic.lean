import Verif.MutableBTreeMap
import Verif.MutableVecPanic
import Verif.HubPanic

/-!
# `MutableBTreeMap`: panics and the poisoned lock

`/repo/src/signal_map.rs:510-950`, with the `RwLock` of the standard library: a write guard that is
dropped by a thread that started to panic while it held the guard poisons the lock, and every later
`read().unwrap()` or `write().unwrap()` panics.

User code that can panic while the lock is held: the `clone` of a key or a value, the comparison of
keys, and code that holds a guard of `lock_mut`.  Simplification: wakers, and the drop of a key or a
value, do not panic.
-/

namespace Verif.MutMapPanic

open MutMap
open MutVecPanic (Outcome)

variable {K V : Type} [LinearOrder K]

/-- A `MutableBTreeMap` whose lock can be poisoned, `/repo/src/signal_map.rs:806`. -/
structure PWorld (K V : Type) [LinearOrder K] where
  w : World K V
  poisoned : Bool

/-- A new `MutableBTreeMap` (`/repo/src/signal_map.rs:811-813`, `838-846`). -/
def PWorld.init (vs : BMap K V) : PWorld K V := ⟨World.init vs, false⟩

/-- What happens: a call whose user code does not panic, or a call whose user code does. -/
inductive PEv (K V : Type) [LinearOrder K] where
  | call (e : Ev K V)
  /-- a panic while a guard of `lock_mut` is alive, outside of its methods, or in the comparison of
  keys, which `BTreeMap` makes before it changes anything -/
  | guardPanics
  /-- call number `k` of `clone` during this method panics -/
  | clonePanics (o : Op K V) (k : Nat)
  /-- the `clone` of the contents in `signal_map_cloned` panics -/
  | subscribePanics

/-- `notify_clone` (`/repo/src/signal_map.rs:545-566`) if `clone` panics in round `k`: there is a
`clone` in every round but the last, before the send.  `none` if there is no such call. -/
def notifyClonePanics (h : Hub (MapDiff K V)) (d : MapDiff K V) (k : Nat) :
    Option (Hub (MapDiff K V)) :=
  if k + 1 < h.senders.length then some (h.notifySome d k) else none

/-- `remove` (`/repo/src/signal_map.rs:588-596`): `change` (`569-576`) makes call 0 of `clone` after the
removal, `notify_clone` the others. -/
def removePanics (w : World K V) (key : K) (k : Nat) : Option (World K V) :=
  match w.values.remove key with
  | (none, _) => none
  | (some _, values) =>
    match k with
    | 0 => if w.hub.senders = [] then none else some ⟨values, w.hub⟩
    | k + 1 =>
      match notifyClonePanics w.hub (.remove key) k with
      | none => none
      | some hub => some ⟨values, hub⟩

/-- `replace_cloned` (`/repo/src/signal_map.rs:605-611`): call 0 of `clone` (of all entries) comes
before the change. -/
def replacePanics (w : World K V) (values : BMap K V) : Nat → Option (World K V)
  | 0 => if w.hub.senders = [] then none else some w
  | k + 1 =>
    match notifyClonePanics w.hub (.replace values.1) k with
    | none => none
    | some hub => some ⟨values, hub⟩

/-- `insert_cloned` (`/repo/src/signal_map.rs:613-624`): call 0 of `clone` (of key and value) comes
before the insertion. -/
def insertPanics (w : World K V) (key : K) (value : V) : Nat → Option (World K V)
  | 0 => if w.hub.senders = [] then none else some w
  | k + 1 =>
    match w.values.insert key value with
    | (some _, values) =>
      match notifyClonePanics w.hub (.update key value) k with
      | none => none
      | some hub => some ⟨values, hub⟩
    | (none, values) =>
      match notifyClonePanics w.hub (.insert key value) k with
      | none => none
      | some hub => some ⟨values, hub⟩

/-- The methods that clone (`/repo/src/signal_map.rs:762-802`) if call number `k` of `clone` panics. -/
def clonePanics (w : World K V) : Op K V → Nat → Option (World K V)
  | .remove key, k => removePanics w key k
  | .replaceCloned values, k => replacePanics w values k
  | .insertCloned key value, k => insertPanics w key value k
  | _, _ => none

/-- One event; `none` if it cannot happen.  `lock_mut`, `lock_ref`, `signal_map` and
`signal_map_cloned` lock first (`/repo/src/signal_map.rs:816-868`); clone and drop of a handle
(`925-930`) and everything a subscriber does (`933-950`) do not lock.  `signal_map_cloned` (`626-641`)
clones the contents before the sender is stored, and only if there are any. -/
def PWorld.step (p : PWorld K V) : PEv K V → Option (Outcome × PWorld K V)
  | .call (.op o) =>
    if p.w.hub.handles = 0 then none
    else if p.poisoned then some (.poisoned, p)
    else
      match p.w.exec o with
      | some (_, w) => some (.done, ⟨w, false⟩)
      | none => some (.panicked, ⟨p.w, true⟩)
  | .call .subscribe =>
    if p.w.hub.handles = 0 then none
    else if p.poisoned then some (.poisoned, p)
    else some (.done, { p with w := p.w.signalMap })
  | .call (.poll id cx) =>
    if p.w.hub.rxLive id then some (.done, { p with w := { p.w with hub := (p.w.hub.pollRx id cx).2 } })
    else none
  | .call (.dropRx id) =>
    if p.w.hub.rxLive id then some (.done, { p with w := { p.w with hub := p.w.hub.dropRx id } })
    else none
  | .call .cloneHandle =>
    if p.w.hub.handles = 0 then none
    else some (.done,
      { p with w := { p.w with hub := { p.w.hub with handles := p.w.hub.handles + 1 } } })
  | .call .dropHandle =>
    if p.w.hub.handles = 0 then none
    else some (.done, { p with w := { p.w with hub := p.w.hub.dropHandle } })
  | .guardPanics =>
    if p.w.hub.handles = 0 then none
    else if p.poisoned then some (.poisoned, p)
    else some (.panicked, ⟨p.w, true⟩)
  | .clonePanics o k =>
    if p.w.hub.handles = 0 then none
    else if p.poisoned then some (.poisoned, p)
    else
      match clonePanics p.w o k with
      | some w => some (.panicked, ⟨w, true⟩)
      | none => none
  | .subscribePanics =>
    if p.w.hub.handles = 0 then none
    else if p.poisoned then some (.poisoned, p)
    else if p.w.values.1.isEmpty then none
    else some (.panicked, ⟨p.w, true⟩)

/-- Histories with panics. -/
abbrev PWorld.runs (p : PWorld K V) (es : List (PEv K V)) : Option (List Outcome × PWorld K V) :=
  runE PWorld.step p es

end Verif.MutMapPanic
