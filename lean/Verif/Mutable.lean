import Verif.Basic

/-!
# `Mutable` and its signals: sequential model

`/repo/src/signal/mutable.rs`.  API-level model: every method call, poll and drop runs to its end
before the next one starts.  The interleaving model is in `Verif/MutableConc.lean`.
-/

namespace Verif.Mut

variable {α β : Type}

/-- `ChangedWaker`, `/repo/src/signal/mutable.rs:15-18`.  `alive`: the `Arc` is still held by a
signal, so that `Weak::upgrade` succeeds. -/
structure ChangedWaker where
  changed : Bool
  waker : Option Waker
  alive : Bool

/-- `ChangedWaker::new`, `/repo/src/signal/mutable.rs:21-26`. -/
def ChangedWaker.new : ChangedWaker := ⟨true, none, true⟩

/-- `ChangedWaker::wake`, `/repo/src/signal/mutable.rs:28-42`, with the wakers it wakes. -/
def ChangedWaker.wake (c : ChangedWaker) (changed : Bool) : ChangedWaker × List Waker :=
  (⟨if changed then true else c.changed, none, c.alive⟩, c.waker.toList)

/-- `ChangedWaker::set_waker`, `/repo/src/signal/mutable.rs:44-46`. -/
def ChangedWaker.setWaker (c : ChangedWaker) (w : Waker) : ChangedWaker :=
  ⟨c.changed, some w, c.alive⟩

/-- `ChangedWaker::is_changed`, `/repo/src/signal/mutable.rs:48-50`. -/
def ChangedWaker.isChanged (c : ChangedWaker) : Bool × ChangedWaker :=
  (c.changed, ⟨false, c.waker, c.alive⟩)

/-- `MutableState` with its `MutableLockState`, `/repo/src/signal/mutable.rs:55-59`, `81-84`, and its
environment.  The `ChangedWaker` number `i` is `cell i`, there are `cells` of them.  Ghosts: the
number of `Mutable` handles, and the wakers woken so far, in order. -/
structure World (α : Type) where
  value : α
  signals : List Nat
  senders : Nat
  cell : Nat → ChangedWaker
  cells : Nat
  handles : Nat
  woken : List Waker

/-- `Mutable::new`, `From`, `Default`, `/repo/src/signal/mutable.rs:244-246`, `320-328`, `374-379`.
A `ReadOnlyMutable` (`read_only`, `254-256`; its `Clone`, `221-226`; the target of `Deref`, `331-338`,
of which `state`, `249-251`, is a part) is another reference to the same state, and not counted in
`senders`. -/
def World.new (value : α) : World α := ⟨value, [], 1, fun _ => ChangedWaker.new, 0, 1, []⟩

/-- A new content of one `ChangedWaker`. -/
def World.setCell (m : World α) (i : Nat) (c : ChangedWaker) : World α :=
  { m with cell := fun j => if j = i then c else m.cell j }

/-- The loop of `retain` in `MutableLockState::notify`, `/repo/src/signal/mutable.rs:67-75`; gives the
signals kept. -/
def World.retain (hasChanged : Bool) : List Nat → World α → List Nat × World α
  | [], m => ([], m)
  | i :: rest, m =>
    if (m.cell i).alive then
      match (m.cell i).wake hasChanged with
      | (c, wakers) =>
        match World.retain hasChanged rest { m.setCell i c with woken := m.woken ++ wakers } with
        | (kept, m') => (i :: kept, m')
    else World.retain hasChanged rest m

/-- `MutableLockState::notify`, `/repo/src/signal/mutable.rs:66-76`. -/
def World.notify (hasChanged : Bool) (m : World α) : World α :=
  match World.retain hasChanged m.signals m with
  | (kept, m') => { m' with signals := kept }

/-- `MutableSignalState::poll_change`, `/repo/src/signal/mutable.rs:102-117`, for the signal whose
`ChangedWaker` is number `i`.  `MutableSignal`, `MutableSignalRef` and `MutableSignalCloned`
(`413-461`) call it with `|value| *value`, the callback, and `|value| value.clone()`. -/
def World.pollChange (m : World α) (i : Nat) (w : Waker) (f : α → β) :
    Poll (Option β) × World α :=
  match (m.cell i).isChanged with
  | (true, c) => (.ready (some (f m.value)), m.setCell i c)
  | (false, c) =>
    if m.senders = 0 then (.ready none, m.setCell i c)
    else (.pending, m.setCell i (c.setWaker w))

/-- `ReadOnlyMutable::signal_state`, `/repo/src/signal/mutable.rs:181-189`, `push_signal`,
`62-64`, and `MutableSignalState::new`, `95-100`; called by `signal`, `signal_ref`, `signal_cloned` (`192`, `204`, `216`). -/
def World.signalState (m : World α) : World α :=
  let m' := { m.setCell m.cells ChangedWaker.new with cells := m.cells + 1 }
  if m.senders ≠ 0 then { m' with signals := m.signals ++ [m.cells] } else m'

/-- The drop of a signal: the only strong reference to its `ChangedWaker` goes away. -/
def World.dropSignal (m : World α) (i : Nat) : World α :=
  m.setCell i { m.cell i with alive := false }

/-- `Mutable::replace`, `/repo/src/signal/mutable.rs:258-266`. -/
def World.replace (m : World α) (value : α) : α × World α :=
  (m.value, { m with value := value }.notify true)

/-- `Mutable::replace_with`, `/repo/src/signal/mutable.rs:268-277`.  The callback gives the new value
and what it left in its argument. -/
def World.replaceWith (m : World α) (f : α → α × α) : α × World α :=
  match f m.value with
  | (newValue, left) => (left, { m with value := newValue }.notify true)

/-- `Mutable::set`, `/repo/src/signal/mutable.rs:290-296`. -/
def World.set (m : World α) (value : α) : World α := { m with value := value }.notify true

/-- `Mutable::set_if`, `/repo/src/signal/mutable.rs:298-305`. -/
def World.setIf (m : World α) (value : α) (f : α → α → Bool) : World α :=
  if f m.value value then { m with value := value }.notify true else m

/-- `Mutable::set_neq`, `/repo/src/signal/mutable.rs:342-344`. -/
def World.setNeq [BEq α] (m : World α) (value : α) : World α := m.setIf value (fun a b => a != b)

/-- One use of a `MutableLockMut`: `Deref` or `DerefMut`, `/repo/src/signal/mutable.rs:127-142`. -/
inductive Use (α : Type) where
  | deref
  | derefMut (f : α → α)

/-- The uses of the guard; gives `mutated` and the value. -/
def useAll : List (Use α) → Bool → α → Bool × α
  | [], mutated, a => (mutated, a)
  | .deref :: us, mutated, a => useAll us mutated a
  | .derefMut f :: us, _, a => useAll us true (f a)

/-- `Mutable::lock_mut`, `/repo/src/signal/mutable.rs:310-315`, the uses of the guard and its drop,
`144-151`.  While the guard is alive all other calls that use the lock wait. -/
def World.lockMut (m : World α) (us : List (Use α)) : World α :=
  match useAll us false m.value with
  | (true, value) => { m with value := value }.notify true
  | (false, value) => { m with value := value }

/-- `Mutable::swap`, `/repo/src/signal/mutable.rs:279-288`, of two different `Mutable`s. -/
def World.swap (m1 m2 : World α) : World α × World α :=
  ({ m1 with value := m2.value }.notify true, { m2 with value := m1.value }.notify true)

/-- `Clone for Mutable`, `/repo/src/signal/mutable.rs:381-387`. -/
def World.clone (m : World α) : World α :=
  { m with senders := m.senders + 1, handles := m.handles + 1 }

/-- `Drop for Mutable`, `/repo/src/signal/mutable.rs:389-406`.  Simplification: `fetch_sub` at `0`
gives `0` instead of wrapping; it does not happen (`C33_senders`). -/
def World.drop (m : World α) : World α :=
  let m' := { m with senders := m.senders - 1, handles := m.handles - 1 }
  if m.senders = 1 then
    if m.signals.length > 0 then { m'.notify false with signals := [] } else m'
  else m'

/-! ## Histories -/

/-- What the environment can do with one `Mutable`: its methods on any handle, the creation, polls
and drops of its signals, numbered in order of creation. -/
inductive Ev (α : Type) where
  | set (a : α)
  | replace (a : α)
  | replaceWith (f : α → α × α)
  | setIf (a : α) (f : α → α → Bool)
  | lockMut (us : List (Use α))
  | get
  | clone
  | drop
  | signal
  | poll (i : Nat) (w : Waker)
  | dropSignal (i : Nat)

/-- What a call answers. -/
inductive Obs (α : Type) where
  | unit
  | value (a : α)
  | poll (r : Poll (Option α))

/-- One event; `none` if it cannot happen: a method needs a handle (`get` and `signal` work on a
`ReadOnlyMutable`, `lock_ref`, `get`, `get_cloned`, `/repo/src/signal/mutable.rs:175-213`), a signal
must exist and not be dropped. -/
def World.step (m : World α) : Ev α → Option (Obs α × World α)
  | .set a => if m.handles = 0 then none else some (.unit, m.set a)
  | .replace a =>
    if m.handles = 0 then none
    else match m.replace a with
    | (old, m') => some (.value old, m')
  | .replaceWith f =>
    if m.handles = 0 then none
    else match m.replaceWith f with
    | (old, m') => some (.value old, m')
  | .setIf a f => if m.handles = 0 then none else some (.unit, m.setIf a f)
  | .lockMut us => if m.handles = 0 then none else some (.unit, m.lockMut us)
  | .get => some (.value m.value, m)
  | .clone => if m.handles = 0 then none else some (.unit, m.clone)
  | .drop => if m.handles = 0 then none else some (.unit, m.drop)
  | .signal => some (.unit, m.signalState)
  | .poll i w =>
    if i < m.cells ∧ (m.cell i).alive then
      match m.pollChange i w id with
      | (r, m') => some (.poll r, m')
    else none
  | .dropSignal i =>
    if i < m.cells ∧ (m.cell i).alive then some (.unit, m.dropSignal i) else none

/-- A history, with the answers. -/
def World.runs (m : World α) : List (Ev α) → Option (List (Obs α) × World α)
  | [] => some ([], m)
  | e :: es =>
    match m.step e with
    | none => none
    | some (o, m') =>
      match m'.runs es with
      | none => none
      | some (os, m'') => some (o :: os, m'')

end Verif.Mut
