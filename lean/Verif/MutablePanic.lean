import Verif.Mutable
import Verif.Hist

/-!
# `Mutable`: panics of user code and the poisoned lock

`/repo/src/signal/mutable.rs`, with the `RwLock` of the standard library: a write guard that is
dropped by a thread that started to panic while it held the guard poisons the lock; read guards do
not.  Every `lock.read().unwrap()` and `lock.write().unwrap()` of a poisoned lock panics.

User code that can panic while the lock is held: the callbacks of `replace_with` and `set_if`, code
that holds a guard of `lock_mut` or `lock_ref`, `clone` in `get_cloned` and `signal_cloned`, and the
callback of `signal_ref`.  Simplification: wakers, and the drop of a value, do not panic.
-/

namespace Verif.MutPanic

open Mut

variable {α : Type}

/-- A `Mutable` whose lock can be poisoned, `/repo/src/signal/mutable.rs:81-84`.  `aborted`: the
process is gone, after a panic in a `drop` during another panic. -/
structure PWorld (α : Type) where
  m : World α
  poisoned : Bool
  aborted : Bool

/-- `Mutable::new`, `/repo/src/signal/mutable.rs:244-246`. -/
def PWorld.new (a : α) : PWorld α := ⟨World.new a, false, false⟩

/-- What happens: a call, whose user code does not panic, or one of the calls below, whose user code
does. -/
inductive PEv (α : Type) where
  | call (e : Ev α)
  /-- the callback of `replace_with` changes its argument by `f` and panics -/
  | replaceWithPanics (f : α → α)
  /-- the callback of `set_if` panics -/
  | setIfPanics (a : α)
  /-- a panic while the guard of `lock_mut` is alive, after these uses -/
  | lockMutPanics (us : List (Use α))
  /-- the callback of `signal_ref`, or the `clone` of `signal_cloned`, panics if it is called -/
  | pollPanics (i : Nat) (w : Waker)
  /-- the `clone` of `get_cloned` panics, or the code that holds a guard of `lock_ref` -/
  | getPanics
  /-- a handle is dropped by a thread that unwinds because of a panic -/
  | dropUnwinding

/-- How a call ends. -/
inductive Outcome (α : Type) where
  | done (o : Obs α)
  | panicked
  | aborted

/-- The calls on a `Mutable` whose lock is poisoned.  `set`, `replace`, `replace_with`, `set_if`,
`lock_mut`, `lock_ref`, `get` and `get_cloned` lock first (`/repo/src/signal/mutable.rs:175-213`,
`258-315`).  `clone` does not lock (`381-387`).  `drop` counts first, and locks if it was the last
handle (`389-406`).  `signal_state` locks if there is a handle (`181-189`); what it made is dropped by
the panic.  `poll_change` resets `changed` first and then locks, or does not lock at all (`102-117`). -/
def PWorld.callPoisoned (p : PWorld α) : Ev α → Option (Outcome α × PWorld α)
  | .set _ => if p.m.handles = 0 then none else some (.panicked, p)
  | .replace _ => if p.m.handles = 0 then none else some (.panicked, p)
  | .replaceWith _ => if p.m.handles = 0 then none else some (.panicked, p)
  | .setIf _ _ => if p.m.handles = 0 then none else some (.panicked, p)
  | .lockMut _ => if p.m.handles = 0 then none else some (.panicked, p)
  | .get => some (.panicked, p)
  | .clone => if p.m.handles = 0 then none else some (.done .unit, { p with m := p.m.clone })
  | .drop =>
    if p.m.handles = 0 then none
    else
      let m' := { p.m with senders := p.m.senders - 1, handles := p.m.handles - 1 }
      if p.m.senders = 1 then some (.panicked, { p with m := m' })
      else some (.done .unit, { p with m := m' })
  | .signal =>
    if p.m.senders ≠ 0 then some (.panicked, p)
    else some (.done .unit, { p with m := p.m.signalState })
  | .poll i w =>
    if i < p.m.cells ∧ (p.m.cell i).alive then
      match (p.m.cell i).isChanged with
      | (true, c) => some (.panicked, { p with m := p.m.setCell i c })
      | (false, c) =>
        if p.m.senders = 0 then some (.done (.poll (.ready none)), { p with m := p.m.setCell i c })
        else some (.done (.poll .pending), { p with m := p.m.setCell i (c.setWaker w) })
    else none
  | .dropSignal i =>
    if i < p.m.cells ∧ (p.m.cell i).alive then some (.done .unit, { p with m := p.m.dropSignal i })
    else none

/-- A call whose user code does not panic: as in `/repo/src/signal/mutable.rs:95-461` if the lock is
not poisoned. -/
def PWorld.call (p : PWorld α) (e : Ev α) : Option (Outcome α × PWorld α) :=
  if p.poisoned then p.callPoisoned e
  else
    match p.m.step e with
    | none => none
    | some (o, m) => some (.done o, { p with m := m })

/-- One event; `none` if it cannot happen.
* `replace_with`, `/repo/src/signal/mutable.rs:268-277`, and `set_if`, `298-305`: the guard is dropped,
  which poisons the lock, and nothing is notified.
* the guard of `lock_mut`: first `Drop for MutableLockMut`, `144-151`, runs, then the
  `RwLockWriteGuard` is dropped, which poisons.
* `poll_change`, `102-117`: `changed` was reset before the callback is called.
* `drop`, `389-406`: if `unwrap` panics in a thread that is panicking the process is aborted. -/
def PWorld.step (p : PWorld α) (e : PEv α) : Option (Outcome α × PWorld α) :=
  if p.aborted then none
  else
    match e with
    | .call e => p.call e
    | .replaceWithPanics f =>
      if p.m.handles = 0 then none
      else if p.poisoned then some (.panicked, p)
      else some (.panicked, { p with m := { p.m with value := f p.m.value }, poisoned := true })
    | .setIfPanics _ =>
      if p.m.handles = 0 then none else some (.panicked, { p with poisoned := true })
    | .lockMutPanics us =>
      if p.m.handles = 0 then none
      else if p.poisoned then some (.panicked, p)
      else some (.panicked, { p with m := p.m.lockMut us, poisoned := true })
    | .pollPanics i w =>
      if i < p.m.cells ∧ (p.m.cell i).alive then
        match (p.m.cell i).isChanged with
        | (true, c) => some (.panicked, { p with m := p.m.setCell i c })
        | (false, _) => p.call (.poll i w)
      else none
    | .getPanics => some (.panicked, p)
    | .dropUnwinding =>
      match p.call .drop with
      | none => none
      | some (.panicked, p') => some (.aborted, { p' with aborted := true })
      | some (o, p') => some (o, p')

/-- Histories with panics. -/
abbrev PWorld.runs (p : PWorld α) (es : List (PEv α)) : Option (List (Outcome α) × PWorld α) :=
  runE PWorld.step p es

end Verif.MutPanic
