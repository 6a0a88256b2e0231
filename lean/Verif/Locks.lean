/-!
# The locks of the crate

Which locks the functions of the crate take, in which order, and what runs while they are held.
Everything else is erased: values, and the conditions on them, become free choices.  The locks are
the `RwLock`s of `Mutable`, `Broadcaster`, `MutableVec`, `MutableBTreeMap` and the `Mutex`es of
`ChangedWaker`, `BroadcasterNotifier`, `CancelableFutureState`; there are no others
(`/repo/src/signal/channel.rs`, `/repo/src/atomic.rs` and the channels of `MutableVec` and
`MutableBTreeMap` use atomics).
-/

namespace Verif.Locks

/-! ## Threads -/

/-- How a `RwLock` is taken.  A `Mutex` is always taken with `write`. -/
inductive Mode where
  | read
  | write
deriving DecidableEq, Repr

/-- One step of a thread: it takes a lock, for which it may have to wait, or drops a guard. -/
inductive Act (L : Type) where
  | acq (l : L) (m : Mode)
  | rel (l : L)
deriving DecidableEq, Repr

/-- A thread: the guards it has, and what it will do. -/
structure Thread (L : Type) where
  held : List (L × Mode)
  todo : List (Act L)

variable {L : Type} [DecidableEq L]

/-- Some thread has a guard of `l`, or with `read` one that excludes readers. -/
def busy (ts : List (Thread L)) (l : L) : Mode → Prop
  | .write => ∃ t ∈ ts, ∃ m, (l, m) ∈ t.held
  | .read => ∃ t ∈ ts, (l, Mode.write) ∈ t.held

/-- The next step of a thread. -/
def Thread.step (t : Thread L) : Thread L :=
  match t.todo with
  | [] => t
  | .acq l m :: r => ⟨(l, m) :: t.held, r⟩
  | .rel l :: r => ⟨t.held.eraseP (fun h => h.1 == l), r⟩

/-- The thread can do its next step: it has one, and if that takes a lock then the lock is free
for it. -/
def enabled (ts : List (Thread L)) (t : Thread L) : Prop :=
  match t.todo with
  | [] => False
  | .acq l m :: _ => ¬busy ts l m
  | .rel _ :: _ => True

/-- The thread can do its next step whatever the `RwLock` prefers: Rust leaves open whether a reader
has to wait while some writer waits. -/
def surelyEnabled (ts : List (Thread L)) (t : Thread L) : Prop :=
  enabled ts t ∧
  ∀ l r, t.todo = .acq l .read :: r → ∀ u ∈ ts, ∀ r', u.todo ≠ .acq l .write :: r'

/-- What threads can do, one step at a time, in any order; `n` counts the steps. -/
inductive Reach (ts : List (Thread L)) : Nat → List (Thread L) → Prop where
  | start : Reach ts 0 ts
  | step {n us i t} : Reach ts n us → us[i]? = some t → enabled us t →
      Reach ts (n + 1) (us.set i t.step)

/-- Threads that have not begun. -/
def start (ps : List (List (Act L))) : List (Thread L) := ps.map fun p => ⟨[], p⟩

/-! ## The locks that functions take -/

/-- The objects a program uses, numbered in any way. -/
inductive Kind where
  | mutable
  | broadcaster
  | container
  | future
deriving DecidableEq, Repr

/-- A lock.  `value i`: `MutableState::lock` (`/repo/src/signal/mutable.rs:83`),
`BroadcasterSharedState::inner` (`/repo/src/signal/broadcaster.rs:113`), the `RwLock` of a
`MutableVec` (`/repo/src/signal_vec.rs:3366`) or `MutableBTreeMap` (`/repo/src/signal_map.rs:806`),
depending on the object.  `signal i k`: the mutex of the `ChangedWaker`
(`/repo/src/signal/mutable.rs:17`) of the `k`-th signal of object `i`.  `wakers b`:
`BroadcasterNotifier::wakers` (`/repo/src/signal/broadcaster.rs:17`).  `future f`:
`CancelableFutureState::waker` (`/repo/src/future.rs:15`). -/
inductive Lock where
  | value (i : Nat)
  | signal (i k : Nat)
  | wakers (b : Nat)
  | future (f : Nat)
deriving DecidableEq, Repr

/-- A piece of code.

* `code n`: any code, of the user or of the crate, that uses only objects with a number below `n`,
  and that may call the waker of any `Broadcaster`.
* `wakes i`: waking any of the signals made from object `i`, one after the other.
* `notify b`: the waker of `Broadcaster` `b`.
* `answer b`: what a poll of a `Broadcaster` does after the input. -/
inductive Piece where
  | code (n : Nat)
  | wakes (i : Nat)
  | notify (b : Nat)
  | answer (b : Nat)

/-- `l` is locked while `p` runs. -/
def guarded (l : Lock) (m : Mode) (p : List (Act Lock)) : List (Act Lock) :=
  .acq l m :: (p ++ [.rel l])

/-- The sequences of steps that a piece of code can consist of.

Assumptions on user code: code that runs while the lock of object `i` is held (closures passed to
`replace_with`, `set_if`, `signal_ref`; `Clone`, `PartialEq` and `Drop` of values; code that holds a
guard of `lock_ref` or `lock_mut`; the input of a `Broadcaster`) uses only objects with smaller
numbers; the waker of a task takes no lock of the crate. -/
inductive Does (kind : Nat → Kind) : Piece → List (Act Lock) → Prop where
  /-- Nothing, or something that takes no lock: `Mutable::clone`, dropping a handle that is not the
  last, dropping a signal, polling a signal that has ended, polling a `MutableSignalVec` or
  `MutableSignalMap` (`/repo/src/signal_vec.rs:3478-3480`, `/repo/src/signal_map.rs:945-947`). -/
  | nothing {n} : Does kind (.code n) []
  /-- One thing after the other. -/
  | seq {n p q} : Does kind (.code n) p → Does kind (.code n) q → Does kind (.code n) (p ++ q)
  /-- What uses objects below `n` uses objects below a greater number. -/
  | more {n m p} : n ≤ m → Does kind (.code n) p → Does kind (.code m) p
  /-- `get`, `get_cloned`, `lock_ref`, `Debug` and `Serialize` of a `Mutable` or `ReadOnlyMutable`
  (`/repo/src/signal/mutable.rs:175-179`, `199-201`, `211-213`, `228-236`, `347-363`), the changed case
  of polling a signal (`102-108`), and `lock_ref`, `Debug`, `Serialize` of containers
  (`/repo/src/signal_vec.rs:3387-3391`, `3427-3442`; `/repo/src/signal_map.rs:817-821`, `892-907`).
  `p`: what runs while the guard lives. -/
  | read {i p} : kind i = .mutable ∨ kind i = .container → Does kind (.code i) p →
      Does kind (.code (i + 1)) (guarded (.value i) .read p)
  /-- `signal`, `signal_cloned`, `signal_ref` of a `Mutable` (`/repo/src/signal/mutable.rs:181-189`; if
  there are no senders: `nothing`). -/
  | subscribe {i} : kind i = .mutable → Does kind (.code (i + 1)) (guarded (.value i) .write [])
  /-- The last case of polling a signal of a `Mutable` (`/repo/src/signal/mutable.rs:113-116`,
  `44-46`). -/
  | park {i k} : kind i = .mutable →
      Does kind (.code (i + 1)) (guarded (.signal i k) .write [])
  /-- `replace`, `replace_with`, `set`, `set_if`, `set_neq`, a `MutableLockMut` and the drop of the
  last handle (`/repo/src/signal/mutable.rs:258-276`, `290-316`, `144-151`, `389-406`).  `p`: the user
  code that runs while the value is changed; then `notify`, or nothing (`wakes` may be empty). -/
  | write {i p q} : kind i = .mutable → Does kind (.code i) p → Does kind (.wakes i) q →
      Does kind (.code (i + 1)) (guarded (.value i) .write (p ++ q))
  /-- `i.swap(j)` (`/repo/src/signal/mutable.rs:279-288`), if `j` has the smaller number. -/
  | swap {i j p q} : kind i = .mutable → kind j = .mutable → j < i → Does kind (.wakes i) p →
      Does kind (.wakes j) q →
      Does kind (.code (i + 1)) (guarded (.value i) .write (guarded (.value j) .write (p ++ q)))
  /-- Everything that locks a container for writing: the functions of `MutableVecLockMut` and
  `MutableBTreeMapLockMut`, and subscribing (`/repo/src/signal_vec.rs:3395-3424`,
  `/repo/src/signal_map.rs:825-829`, `851-880`).  `p`: user code and sends mixed. -/
  | change {i p} : kind i = .container → Does kind (.code i) p →
      Does kind (.code (i + 1)) (guarded (.value i) .write p)
  /-- A send, or the drop of a sender, wakes the receiver, which may be polled by `Broadcaster` `b`:
  then its waker is called.  Likewise any other input of a `Broadcaster`. -/
  | call {n b p} : kind b = .broadcaster → Does kind (.notify b) p → Does kind (.code n) p
  /-- `Broadcaster::signal` and the like (`/repo/src/signal/broadcaster.rs:165-178`). -/
  | join {b} : kind b = .broadcaster → Does kind (.code (b + 1)) (guarded (.wakers b) .write [])
  /-- Polling a subscriber (`/repo/src/signal/broadcaster.rs:128-141`) if the input is due.  `p`: the
  input is polled any number of times (`79-107`), and may be dropped; it is user code, made from
  signals. -/
  | pollInput {b p q} : kind b = .broadcaster → Does kind (.code b) p → Does kind (.answer b) q →
      Does kind (.code (b + 1)) (guarded (.value b) .write (p ++ q))
  /-- Polling a subscriber if the input is not due. -/
  | pollValue {b q} : kind b = .broadcaster → Does kind (.answer b) q →
      Does kind (.code (b + 1)) (guarded (.value b) .read q)
  /-- `BroadcasterState::poll_change` (`/repo/src/signal/broadcaster.rs:180-200`): there is nothing
  new.  Also the end. -/
  | parkSub {b k} : Does kind (.answer b) (guarded (.signal b k) .write [])
  /-- The same: there is something new (or the end); the callback runs. -/
  | callback {b p} : Does kind (.code b) p → Does kind (.answer b) p
  /-- `BroadcasterNotifier::notify` (`/repo/src/signal/broadcaster.rs:28-43`). -/
  | notify {b p} : Does kind (.wakes b) p → Does kind (.notify b) (guarded (.wakers b) .write p)
  /-- End of `retain` (`/repo/src/signal/mutable.rs:66-76`, `/repo/src/signal/broadcaster.rs:34-42`). -/
  | done {i} : Does kind (.wakes i) []
  /-- `ChangedWaker::wake` (`/repo/src/signal/mutable.rs:28-42`): there is no waker, or it is the one of
  a task. -/
  | wakeTask {i k p} : Does kind (.wakes i) p →
      Does kind (.wakes i) (guarded (.signal i k) .write [] ++ p)
  /-- The same: the signal was polled by the input of the `Broadcaster` `b`. -/
  | wakeSub {i k b p q} : i < b → kind b = .broadcaster → Does kind (.notify b) p →
      Does kind (.wakes i) q → Does kind (.wakes i) (guarded (.signal i k) .write [] ++ p ++ q)
  /-- `CancelableFutureHandle::discard` (`/repo/src/future.rs:24-38`), before the waker is called
  (which is `nothing` or `call`). -/
  | discard {f} : kind f = .future → Does kind (.code (f + 1)) (guarded (.future f) .write [])
  /-- `CancelableFuture::poll` (`/repo/src/future.rs:56-79`). -/
  | pollFuture {f p} : kind f = .future → Does kind (.code f) p →
      Does kind (.code (f + 1)) (p ++ guarded (.future f) .write [])

end Verif.Locks
