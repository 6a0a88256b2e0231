import Verif.Basic
import Verif.Hist

/-!
# `Mutable`: interleaving model

`/repo/src/signal/mutable.rs`.  Any number of handles, of threads that write and drop handles, and of
signals, each polled by its own thread; new signals are made at any time.  One step per atomic access
or critical section, sequentially consistent.

Simplifications.
* All ways to write (`set`, `replace`, `replace_with`, `set_if`, `swap`, `lock_mut` + `DerefMut`) are
  the same here: take the write lock, change the value, `notify(true)`, release the lock.  While the
  lock is held nobody else sees the value, so taking the lock and changing the value is one step.  A
  write that has to wait for the lock has not begun.
* Taking the read lock, reading the value and releasing it is one step, possible when no thread has
  the write lock.
* Signals are not dropped: for the others a dropped signal is the same as one that is not polled.
-/

namespace Verif.MutConc

variable {α : Type}

/-- Where the thread that has the write lock is in `notify`, `/repo/src/signal/mutable.rs:66-76`, and
in `ChangedWaker::wake`, `/repo/src/signal/mutable.rs:28-42`. -/
inductive Phase where
  /-- about to go on to the next signal: `changed` of that signal is stored (lines 32-34) -/
  | next
  /-- has the mutex of the `i`th signal; about to take its waker and release the mutex (line 36) -/
  | take (i : Nat)
  /-- about to call `wake` (lines 39-41) -/
  | wake (i : Nat) (w : Waker)
deriving DecidableEq

/-- The thread that has the write lock: the signals it has still to notify, and the argument of
`notify`.  With `true` it is a write, with `false` the drop of the last handle. -/
structure Writer where
  todo : List Nat
  changed : Bool
  phase : Phase

/-- Where the thread that makes and polls a signal is.  The number is a ghost: the number of writes
completed when the poll started (the initial value counts as one). -/
inductive SPc where
  /-- the signal does not exist yet -/
  | unborn
  /-- in `signal_state` (lines 181-189): about to load `senders` -/
  | make
  /-- about to register under the write lock (line 185) -/
  | push
  | idle
  /-- in `poll_change` (lines 102-117): about to swap `changed` (line 103) -/
  | swap (w : Waker) (started : Nat)
  /-- about to read the value under the read lock (lines 104-107) -/
  | read (w : Waker) (started : Nat)
  /-- about to load `senders` (line 110) -/
  | load (w : Waker) (started : Nat)
  /-- about to store the waker under the mutex (lines 44-46, 114) -/
  | setWaker (w : Waker) (started : Nat)
deriving DecidableEq

/-- The answer of a poll, with its waker and ghosts: the writes completed when it started, and (for a
value) the number of the write that it saw, counting from 1 for the initial value. -/
structure Answer (α : Type) where
  waker : Waker
  started : Nat
  answer : Poll (Option α)
  version : Nat

/-- `ChangedWaker`, `/repo/src/signal/mutable.rs:15-18`, and its signal.  Ghosts: the last version
delivered (0: none), the answers of the polls, the wakers woken, and how many had been when the waker
was last stored. -/
structure Sig (α : Type) where
  changed : Bool
  waker : Option Waker
  pc : SPc
  delivered : Nat
  answers : List (Answer α)
  woken : List Waker
  regAt : Nat

/-- `MutableState` and `MutableLockState`, `/repo/src/signal/mutable.rs:55-59` and `81-84`, and the
threads.  `ending`: the last handle was dropped and its thread has still to take the write lock.
Ghosts: `log`, all values so far, the current one last. -/
structure World (α : Type) where
  value : α
  signals : List Nat
  senders : Nat
  writer : Option Writer
  ending : Bool
  sigs : Nat → Sig α
  made : Nat
  log : List α

/-- A signal that does not exist yet. -/
def Sig.unborn : Sig α := ⟨false, none, .unborn, 0, [], [], 0⟩

/-- `Mutable::new`, `/repo/src/signal/mutable.rs:318-329`. -/
def World.init (a : α) : World α := ⟨a, [], 1, none, false, fun _ => Sig.unborn, 0, [a]⟩

/-- Change one signal. -/
def World.upd (m : World α) (i : Nat) (s : Sig α) : World α :=
  { m with sigs := fun j => if j = i then s else m.sigs j }

/-- The number of writes that have released the lock. -/
def World.completed (m : World α) : Nat :=
  match m.writer with
  | some ⟨_, true, _⟩ => m.log.length - 1
  | _ => m.log.length

/-- Some write has the lock. -/
def World.writing (m : World α) : Bool :=
  match m.writer with
  | some wr => wr.changed
  | none => false

/-- A step of one of the threads. -/
inductive Ev (α : Type) where
  /-- a write takes the lock and changes the value -/
  | write (a : α)
  /-- the thread with the write lock makes a step -/
  | wstep
  /-- `clone`, `/repo/src/signal/mutable.rs:384` -/
  | clone
  /-- `drop` of a handle, `/repo/src/signal/mutable.rs:394` -/
  | drop
  /-- the drop of the last handle takes the write lock, `/repo/src/signal/mutable.rs:397` -/
  | endLock
  /-- a thread starts to make a new signal -/
  | subscribe
  /-- the thread of the `i`th signal starts a poll -/
  | poll (i : Nat) (w : Waker)
  /-- the thread of the `i`th signal makes a step -/
  | sstep (i : Nat)

/-- A step of the thread that has the write lock. -/
def World.wstep (m : World α) (wr : Writer) : World α :=
  match wr.phase with
  | .next =>
    match wr.todo with
    | [] =>
      -- the lock is released; the drop of the last handle clears `signals` (line 402)
      { m with writer := none, signals := if wr.changed then m.signals else [] }
    | i :: rest =>
      { m.upd i { m.sigs i with changed := wr.changed || (m.sigs i).changed } with
          writer := some ⟨rest, wr.changed, .take i⟩ }
  | .take i =>
    match (m.sigs i).waker with
    | some w =>
      { m.upd i { m.sigs i with waker := none } with writer := some ⟨wr.todo, wr.changed, .wake i w⟩ }
    | none => { m with writer := some ⟨wr.todo, wr.changed, .next⟩ }
  | .wake i w =>
    { m.upd i { m.sigs i with woken := (m.sigs i).woken ++ [w] } with
        writer := some ⟨wr.todo, wr.changed, .next⟩ }

/-- The mutex of the `i`th signal is held. -/
def World.mutexHeld (m : World α) (i : Nat) : Bool :=
  match m.writer with
  | some wr => wr.phase = .take i
  | none => false

/-- A step of the thread of the `i`th signal; `none` if it has to wait. -/
def World.sstep (m : World α) (i : Nat) : Option (World α) :=
  let s := m.sigs i
  match s.pc with
  | .unborn => none
  | .idle => none
  | .make => some (m.upd i { s with pc := if m.senders = 0 then .idle else .push })
  | .push =>
    match m.writer with
    | some _ => none
    | none => some { m.upd i { s with pc := .idle } with signals := m.signals ++ [i] }
  | .swap w c =>
    if s.changed then some (m.upd i { s with changed := false, pc := .read w c })
    else some (m.upd i { s with pc := .load w c })
  | .read w c =>
    match m.writer with
    | some _ => none
    | none =>
      some (m.upd i { s with
        pc := .idle
        delivered := m.log.length
        answers := s.answers ++ [⟨w, c, .ready (some m.value), m.log.length⟩] })
  | .load w c =>
    if m.senders = 0 then
      some (m.upd i { s with pc := .idle, answers := s.answers ++ [⟨w, c, .ready none, 0⟩] })
    else some (m.upd i { s with pc := .setWaker w c })
  | .setWaker w c =>
    if m.mutexHeld i then none
    else some (m.upd i { s with
      pc := .idle
      waker := some w
      regAt := s.woken.length
      answers := s.answers ++ [⟨w, c, .pending, 0⟩] })

/-- One step; `none` if it cannot happen.  Writes and clones need a handle.  The last handle is not
dropped while a write borrows it. -/
def World.step (m : World α) : Ev α → Option (Unit × World α)
  | .write a =>
    match m.writer with
    | some _ => none
    | none =>
      if m.senders = 0 then none
      else some ((), { m with value := a, log := m.log ++ [a], writer := some ⟨m.signals, true, .next⟩ })
  | .wstep =>
    match m.writer with
    | none => none
    | some wr => some ((), m.wstep wr)
  | .clone => if m.senders = 0 then none else some ((), { m with senders := m.senders + 1 })
  | .drop =>
    if 2 ≤ m.senders then some ((), { m with senders := m.senders - 1 })
    else if m.senders = 1 ∧ m.writing = false then some ((), { m with senders := 0, ending := true })
    else none
  | .endLock =>
    match m.writer with
    | some _ => none
    | none =>
      if m.ending then some ((), { m with ending := false, writer := some ⟨m.signals, false, .next⟩ })
      else none
  | .subscribe =>
    some ((), { m.upd m.made ⟨true, none, .make, 0, [], [], 0⟩ with made := m.made + 1 })
  | .poll i w =>
    if (m.sigs i).pc = .idle then some ((), m.upd i { m.sigs i with pc := .swap w m.completed })
    else none
  | .sstep i =>
    match m.sstep i with
    | none => none
    | some m' => some ((), m')

/-- A schedule. -/
def World.runs (m : World α) (es : List (Ev α)) : Option (World α) := (runE World.step m es).map (·.2)

end Verif.MutConc
