import Verif.Basic
import Verif.Hist

/-!
# `Broadcaster`: interleaving model

`/repo/src/signal/broadcaster.rs`.  Any number of subscribers, each polled by its own thread, any number
of threads in which the input wakes its waker; new subscribers are made at any time.  Sequentially
consistent.

Simplifications.
* A critical section of the lock `inner` is two steps: taking the write lock and polling the input
  (nobody else sees the state meanwhile); deciding, storing the waker and releasing.  With the read lock
  it is one step.
* The mutex `wakers` is held for the whole of `notify` (line 29): so one `notify` at a time, and one that
  has to wait has not begun.
* Subscribers are not dropped, `epoch` does not wrap.
-/

namespace Verif.BcConc

variable {α : Type}

/-- Where the thread of a subscriber is. -/
inductive Pc where
  /-- the subscriber does not exist yet -/
  | unborn
  /-- in `BroadcasterState::new` (lines 168-171): about to register -/
  | make
  | idle
  /-- in `BroadcasterSharedState::poll` (lines 128-141): about to swap `is_changed` -/
  | swap (w : Waker)
  /-- `is_changed` was set: about to take the write lock and poll the input (lines 130-132) -/
  | wantWrite (w : Waker)
  /-- has the write lock: about to decide (line 134) -/
  | decide (w : Waker)
  /-- `is_changed` was not set: about to take the read lock and decide (lines 137-139) -/
  | wantRead (w : Waker)
deriving DecidableEq

/-- A subscriber: its epoch, its stored waker.  Ghosts: the number of values the input had produced when
it last got one, the answers of its polls, the wakers woken, and how many had been when the waker was
last stored. -/
structure Sub (α : Type) where
  epoch : Nat
  waker : Option Waker
  pc : Pc
  got : Nat
  answers : List (Waker × Poll (Option α))
  woken : List Waker
  regAt : Nat

/-- A thread in `notify`: the subscribers it has still to wake, and the waker it is about to wake. -/
structure Notifier where
  todo : List Nat
  wake : Option (Nat × Waker)

/-- `BroadcasterSharedState`, `/repo/src/signal/broadcaster.rs:112-115`, and the threads.  `lock`: who has
the write lock.  Ghost: `values`, all values the input has produced. -/
structure World (α : Type) where
  todo : List (Poll (Option α))
  alive : Bool
  value : Option α
  epoch : Nat
  lock : Option Nat
  isChanged : Bool
  wakers : List Nat
  notifier : Option Notifier
  subs : Nat → Sub α
  made : Nat
  values : List α

/-- A subscriber that does not exist yet. -/
def Sub.unborn : Sub α := ⟨0, none, .unborn, 0, [], [], 0⟩

/-- `Broadcaster::new`, `/repo/src/signal/broadcaster.rs:21-26`, `70-77`, `118-126`, `235-239`. -/
def World.init (script : List (Poll (Option α))) : World α :=
  ⟨script, true, none, 0, none, true, [], none, fun _ => Sub.unborn, 0, []⟩

/-- Change one subscriber. -/
def World.upd (m : World α) (i : Nat) (s : Sub α) : World α :=
  { m with subs := fun j => if j = i then s else m.subs j }

/-- A step of some thread. -/
inductive Ev where
  /-- the input wakes its waker: `notify` takes the mutex and sets `is_changed` (lines 29-31) -/
  | wake
  /-- the thread in `notify` makes a step -/
  | nstep
  /-- a thread starts to make a new subscriber -/
  | subscribe
  /-- the thread of subscriber `i` starts a poll -/
  | poll (i : Nat) (w : Waker)
  /-- the thread of subscriber `i` makes a step -/
  | sstep (i : Nat)

/-- The values the input produces before it gives another answer, that answer, and the rest of the
script: the loop of `poll_signal`, `/repo/src/signal/broadcaster.rs:85-102`. -/
def burst : List (Poll (Option α)) → List α × Bool × List (Poll (Option α))
  | [] => ([], true, [])
  | .ready (some a) :: rest =>
    match burst rest with
    | (vs, alive, rest') => (a :: vs, alive, rest')
  | .ready none :: rest => ([], false, rest)
  | .pending :: rest => ([], true, rest)

/-- `poll_signal`, `/repo/src/signal/broadcaster.rs:79-107`. -/
def World.pollSignal (m : World α) : World α :=
  if m.alive then
    match burst m.todo with
    | (vs, alive, rest) =>
      { m with
        todo := rest
        alive := alive
        value := vs.getLast?.or m.value
        epoch := if vs.isEmpty then m.epoch else m.epoch + 1
        values := m.values ++ vs }
  else m

/-- The closure in `BroadcasterState::poll_change`, `/repo/src/signal/broadcaster.rs:183-199`, for
subscriber `i`; the callback is left out. -/
def World.decideSub (m : World α) (i : Nat) (w : Waker) : Sub α :=
  let s := m.subs i
  if m.epoch = s.epoch then
    if m.alive = false then { s with pc := .idle, answers := s.answers ++ [(w, .ready none)] }
    else { s with
      pc := .idle
      waker := some w
      regAt := s.woken.length
      answers := s.answers ++ [(w, .pending)] }
  else { s with
    pc := .idle
    epoch := m.epoch
    got := m.values.length
    answers := s.answers ++ [(w, .ready m.value)] }

/-- A step of the thread of subscriber `i`; `none` if it has to wait. -/
def World.sstep (m : World α) (i : Nat) : Option (World α) :=
  let s := m.subs i
  match s.pc with
  | .unborn => none
  | .idle => none
  | .make =>
    match m.notifier with
    | some _ => none
    | none => some { m.upd i { s with pc := .idle } with wakers := m.wakers ++ [i] }
  | .swap w =>
    if m.isChanged then some { m.upd i { s with pc := .wantWrite w } with isChanged := false }
    else some (m.upd i { s with pc := .wantRead w })
  | .wantWrite w =>
    match m.lock with
    | some _ => none
    | none => some { m.pollSignal.upd i { s with pc := .decide w } with lock := some i }
  | .decide w => some { m.upd i (m.decideSub i w) with lock := none }
  | .wantRead w =>
    match m.lock with
    | some _ => none
    | none => some (m.upd i (m.decideSub i w))

/-- A step of the thread in `notify`, `/repo/src/signal/broadcaster.rs:33-42`, and in
`ChangedWaker::wake`, `/repo/src/signal/mutable.rs:28-42`. -/
def World.nstep (m : World α) (n : Notifier) : World α :=
  match n.wake with
  | some (i, w) =>
    { m.upd i { m.subs i with woken := (m.subs i).woken ++ [w] } with notifier := some ⟨n.todo, none⟩ }
  | none =>
    match n.todo with
    | [] => { m with notifier := none }
    | i :: rest =>
      match (m.subs i).waker with
      | none => { m with notifier := some ⟨rest, none⟩ }
      | some w => { m.upd i { m.subs i with waker := none } with notifier := some ⟨rest, some (i, w)⟩ }

/-- One step; `none` if it cannot happen. -/
def World.step (m : World α) : Ev → Option (Unit × World α)
  | .wake =>
    match m.notifier with
    | some _ => none
    | none => some ((), { m with isChanged := true, notifier := some ⟨m.wakers, none⟩ })
  | .nstep =>
    match m.notifier with
    | none => none
    | some n => some ((), m.nstep n)
  | .subscribe => some ((), { m.upd m.made ⟨0, none, .make, 0, [], [], 0⟩ with made := m.made + 1 })
  | .poll i w =>
    if (m.subs i).pc = .idle then some ((), m.upd i { m.subs i with pc := .swap w }) else none
  | .sstep i =>
    match m.sstep i with
    | none => none
    | some m' => some ((), m')

/-- A schedule. -/
def World.runs (m : World α) (es : List Ev) : Option (World α) := (runE World.step m es).map (·.2)

end Verif.BcConc
