import Verif.Basic
import Verif.Hist

/-!
# `cancelable_future`: interleaving model

`/repo/src/future.rs`.  One thread polls the future, again and again; another discards the handle.
One step per access to shared memory; sequentially consistent.  The inner future is an arbitrary
sequence of answers, given by the events.  The future is not dropped (`Weak::upgrade` succeeds).
-/

namespace Verif.CancelableConc

/-- Where the polling thread is in `CancelableFuture::poll`, `/repo/src/future.rs:57-79`. -/
inductive PPc where
  /-- not in a call -/
  | idle
  /-- about to load `is_cancelled` (line 61) -/
  | start (w : Waker)
  /-- about to poll the inner future (line 69) -/
  | inner (w : Waker)
  /-- the inner future answered `Pending`; about to lock `waker` (line 72) -/
  | lock (w : Waker)
  /-- has the lock; about to store the waker and unlock (line 72) -/
  | store (w : Waker)
deriving DecidableEq

/-- Where the discarding thread is in `discard`, `/repo/src/future.rs:25-37`. -/
inductive DPc where
  /-- not called yet -/
  | idle
  /-- has the lock (line 27); about to store `is_cancelled` (line 30) -/
  | store
  /-- about to take the waker and to drop the lock (lines 32-33) -/
  | take
  /-- about to call `wake` (line 34) -/
  | wake (w : Waker)
  /-- returned -/
  | done
deriving DecidableEq

/-- Shared memory, the program counters, and ghosts: the answers of the polls so far (with their
wakers; `true` is `Pending`, `false` is `Ready`) and the wakers woken. -/
structure World where
  isCancelled : Bool
  locked : Bool
  waker : Option Waker
  p : PPc
  d : DPc
  answers : List (Waker × Bool)
  woken : List Waker
deriving DecidableEq

/-- `cancelable_future`, `/repo/src/future.rs:85-105`. -/
def World.init : World := ⟨false, false, none, .idle, .idle, [], []⟩

/-- One step of one of the threads. -/
inductive Ev where
  /-- the executor calls `poll` -/
  | poll (w : Waker)
  /-- load of `is_cancelled` -/
  | pLoad
  /-- the inner future answers: `true` is `Pending` -/
  | pInner (pending : Bool)
  | pLock
  /-- the waker is stored, the lock released; the poll answers `Pending` -/
  | pStore
  /-- `discard` is called and locks `waker` -/
  | dLock
  | dStore
  | dTake
  | dWake
deriving DecidableEq

/-- One step; `none` if the thread is elsewhere or has to wait for the lock.  A future that answered
`Ready` is not polled again. -/
def World.step (m : World) : Ev → Option (Unit × World)
  | .poll w =>
    if m.p = .idle ∧ ∀ a ∈ m.answers, a.2 = true then some ((), { m with p := .start w }) else none
  | .pLoad =>
    match m.p with
    | .start w =>
      if m.isCancelled then some ((), { m with p := .idle, answers := m.answers ++ [(w, false)] })
      else some ((), { m with p := .inner w })
    | _ => none
  | .pInner pending =>
    match m.p with
    | .inner w =>
      if pending then some ((), { m with p := .lock w })
      else some ((), { m with p := .idle, answers := m.answers ++ [(w, false)] })
    | _ => none
  | .pLock =>
    match m.p with
    | .lock w => if m.locked then none else some ((), { m with p := .store w, locked := true })
    | _ => none
  | .pStore =>
    match m.p with
    | .store w =>
      some ((), { m with p := .idle, locked := false, waker := some w, answers := m.answers ++ [(w, true)] })
    | _ => none
  | .dLock =>
    if m.d = .idle then
      if m.locked then none else some ((), { m with d := .store, locked := true })
    else none
  | .dStore => if m.d = .store then some ((), { m with d := .take, isCancelled := true }) else none
  | .dTake =>
    if m.d = .take then
      match m.waker with
      | some w => some ((), { m with d := .wake w, waker := none, locked := false })
      | none => some ((), { m with d := .done, locked := false })
    else none
  | .dWake =>
    match m.d with
    | .wake w => some ((), { m with d := .done, woken := m.woken ++ [w] })
    | _ => none

/-- A schedule. -/
def World.runs (m : World) (es : List Ev) : Option World := (runE World.step m es).map (·.2)

end Verif.CancelableConc
