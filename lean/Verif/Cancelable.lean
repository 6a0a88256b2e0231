import Verif.Basic
import Verif.Hist

/-!
# `cancelable_future`: sequential model

`/repo/src/future.rs`.  API-level model; the interleaving model is in `Verif/CancelableConc.lean`.
-/

namespace Verif.Cancelable

variable {ο : Type}

/-- `CancelableFutureState` and `CancelableFuture`, `/repo/src/future.rs:12-16` and `41-48`, and the
environment.  The callback is the value it is going to return.  `handle`: the
`DiscardOnDrop<CancelableFutureHandle>` exists.  `alive`: the future exists, so that `Weak::upgrade`
succeeds.  `done`: it has answered `Ready`.  Ghosts: the number of times the callback ran, the inner
future after it was dropped, the wakers woken. -/
structure World (ο : Type) where
  isCancelled : Bool
  waker : Option Waker
  future : Option (Src ο)
  whenCancelled : Option ο
  handle : Bool
  alive : Bool
  done : Bool
  calls : Nat
  dropped : Option (Src ο)
  woken : List Waker

/-- `cancelable_future`, `/repo/src/future.rs:85-105`. -/
def World.init (script : List (Poll ο)) (callback : ο) : World ο :=
  ⟨false, none, some (Src.mk' script), some callback, true, true, false, 0, none, []⟩

/-- `CancelableFutureHandle::discard`, `/repo/src/future.rs:25-37`.  It takes `self`; `DiscardOnDrop`
calls it when the handle is dropped. -/
def World.discard (m : World ο) : World ο :=
  if m.alive then
    match m.waker with
    | some w => { m with handle := false, isCancelled := true, waker := none, woken := m.woken ++ [w] }
    | none => { m with handle := false, isCancelled := true }
  else { m with handle := false }

/-- `CancelableFuture::poll`, `/repo/src/future.rs:57-79`; `none` if an `unwrap` panics. -/
def World.poll (m : World ο) (w : Waker) : Option (Poll ο × World ο) :=
  if m.isCancelled then
    match m.whenCancelled with
    | none => none
    | some callback =>
      some (.ready callback,
        { m with future := none, dropped := m.future, whenCancelled := none, calls := m.calls + 1 })
  else
    match m.future with
    | none => none
    | some f =>
      match f.poll w with
      | (.pending, f') => some (.pending, { m with future := some f', waker := some w })
      | (.ready a, f') => some (.ready a, { m with future := some f' })

/-- Calls on the handle and on the future.  `discard` is also the drop of the handle. -/
inductive Ev where
  | poll (w : Waker)
  | discard
  | dropFuture
deriving DecidableEq

/-- What a call answers. -/
inductive Obs (ο : Type) where
  | unit
  | poll (r : Poll ο)
  | panic
deriving DecidableEq

/-- One event; `none` if it cannot happen.  A future is not polled after it answered `Ready` (contract
of `Future`). -/
def World.step (m : World ο) : Ev → Option (Obs ο × World ο)
  | .poll w =>
    if m.alive && !m.done then
      match m.poll w with
      | none => some (.panic, m)
      | some (.ready a, m') => some (.poll (.ready a), { m' with done := true })
      | some (.pending, m') => some (.poll .pending, m')
    else none
  | .discard => if m.handle then some (.unit, m.discard) else none
  | .dropFuture =>
    if m.alive then some (.unit, { m with alive := false, future := none, dropped := m.future.or m.dropped })
    else none

/-- A history of calls, with the answers. -/
def World.runs (m : World ο) (es : List Ev) : Option (List (Obs ο) × World ο) :=
  runE World.step m es

end Verif.Cancelable
