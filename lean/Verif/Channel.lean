import Verif.Basic
import Verif.Hist

/-!
# `channel`: sequential model

`/repo/src/signal/channel.rs`.  API-level model: every call runs to its end before the next one
starts.  The interleaving model is in `Verif/ChannelConc.lean`.
-/

namespace Verif.Chan

variable {α : Type}

/-- `Inner`, `/repo/src/signal/channel.rs:11-16`, and its environment.  `receiver`: the `Receiver`,
which has the only lasting strong reference, exists, so that `Weak::upgrade` succeeds.  Ghosts: the
number of `Sender`s and the wakers woken so far. -/
structure World (α : Type) where
  value : Option α
  waker : Option Waker
  senders : Nat
  receiver : Bool
  handles : Nat
  woken : List Waker

/-- `channel`, `/repo/src/signal/channel.rs:140-156`. -/
def World.new (initial : α) : World α := ⟨some initial, none, 1, true, 1, []⟩

/-- `Inner::has_senders`, `/repo/src/signal/channel.rs:20-23`. -/
def World.hasSenders (m : World α) : Bool := m.senders != 0

/-- `Inner::notify`, `/repo/src/signal/channel.rs:41-45`. -/
def World.notify (m : World α) : World α :=
  match m.waker with
  | some w => { m with waker := none, woken := m.woken ++ [w] }
  | none => m

/-- `Sender::send`, `/repo/src/signal/channel.rs:55-69`; `some value` is `Err(value)`. -/
def World.send (m : World α) (value : α) : Option α × World α :=
  if m.receiver then
    if m.hasSenders then (none, { m with value := some value }.notify)
    else (some value, m)
  else (some value, m)

/-- `Sender::close`, `/repo/src/signal/channel.rs:71-78`, and `remove_all_senders`, `37-39`. -/
def World.close (m : World α) : World α :=
  if m.receiver then
    if m.hasSenders then { m with senders := 0 }.notify else m
  else m

/-- `Clone for Sender`, `/repo/src/signal/channel.rs:82-93`, and `add_sender`, `26-28`. -/
def World.clone (m : World α) : World α :=
  let m' := if m.receiver then if m.hasSenders then { m with senders := m.senders + 1 } else m else m
  { m' with handles := m'.handles + 1 }

/-- `Drop for Sender`, `/repo/src/signal/channel.rs:97-107`, and `remove_sender`, `30-34`. -/
def World.dropSender (m : World α) : World α :=
  let m' :=
    if m.receiver then
      if m.hasSenders then
        if m.senders = 1 then { m with senders := 0 }.notify else { m with senders := m.senders - 1 }
      else m
    else m
  { m' with handles := m'.handles - 1 }

/-- `Receiver::poll_change`, `/repo/src/signal/channel.rs:123-137`. -/
def World.pollChange (m : World α) (w : Waker) : Poll (Option α) × World α :=
  match m.value with
  | none => if m.hasSenders then (.pending, { m with waker := some w }) else (.ready none, m)
  | some a => (.ready (some a), { m with value := none })

/-- The calls, on any `Sender` or on the `Receiver`, and the drop of the `Receiver`. -/
inductive Ev (α : Type) where
  | send (a : α)
  | close
  | clone
  | dropSender
  | poll (w : Waker)
  | dropReceiver

/-- What a call answers. -/
inductive Obs (α : Type) where
  | unit
  | sent (r : Option α)
  | poll (r : Poll (Option α))

/-- One event; `none` if it cannot happen because there is no `Sender` or no `Receiver`. -/
def World.step (m : World α) : Ev α → Option (Obs α × World α)
  | .send a =>
    if m.handles = 0 then none
    else match m.send a with
    | (r, m') => some (.sent r, m')
  | .close => if m.handles = 0 then none else some (.unit, m.close)
  | .clone => if m.handles = 0 then none else some (.unit, m.clone)
  | .dropSender => if m.handles = 0 then none else some (.unit, m.dropSender)
  | .poll w =>
    if m.receiver then
      match m.pollChange w with
      | (r, m') => some (.poll r, m')
    else none
  | .dropReceiver => if m.receiver then some (.unit, { m with receiver := false }) else none

/-- A history of calls, with the answers. -/
def World.runs (m : World α) (es : List (Ev α)) : Option (List (Obs α) × World α) :=
  runE World.step m es

end Verif.Chan
