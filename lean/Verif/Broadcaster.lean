import Verif.Mutable
import Verif.Hist

/-!
# `Broadcaster`: sequential model

`/repo/src/signal/broadcaster.rs`.  Every poll, wake-up and drop runs to its end before the next one
starts; but the input may wake its waker while it is polled.  The interleaving model is in
`Verif/BroadcasterConc.lean`.

Simplifications: `epoch` does not wrap; the callback of `signal_ref` is pure.
-/

namespace Verif.Bc

open Verif.Mut (ChangedWaker)

variable {α β : Type}

/-- One answer of the input; the flag says whether it wakes its waker while it is polled. -/
abbrev Step (α : Type) := Bool × Poll (Option α)

/-- `BroadcasterSharedState` with its `BroadcasterInnerState` and `BroadcasterNotifier`,
`/repo/src/signal/broadcaster.rs:15-18`, `60-67`, `112-115`, and the subscribers,
`BroadcasterState`, `158-162`.

`todo` is the script of the input; exhausted, it answers `Pending`.  `alive`: `signal` is `Some`.
Subscriber number `i` has the `ChangedWaker` `cell i` and the epoch `sub i`.  Ghosts: `hist`, the
answers the input has given; `woken`, the wakers woken by the current step. -/
structure World (α : Type) where
  todo : List (Step α)
  alive : Bool
  value : Option α
  epoch : Nat
  isChanged : Bool
  wakers : List Nat
  cell : Nat → ChangedWaker
  sub : Nat → Nat
  made : Nat
  hist : List (Step α)
  woken : List Waker

/-- `Broadcaster::new`, `/repo/src/signal/broadcaster.rs:21-26`, `70-77`, `118-126`, `235-239`;
`SignalExt::broadcast`, `/repo/src/signal/signal.rs:567-569`. -/
def World.new (script : List (Step α)) : World α :=
  ⟨script, true, none, 0, true, [], fun _ => ChangedWaker.new, fun _ => 0, 0, [], []⟩

/-- A new content of one `ChangedWaker`. -/
def World.setCell (m : World α) (i : Nat) (c : ChangedWaker) : World α :=
  { m with cell := fun j => if j = i then c else m.cell j }

/-- The loop of `retain` in `BroadcasterNotifier::notify`, `/repo/src/signal/broadcaster.rs:33-42`;
gives the wakers kept. -/
def World.retain : List Nat → World α → List Nat × World α
  | [], m => ([], m)
  | i :: rest, m =>
    if (m.cell i).alive then
      match (m.cell i).wake false with
      | (c, wakers) =>
        match World.retain rest { m.setCell i c with woken := m.woken ++ wakers } with
        | (kept, m') => (i :: kept, m')
    else World.retain rest m

/-- `BroadcasterNotifier::notify`, `/repo/src/signal/broadcaster.rs:28-43`: the input wakes its
waker, which is the notifier (`wake_by_ref`, `50-55`). -/
def World.notify (m : World α) : World α :=
  match World.retain m.wakers { m with isChanged := true } with
  | (kept, m') => { m' with wakers := kept }

/-- The loop of `poll_signal`, `/repo/src/signal/broadcaster.rs:85-102`; gives `changed`.  The argument
is the script. -/
def World.loop (m : World α) (changed : Bool) : List (Step α) → Bool × World α
  | [] => (changed, { m with todo := [], hist := m.hist ++ [(false, .pending)] })
  | (self, r) :: rest =>
    let m1 := { m with todo := rest, hist := m.hist ++ [(self, r)] }
    let m2 := if self then m1.notify else m1
    match r with
    | .ready (some a) => World.loop { m2 with value := some a } true rest
    | .ready none => (changed, { m2 with alive := false })
    | .pending => (changed, m2)

/-- `BroadcasterInnerState::poll_signal`, `/repo/src/signal/broadcaster.rs:79-107`. -/
def World.pollSignal (m : World α) : World α :=
  if m.alive then
    match m.loop false m.todo with
    | (true, m') => { m' with epoch := m'.epoch + 1 }
    | (false, m') => m'
  else m

/-- The closure in `BroadcasterState::poll_change`, `/repo/src/signal/broadcaster.rs:183-199`, for
subscriber `i` with callback `f`; `none` is a panic. -/
def World.decide (m : World α) (i : Nat) (w : Waker) (f : α → β) :
    Option (Poll (Option β) × World α) :=
  if m.epoch = m.sub i then
    if m.alive = false then some (.ready none, m)
    else some (.pending, m.setCell i ((m.cell i).setWaker w))
  else
    match m.value with
    | none => none
    | some a => some (.ready (some (f a)), { m with sub := fun j => if j = i then m.epoch else m.sub j })

/-- `BroadcasterState::poll_change`, `/repo/src/signal/broadcaster.rs:180-200`, and
`BroadcasterSharedState::poll`, `128-141`, with `is_changed`, `45-47`.  Called by
`BroadcasterSignalRef` (`371-374`), `BroadcasterSignal` (`306-308`) and `BroadcasterSignalCloned`
(`337-339`) with the callback, a copy and a clone. -/
def World.pollChange (m : World α) (i : Nat) (w : Waker) (f : α → β) :
    Option (Poll (Option β) × World α) :=
  if m.isChanged then { m with isChanged := false }.pollSignal.decide i w f else m.decide i w f

/-- `BroadcasterState::new`, `/repo/src/signal/broadcaster.rs:165-178`, called by `signal_ref`,
`signal` and `signal_cloned`, `241-268`.  A clone of the `Broadcaster` (`283-289`) shares all of its
state. -/
def World.subscribe (m : World α) : World α :=
  { m.setCell m.made ChangedWaker.new with
    sub := fun j => if j = m.made then 0 else m.sub j
    made := m.made + 1
    wakers := m.wakers ++ [m.made] }

/-- What happens to a broadcaster. -/
inductive Ev where
  /-- subscriber `i` is polled -/
  | poll (i : Nat) (w : Waker)
  /-- the input wakes its waker -/
  | wake
  /-- `signal`, `signal_ref` or `signal_cloned` -/
  | subscribe
  /-- subscriber `i` is dropped -/
  | dropSub (i : Nat)
deriving DecidableEq

/-- What can be seen of it: the answer of a poll, the answers the input has given so far, and the
wakers woken by this step. -/
structure Out (α β : Type) where
  answer : Option (Poll (Option β))
  hist : List (Step α)
  woken : List Waker

/-- One step; `none` if it panics or cannot happen.  `f i` is the callback of subscriber `i`. -/
def World.step (f : Nat → α → β) (m : World α) : Ev → Option (Out α β × World α)
  | .poll i w =>
    if i < m.made ∧ (m.cell i).alive = true then
      match { m with woken := [] }.pollChange i w (f i) with
      | none => none
      | some (r, m') => some (⟨some r, m'.hist, m'.woken⟩, m')
    else none
  | .wake =>
    let m' := { m with woken := [] }.notify
    some (⟨none, m'.hist, m'.woken⟩, m')
  | .subscribe =>
    let m' := { m with woken := [] }.subscribe
    some (⟨none, m'.hist, m'.woken⟩, m')
  | .dropSub i =>
    if i < m.made ∧ (m.cell i).alive = true then
      let m' := { m with woken := [] }.setCell i { m.cell i with alive := false }
      some (⟨none, m'.hist, m'.woken⟩, m')
    else none

end Verif.Bc
