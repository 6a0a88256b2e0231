import Verif.Broadcaster

/-!
# `Broadcaster`: panics of user code and the poisoned lock

`/repo/src/signal/broadcaster.rs`, with the `RwLock` of the standard library: a write guard that is
dropped by a thread that started to panic while it held the guard poisons the lock; read guards do
not.  Every `inner.read().unwrap()` and `inner.write().unwrap()` of a poisoned lock panics.

User code that runs while the lock is held: the input, and the callback of `signal_ref` or the `clone`
of `signal_cloned`.  Simplifications: as in `Verif/Broadcaster.lean`; wakers, and the drop of a value
or of the input, do not panic.
-/

namespace Verif.Bc

variable {α β : Type}

/-- A `Broadcaster` whose lock can be poisoned, `/repo/src/signal/broadcaster.rs:112-115`. -/
structure PWorld (α : Type) where
  m : World α
  poisoned : Bool

/-- `Broadcaster::new`, `/repo/src/signal/broadcaster.rs:118-126`. -/
def PWorld.new (script : List (Step α)) : PWorld α := ⟨World.new script, false⟩

/-- What happens: an event whose user code does not panic, or a poll of subscriber `i` whose user code
does. -/
inductive PEv where
  | call (e : Ev)
  /-- the callback of subscriber `i` panics if it is called -/
  | callbackPanics (i : Nat) (w : Waker)
  /-- the input panics when it is polled for the `n`-th time (from 0) in this poll, if it is; `self`:
  it wakes its waker before -/
  | inputPanics (i : Nat) (w : Waker) (n : Nat) (self : Bool)
deriving DecidableEq

/-- How an event ends. -/
inductive Outcome (α β : Type) where
  | done (o : Out α β)
  | panicked

/-- The loop of `poll_signal`, `/repo/src/signal/broadcaster.rs:85-102`, with an input that panics when
it is polled for the `n`-th time (from 0); the first component says whether it did.  The arguments are
`n` and the script. -/
def World.loopPanics (m : World α) (self changed : Bool) :
    Nat → List (Step α) → Bool × Bool × World α
  | 0, _ => (true, changed, if self then m.notify else m)
  | _ + 1, [] => (false, changed, { m with todo := [], hist := m.hist ++ [(false, .pending)] })
  | n + 1, (s, r) :: rest =>
    let m1 := { m with todo := rest, hist := m.hist ++ [(s, r)] }
    let m2 := if s then m1.notify else m1
    match r with
    | .ready (some a) => World.loopPanics { m2 with value := some a } self true n rest
    | .ready none => (false, changed, { m2 with alive := false })
    | .pending => (false, changed, m2)

/-- The outcome of the closure of `poll_change`, `/repo/src/signal/broadcaster.rs:183-199`, after
`poll_signal`, with a callback that does not panic; `c` says whether the lock is held for writing. -/
def PWorld.finish (m : World α) (i : Nat) (w : Waker) (f : α → β) :
    Option (Outcome α β × PWorld α) :=
  match m.decide i w f with
  | none => none
  | some (r, m') => some (.done ⟨some r, m'.hist, m'.woken⟩, ⟨m', false⟩)

/-- The same with a callback that panics: `*epoch` is set before it is called (`196-197`); `c` says
whether the lock is held for writing, which poisons it. -/
def PWorld.finishPanics (m : World α) (c : Bool) (i : Nat) (w : Waker) (f : α → β) :
    Option (Outcome α β × PWorld α) :=
  match m.decide i w f with
  | none => none
  | some (.ready (some _), m') => some (.panicked, ⟨m', c⟩)
  | some (r, m') => some (.done ⟨some r, m'.hist, m'.woken⟩, ⟨m', false⟩)

/-- A poll with an input that panics: `BroadcasterSharedState::poll`,
`/repo/src/signal/broadcaster.rs:128-141`, and `poll_signal`, `79-107`.  A panic leaves the loop:
`epoch` is not counted up, `value` was set by the turns before. -/
def PWorld.pollInputPanics (m : World α) (i : Nat) (w : Waker) (n : Nat) (self : Bool) (f : α → β) :
    Option (Outcome α β × PWorld α) :=
  if m.isChanged then
    let m0 : World α := { m with isChanged := false }
    if m0.alive then
      match m0.loopPanics self false n m0.todo with
      | (true, _, m') => some (.panicked, ⟨m', true⟩)
      | (false, true, m') => PWorld.finish { m' with epoch := m'.epoch + 1 } i w f
      | (false, false, m') => PWorld.finish m' i w f
    else PWorld.finish m0 i w f
  else PWorld.finish m i w f

/-- A poll of a subscriber whose lock is poisoned, `/repo/src/signal/broadcaster.rs:128-141`:
`is_changed` is reset, then `unwrap` panics. -/
def PWorld.pollPoisoned (p : PWorld α) (i : Nat) : Option (Outcome α β × PWorld α) :=
  if i < p.m.made ∧ (p.m.cell i).alive = true then
    some (.panicked, { p with m := { p.m with isChanged := false, woken := [] } })
  else none

/-- One event; `none` if it cannot happen.  The wake-up of the input (`28-43`), `BroadcasterState::new`
(`165-178`) and the drop of a subscriber do not lock `inner`. -/
def PWorld.step (f : Nat → α → β) (p : PWorld α) : PEv → Option (Outcome α β × PWorld α)
  | .call (.poll i w) =>
    if p.poisoned then p.pollPoisoned i
    else
      match p.m.step f (.poll i w) with
      | none => none
      | some (o, m) => some (.done o, ⟨m, false⟩)
  | .call e =>
    match p.m.step f e with
    | none => none
    | some (o, m) => some (.done o, { p with m := m })
  | .callbackPanics i w =>
    if p.poisoned then p.pollPoisoned i
    else if i < p.m.made ∧ (p.m.cell i).alive = true then
      let m := { p.m with woken := [] }
      if m.isChanged then
        PWorld.finishPanics { m with isChanged := false }.pollSignal true i w (f i)
      else PWorld.finishPanics m false i w (f i)
    else none
  | .inputPanics i w n self =>
    if p.poisoned then p.pollPoisoned i
    else if i < p.m.made ∧ (p.m.cell i).alive = true then
      PWorld.pollInputPanics { p.m with woken := [] } i w n self (f i)
    else none

end Verif.Bc
