import Verif.Input

/-!
# Model of `Signal::switch_signal_vec` and `Signal::to_signal_vec`
-/

namespace Verif

variable {α τ : Type}

/-- `SignalSignalVec`, `/repo/src/signal/signal.rs:1408-1411`, made by `to_signal_vec`, `492-498`. -/
structure VToVec (α : Type) where
  signal : Src (Option (List α))
deriving DecidableEq, Repr

/-- `SignalSignalVec::poll_vec_change`, `/repo/src/signal/signal.rs:1418-1420`. -/
def VToVec.poll (w : Waker) (s : VToVec α) : Option (Poll (Option (VecDiff α)) × VToVec α) :=
  match s.signal.poll w with
  | (.ready (some values), src) => some (.ready (some (.replace values)), ⟨src⟩)
  | (.ready none, src) => some (.ready none, ⟨src⟩)
  | (.pending, src) => some (.pending, ⟨src⟩)

/-- `SwitchSignalVec`, `/repo/src/signal/signal.rs:1644-1651`.  `signal_vec` is `None` initially and
after its end: `inner` with `alive = false`.  The callback is a pure function that gives the script
of a `SignalVec`.  `cur` is a ghost: the value `inner` was made from. -/
structure VSwitch (τ α : Type) where
  signal : Inp (Option τ)
  inner : Inp (Option (VecDiff α))
  len : Nat
  cur : Option τ
deriving DecidableEq, Repr

/-- `Signal::switch_signal_vec`, `/repo/src/signal/signal.rs:448-458`. -/
def VSwitch.init (script : List (Poll (Option τ))) : VSwitch τ α :=
  ⟨Inp.mk' script, ⟨Src.mk' [], false⟩, 0, none⟩

/-- The loop over the outer signal, `/repo/src/signal/signal.rs:1664-1681`: keep the last value. -/
def lastValue (_ : Option τ) (value : τ) : Ctl (Option τ) Empty := .cont (some value)

/-- `new_signal_vec`, `/repo/src/signal/signal.rs:1684-1692`: the answer and the new `len`. -/
def newSignalVec (len : Nat) : Poll (Option (VecDiff α)) × Nat :=
  if len = 0 then (.pending, len) else (.ready (some (.replace [])), 0)

/-- `calculate_len`, `/repo/src/signal/signal.rs:1694-1710`; `none` is an arithmetic overflow. -/
def calculateLen (len : Nat) : VecDiff α → Option Nat
  | .replace values => some values.length
  | .insertAt _ _ => some (len + 1)
  | .push _ => some (len + 1)
  | .removeAt _ => if len = 0 then none else some (len - 1)
  | .pop => if len = 0 then none else some (len - 1)
  | .clear => some 0
  | .updateAt _ _ => some len
  | .move _ _ => some len

/-- `SwitchSignalVec::poll_vec_change` after the first loop, `/repo/src/signal/signal.rs:1711-1787`. -/
def VSwitch.finish (g : τ → List (Poll (Option (VecDiff α)))) (w : Waker) (signalDone : Bool)
    (value : Option τ) (signal : Inp (Option τ)) (m : VSwitch τ α) :
    Option (Poll (Option (VecDiff α)) × VSwitch τ α) :=
  match value with
  | some value =>
    match (Inp.mk' (g value)).poll w with
    | (some .pending, inner) =>
      let (r, len) := newSignalVec m.len
      some (r, ⟨signal, inner, len, some value⟩)
    | (some (.ready (some d)), inner) =>
      if m.len = 0 then
        match calculateLen m.len d with
        | none => none
        | some len => some (.ready (some d), ⟨signal, inner, len, some value⟩)
      else
        match d.apply [] with
        | none => none
        | some values =>
          some (.ready (some (.replace values)), ⟨signal, inner, values.length, some value⟩)
    | (_, inner) =>
      if signalDone then some (.ready none, ⟨signal, inner, m.len, some value⟩)
      else
        let (r, len) := newSignalVec m.len
        some (r, ⟨signal, inner, len, some value⟩)
  | none =>
    match m.inner.poll w with
    | (some .pending, inner) => some (.pending, ⟨signal, inner, m.len, m.cur⟩)
    | (some (.ready (some d)), inner) =>
      match calculateLen m.len d with
      | none => none
      | some len => some (.ready (some d), ⟨signal, inner, len, m.cur⟩)
    | (_, inner) =>
      if signalDone then some (.ready none, ⟨signal, inner, m.len, m.cur⟩)
      else some (.pending, ⟨signal, inner, m.len, m.cur⟩)

/-- `SwitchSignalVec::poll_vec_change`, `/repo/src/signal/signal.rs:1659-1788`. -/
def VSwitch.poll (g : τ → List (Poll (Option (VecDiff α)))) (w : Waker) (m : VSwitch τ α) :
    Option (Poll (Option (VecDiff α)) × VSwitch τ α) :=
  match m.signal.loop w lastValue none with
  | (.ended, value, signal) => VSwitch.finish g w true value signal m
  | (.pending, value, signal) => VSwitch.finish g w false value signal m
  | _ => none

end Verif
