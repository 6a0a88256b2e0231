import Verif.VecDiff

/-!
# Specification for C98: `switch_signal_vec`
-/

namespace Verif

variable {α τ : Type}

/-- The change a `SignalVec` gives when it is polled for the first time, if any. -/
def atOnce : List (Poll (Option (VecDiff α))) → Option (VecDiff α)
  | .ready (some d) :: _ => some d
  | _ => none

/-- What is sent when a new `SignalVec` is followed: nothing but its own change if nothing is shown, and otherwise one
`Replace` with what it holds already. -/
def switchSays : List α → Option (VecDiff α) → List (VecDiff α)
  | [], d => d.toList
  | _ :: _, none => [.replace []]
  | _ :: _, some d => [.replace ((d.apply []).getD [])]

/-- What a `SignalVec` has sent: at once, and later. -/
def given (g : τ → List (Poll (Option (VecDiff α)))) (f : τ × List (VecDiff α)) : List (VecDiff α) :=
  (atOnce (g f.1)).toList ++ f.2

/-- What is sent when one `SignalVec` after the other is followed.  Each is listed with the changes it sent later. -/
def switchSends (g : τ → List (Poll (Option (VecDiff α)))) : List α → List (τ × List (VecDiff α)) → List (VecDiff α)
  | _, [] => []
  | shown, f :: fs =>
    switchSays shown (atOnce (g f.1)) ++ f.2 ++ switchSends g ((replay (given g f) []).getD []) fs

end Verif
