import Verif.Pipe

/-!
# Signals at the end of a pipeline of `SignalVec` combinators (C67): definitions
-/

namespace Verif

/-- The polls of a signal, with their wakers and answers. -/
abbrev SigTrace (γ : Type) := List (Waker × Poll (Option γ))

/-- A combinator that turns a `SignalVec` into a `Signal`, as a relation between the traces at its
input and output (compare `StageRel`). -/
def SinkRel {β γ σ : Type} (poll : Waker → σ → Option (Poll (Option γ) × σ))
    (init : List (Poll (Option (VecDiff β))) → σ) (input : σ → Src (Option (VecDiff β)))
    (tin : Trace β) (tout : SigTrace γ) : Prop :=
  ∃ s, run poll (tout.map (·.1)) (init tin.answers) = some (tout.map (·.2), s) ∧
    (input s).hist = tin

/-- The methods that turn a `SignalVec` into a `Signal` of some function of its contents:
`to_signal_map` (`/repo/src/signal_vec.rs:266-275`), `to_signal_cloned` (`278-284`), `sum`
(`358-366`), `len` (`518-526`), `is_empty` (`529-534`). -/
inductive Sink (β : Type) : Type → Type 1 where
  | toSignalMap {γ : Type} (f : List β → γ) : Sink β γ
  | toSignalCloned : Sink β (List β)
  | sum (add : β → β → β) (zero : β) : Sink β β
  | len : Sink β Nat
  | isEmpty : Sink β Bool

namespace Sink

variable {β : Type}

/-- The signal can produce the trace at its output if the trace at its input is `u`. -/
def Exec : {γ : Type} → Sink β γ → Trace β → SigTrace γ → Prop
  | _, .toSignalMap f => SinkRel (VToSignal.poll f) VToSignal.init (·.signal.src)
  | _, .toSignalCloned => SinkRel (VToSignal.poll id) VToSignal.init (·.signal.src)
  | _, .sum add zero => SinkRel (VSum.poll add zero) VToSignal.init (·.signal.src)
  | _, .len => SinkRel VLen.poll VLen.init (·.signal.src)
  | _, .isEmpty => SinkRel VIsEmpty.poll VIsEmpty.init (·.len.signal.src)

/-! ## Specification -/

/-- What the value of the signal should be if the contents of the `SignalVec` are `xs`. -/
def value : {γ : Type} → Sink β γ → List β → γ
  | _, .toSignalMap f, xs => f xs
  | _, .toSignalCloned, xs => xs
  | _, .sum add zero, xs => xs.foldr add zero
  | _, .len, xs => xs.length
  | _, .isEmpty, xs => xs.isEmpty

/-- The addition of `sum` is associative and commutative. -/
def Lawful : {γ : Type} → Sink β γ → Prop
  | _, .sum add _ => (∀ a b, add a b = add b a) ∧ ∀ a b c, add (add a b) c = add a (add b c)
  | _, _ => True

end Sink

/-- The value last produced by a signal. -/
def SigTrace.last {γ : Type} (t : SigTrace γ) : Option γ := (items (t.map (·.2))).getLast?

end Verif
