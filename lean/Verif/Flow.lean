import Verif.Sink
import Verif.SignalVec3
import Verif.SignalASpec
import Verif.Mutable

/-!
# Pipelines whose elements have signals of their own (C69): definitions

Expressions such as
`list.signal_vec_cloned().filter(f).map_signal(|x| x.name.signal()).sort_by_cloned(c).to_signal_cloned()`:
`map_signal` and `filter_signal_cloned` at any place in a pipeline.  As in `Verif/Pipe.lean`, what
happens at a boundary is a trace, and combinators are relations between traces.
-/

namespace Verif

/-- The polls of the signals made by the closures of `map_signal` and `filter_signal_cloned`.
`trace n k`: the `k`-th signal made from source `n` (for instance from the `Mutable` number `n`).
`held n k`: it has not been dropped before its end (`map_signal` and `filter_signal_cloned` drop the
signal of a present element only when it has ended). -/
structure Inner (ν : Type) where
  trace : Nat → Nat → SigTrace ν
  held : Nat → Nat → Prop

/-- The trace of `signal.map(h)` (`Map::poll_change`, `/repo/src/signal/signal.rs:1075-1092`, makes
one poll for each poll and applies `h` to the value, C48). -/
def SigTrace.mapped {ν γ : Type} (h : ν → γ) (t : SigTrace ν) : SigTrace γ :=
  t.map fun q => (q.1, q.2.mapItem h)

/-- The answers of `signal.map(h)`.  A signal that is never polled has no trace; then it does not
matter what it would answer. -/
def SigTrace.script {ν γ : Type} [Inhabited ν] (h : ν → γ) : SigTrace ν → List (Poll (Option γ))
  | [] => [.ready (some (h default))]
  | q :: t => (SigTrace.mapped h (q :: t)).map (·.2)

/-- A trace of labelled elements without the labels. -/
def Trace.bare {β : Type} (t : Trace (β × Nat)) : Trace β :=
  t.map fun q => (q.1, q.2.mapItem (VecDiff.map Prod.fst))

/-- A pipeline with one `SignalVec` as its input, and `map_signal` and `filter_signal_cloned` at any
place.  `name x` is the source of the signal made from the element `x`, and the closure is
`|x| sources[name(x)].signal().map(h)`. -/
inductive Flow (ν α : Type) : Type → Type 1 where
  | source : Flow ν α α
  | pipe {β γ : Type} (p : Pipe β γ) (f : Flow ν α β) : Flow ν α γ
  | mapSignal {β γ : Type} (name : β → Nat) (h : ν → γ) (f : Flow ν α β) : Flow ν α γ
  | filterSignal {β : Type} (name : β → Nat) (h : ν → Bool) (f : Flow ν α β) : Flow ν α β

namespace Flow

variable {ν α : Type}

/-- The pipeline can produce the trace at its output if the trace at its input is `src` and the
traces of the signals of its elements are `inn`.  The label of an element tells which of the signals
of its source the closure has made for it.  The combinator holds the signals of the present
elements, or they have ended. -/
def Exec [Inhabited ν] (src : Trace α) (inn : Inner ν) :
    {β : Type} → Flow ν α β → Trace β → Prop
  | _, .source, t => t = src
  | _, .pipe p f, t => ∃ u, f.Exec src inn u ∧ p.Exec (fun _ => u) t
  | _, .mapSignal name h f, t => ∃ u, f.Exec src inn (Trace.bare u) ∧
      ∃ s, run (VMapSignal.poll fun q => (inn.trace (name q.1) q.2).script h) t.wakers
          (VMapSignal.init u.answers) = some (t.answers, s) ∧
        s.signal.src.hist = u ∧
        ∀ x ∈ s.signals, x.sig.src.hist = (inn.trace (name x.tag.1) x.tag.2).mapped h ∧
          inn.held (name x.tag.1) x.tag.2
  | _, .filterSignal name h f, t => ∃ u v, f.Exec src inn (Trace.bare u) ∧ t = Trace.bare v ∧
      ∃ s, run (VFilterSignal.poll fun q => (inn.trace (name q.1) q.2).script h) v.wakers
          (VFilterSignal.init u.answers) = some (v.answers, s) ∧
        s.signal.src.hist = u ∧
        ∀ x ∈ s.signals, x.signal.src.hist = (inn.trace (name x.value.1) x.value.2).mapped h ∧
          inn.held (name x.value.1) x.value.2

/-! ## Specification -/

/-- What the output should be if the contents of the input are `c` and the present value of source
`n` is `cur n`. -/
def Spec (c : List α) (cur : Nat → ν) : {β : Type} → Flow ν α β → List β → Prop
  | _, .source, ys => ys = c
  | _, .pipe p f, ys => ∃ xs, f.Spec c cur xs ∧ p.Spec (fun _ => xs) ys
  | _, .mapSignal name h f, ys => ∃ xs, f.Spec c cur xs ∧ ys = xs.map fun x => h (cur (name x))
  | _, .filterSignal name h f, ys =>
    ∃ xs, f.Spec c cur xs ∧ ys = xs.filter fun x => h (cur (name x))

/-- The stages between are without `chain`, and their parameters are as required. -/
def Lawful : {β : Type} → Flow ν α β → Prop
  | _, .source => True
  | _, .pipe p f => p.Straight ∧ p.Lawful ∧ f.Lawful
  | _, .mapSignal _ _ f => f.Lawful
  | _, .filterSignal _ _ f => f.Lawful

/-- The pipeline contains `filter`, `filter_map` or `filter_signal_cloned`. -/
def Filters : {β : Type} → Flow ν α β → Prop
  | _, .source => False
  | _, .pipe p f => p.Filters ∨ f.Filters
  | _, .mapSignal _ _ f => f.Filters
  | _, .filterSignal _ _ _ => True

end Flow

end Verif

namespace Verif.Mut

variable {α : Type}

/-- The polls made on signal `i` during a history with the answers `os`. -/
def polled (i : Nat) : List (Ev α) → List (Obs α) → SigTrace α
  | .poll j w :: es, .poll r :: os => if j = i then (w, r) :: polled i es os else polled i es os
  | _ :: es, _ :: os => polled i es os
  | _, _ => []

/-- The signal `i` has not been dropped. -/
def Held (m : World α) (i : Nat) : Prop := i < m.cells ∧ (m.cell i).alive = true

/-- The signal `i` has not been dropped before it had reported its end. -/
def Kept (m : World α) (i : Nat) (es : List (Ev α)) (os : List (Obs α)) : Prop :=
  Held m i ∨ ∃ y, (polled i es os).getLast? = some (y, .ready none)

/-- The last poll of signal `i` was with waker `x`, and `x` has been woken since. -/
def WokenSince (a : α) (i : Nat) (es : List (Ev α)) (m : World α) (x : Waker) : Prop :=
  ∃ es₁ es₂ os₁ m₁ new, es = es₁ ++ .poll i x :: es₂ ∧ (∀ y, .poll i y ∉ es₂) ∧
    (World.new a).runs es₁ = some (os₁, m₁) ∧ m.woken = m₁.woken ++ new ∧ x ∈ new

end Verif.Mut
