import Verif.SignalVec1Spec
import Verif.SignalVec2
import Verif.SortSpec
import Verif.MutableVecSpec

/-!
# Pipelines of `SignalVec` combinators (C60): definitions

What happens at the boundary between a producer and its consumer is recorded as a `Trace`: the
polls, in order, each with the waker it was made with and the answer it got.  A combinator relates
the trace at its input to the trace at its output: fed with the answers in the input trace it
makes exactly the polls in the input trace, and gives the answers in the output trace to the polls
in the output trace.  Composition of combinators is composition of these relations.  This describes
nested calls faithfully because a combinator sees nothing of its input but the answers.
-/

namespace Verif

/-- The polls made at one boundary, with their wakers and answers. -/
abbrev Trace (α : Type) := List (Waker × Poll (Option (VecDiff α)))

/-- The answers of a trace. -/
def Trace.answers {α : Type} (t : Trace α) : List (Poll (Option (VecDiff α))) := t.map (·.2)

/-- The wakers of a trace. -/
def Trace.wakers {α : Type} (t : Trace α) : List Waker := t.map (·.1)

/-- The diffs delivered in a trace. -/
def Trace.diffs {α : Type} (t : Trace α) : List (VecDiff α) := items t.answers

/-- A combinator with one input, as a relation between the traces at its input and output. -/
def StageRel {α β σ : Type} (poll : Waker → σ → Option (Poll (Option (VecDiff β)) × σ))
    (init : List (Poll (Option (VecDiff α))) → σ) (input : σ → Src (Option (VecDiff α)))
    (tin : Trace α) (tout : Trace β) : Prop :=
  ∃ s, run poll tout.wakers (init tin.answers) = some (tout.answers, s) ∧ (input s).hist = tin

/-- A pipeline: an expression such as
`a.signal_vec().map(f).filter(g).chain(b.signal_vec().sort_by_cloned(c))`.  `source i` is the
`i`-th input of the whole pipeline. -/
inductive Pipe (α : Type) : Type → Type 1 where
  | source (i : Nat) : Pipe α α
  | map {β γ : Type} (f : β → γ) (p : Pipe α β) : Pipe α γ
  | filterMap {β γ : Type} (f : β → Option γ) (p : Pipe α β) : Pipe α γ
  | filter {β : Type} (f : β → Bool) (p : Pipe α β) : Pipe α β
  | sort {β : Type} (S : SliceFns) (cmp : β → β → Ordering) (p : Pipe α β) : Pipe α β
  | enumerate {β : Type} (p : Pipe α β) : Pipe α (Nat × β)
  | chain {β : Type} (p q : Pipe α β) : Pipe α β

namespace Pipe

variable {α : Type}

/-- The pipeline can produce the trace at its output if the traces at its inputs are `src`. -/
def Exec : {β : Type} → Pipe α β → (Nat → Trace α) → Trace β → Prop
  | _, .source i, src, t => t = src i
  | _, .map f p, src, t =>
    ∃ u, p.Exec src u ∧ StageRel (VMap.poll (logging f)) (VMap.init []) (·.signal) u t
  | _, .filterMap f p, src, t =>
    ∃ u, p.Exec src u ∧ StageRel (VFilterMap.poll (logging f)) (VFilterMap.init []) (·.signal) u t
  | _, .filter f p, src, t =>
    ∃ u, p.Exec src u ∧ StageRel (VFilter.poll (logging f)) (VFilterMap.init []) (·.signal) u t
  | _, .sort S cmp p, src, t =>
    ∃ u, p.Exec src u ∧ StageRel (VSort.poll S cmp) VSort.init (·.signal) u t
  | _, .enumerate p, src, t =>
    ∃ u, p.Exec src u ∧ StageRel VEnumerate.poll VEnumerate.init (·.signal) u t
  | _, .chain p q, src, t =>
    ∃ u v, p.Exec src u ∧ q.Exec src v ∧
      ∃ s, run VChain.poll t.wakers (VChain.init u.answers v.answers) = some (t.answers, s) ∧
        s.left.src.hist = u ∧ s.right.src.hist = v

/-! ## Specification -/

/-- What the output of a pipeline should be if the contents of its inputs are `c`: the composition
of the list functions.  `enumerate` pairs each element with a cell of its own; which one is left
open (its value is the subject of C16). -/
def Spec : {β : Type} → Pipe α β → (Nat → List α) → List β → Prop
  | _, .source i, c, ys => ys = c i
  | _, .map f p, c, ys => ∃ xs, p.Spec c xs ∧ ys = xs.map f
  | _, .filterMap f p, c, ys => ∃ xs, p.Spec c xs ∧ ys = xs.filterMap f
  | _, .filter f p, c, ys => ∃ xs, p.Spec c xs ∧ ys = xs.filter f
  | _, .sort _ cmp p, c, ys => ∃ xs, p.Spec c xs ∧ ys = sortedBy cmp xs
  | _, .enumerate p, c, ys => ∃ xs, p.Spec c xs ∧ ys.map (·.2) = xs ∧ (ys.map (·.1)).Nodup
  | _, .chain p q, c, ys => ∃ xs xs', p.Spec c xs ∧ q.Spec c xs' ∧ ys = xs ++ xs'

/-- The parameters of the sorting stages are as required: total preorders, and library functions
that do what is documented. -/
def Lawful : {β : Type} → Pipe α β → Prop
  | _, .source _ => True
  | _, .map _ p => p.Lawful
  | _, .filterMap _ p => p.Lawful
  | _, .filter _ p => p.Lawful
  | _, .sort S cmp p => S.Lawful ∧ TotalPreorder cmp ∧ p.Lawful
  | _, .enumerate p => p.Lawful
  | _, .chain p q => p.Lawful ∧ q.Lawful

/-- The pipeline contains no `chain`. -/
def Straight : {β : Type} → Pipe α β → Prop
  | _, .source _ => True
  | _, .map _ p => p.Straight
  | _, .filterMap _ p => p.Straight
  | _, .filter _ p => p.Straight
  | _, .sort _ _ p => p.Straight
  | _, .enumerate p => p.Straight
  | _, .chain _ _ => False

/-- No `chain` is an input of another `chain`, directly or through other combinators. -/
def Shallow : {β : Type} → Pipe α β → Prop
  | _, .source _ => True
  | _, .map _ p => p.Shallow
  | _, .filterMap _ p => p.Shallow
  | _, .filter _ p => p.Shallow
  | _, .sort _ _ p => p.Shallow
  | _, .enumerate p => p.Shallow
  | _, .chain p q => p.Straight ∧ q.Straight

/-- The pipeline contains a `filter` or `filter_map`. -/
def Filters : {β : Type} → Pipe α β → Prop
  | _, .source _ => False
  | _, .map _ p => p.Filters
  | _, .filterMap _ _ => True
  | _, .filter _ _ => True
  | _, .sort _ _ p => p.Filters
  | _, .enumerate p => p.Filters
  | _, .chain p q => p.Filters ∨ q.Filters

/-- The input at the start of a pipeline without `chain`. -/
def head : {β : Type} → Pipe α β → Nat
  | _, .source i => i
  | _, .map _ p => p.head
  | _, .filterMap _ p => p.head
  | _, .filter _ p => p.head
  | _, .sort _ _ p => p.head
  | _, .enumerate p => p.head
  | _, .chain p _ => p.head

/-- The pipeline reads its input number `i`. -/
def Uses : {β : Type} → Pipe α β → Nat → Prop
  | _, .source j, i => j = i
  | _, .map _ p, i => p.Uses i
  | _, .filterMap _ p, i => p.Uses i
  | _, .filter _ p, i => p.Uses i
  | _, .sort _ _ p, i => p.Uses i
  | _, .enumerate p, i => p.Uses i
  | _, .chain p q, i => p.Uses i ∨ q.Uses i

end Pipe

/-- Not a `Move` towards the front. -/
def Fwd {α : Type} (d : VecDiff α) : Prop := ∀ i j, d = .move i j → i ≤ j

/-- The last answer of the trace was the end, or `Pending`, to a poll with waker `x` if `o = some x`;
`o = none` excludes the latter. -/
def Rest {γ : Type} (o : Option Waker) (t : List (Waker × Poll (Option γ))) : Prop :=
  (∃ x, o = some x ∧ t.getLast? = some (x, .pending)) ∨ ∃ y, t.getLast? = some (y, .ready none)

/-- The last answer in the trace is `Pending` or the end. -/
def AtRest {α : Type} (t : Trace α) : Prop :=
  ∃ w r, t.getLast? = some (w, r) ∧ (r = .pending ∨ r = .ready none)

end Verif

namespace Verif.MutVec

variable {α : Type}

/-- The polls made on subscriber `id` during a history, with their wakers and answers. -/
def polled (id : Nat) : World α → List (Ev α) → Trace α
  | _, [] => []
  | w, e :: es =>
    let now := match e with
      | .poll i cx => if i = id ∧ w.rxLive id = true then [(cx, (w.pollRx id cx).1)] else []
      | _ => []
    match w.step e with
    | none => now
    | some w' => now ++ polled id w' es

/-- The last poll of subscriber `j` was with waker `x`, and `x` has been woken since. -/
def WokenSince (vs : List α) (j : Nat) (h : List (Ev α)) (w : World α) (x : Waker) : Prop :=
  ∃ h₁ h₂ w₁ new, h = h₁ ++ .poll j x :: h₂ ∧ (∀ y, .poll j y ∉ h₂) ∧
    (World.init vs).runs h₁ = some w₁ ∧ w.woken = w₁.woken ++ new ∧ x ∈ new

/-- The subscriber has not been dropped before it had reported its end. -/
def Kept (vs : List α) (j : Nat) (h : List (Ev α)) (w : World α) : Prop :=
  w.rxLive j = true ∨ ∃ y, (polled j (World.init vs) h).getLast? = some (y, .ready none)

end Verif.MutVec
