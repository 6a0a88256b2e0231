import Verif.Flow
import Verif.SignalA
import Verif.SignalB
import Verif.SignalMap
import Verif.Fut
import Verif.SignalVec5
import Verif.SignalVec6
import Verif.SignalVec2
import Verif.BroadcasterSpec
import Verif.SourceMap
import Verif.EnumSigSpec
import Verif.MapProofs
import Mathlib.Data.List.Forall2

/-!
# Expressions made of combinators of all three kinds (C71): definitions

An application combines `Mutable`s, `MutableVec`s and `MutableBTreeMap`s with combinators of `Signal`,
`SignalVec` and `SignalMap`: signals of lists, lists of signals, maps of signals, signals switching
between lists, and so on, to any depth.  `Expr` is the language of such expressions.  As in
`Verif/Pipe.lean` and `Verif/Flow.lean`, what happens at a boundary is a trace, and combinators are
relations between traces; the signals made by the closure of a combinator are again expressions.
-/

namespace Verif

/-- `Signal<Item = α>`, `SignalVec<Item = α>`, `SignalMap<Key = K, Value = V>`. -/
inductive Ty : Type 1 where
  | sig (α : Type)
  | vec (α : Type)
  | map (K V : Type) [LinearOrder K]

/-- What a poll delivers. -/
abbrev Ty.Item : Ty → Type
  | .sig α => α
  | .vec α => VecDiff α
  | @Ty.map K V _ => MapDiff K V

/-- What a value of this type shows at any time: a value, a list, a map. -/
abbrev Ty.Den : Ty → Type
  | .sig α => α
  | .vec α => List α
  | @Ty.map K V _ => K → Option V

/-- The polls at a boundary. -/
abbrev Tr (τ : Ty) := List (Waker × Poll (Option τ.Item))

/-- The polls at a boundary show `v`: it is the last value of a signal, or the result of applying
the diffs to the empty list or map. -/
def Ty.Shows : (τ : Ty) → Tr τ → τ.Den → Prop
  | .sig _, t, v => SigTrace.last t = some v
  | .vec _, t, v => replay (Trace.diffs t) [] = some v
  | @Ty.map _ _ _, t, v => mreplay (items (t.map (·.2))) noKeys = some v

/-- A signal gives a value at its first poll; diffs can be applied. -/
def Ty.Good : (τ : Ty) → Tr τ → Prop
  | .sig _, t => t = [] ∨ ∃ b, t.head?.map (·.2) = some (.ready (some b))
  | .vec _, t => ∃ v, replay (Trace.diffs t) [] = some v
  | @Ty.map _ _ _, t => ∃ v, mreplay (items (t.map (·.2))) noKeys = some v

/-- No `Move` towards the front. -/
def Ty.Fwds : (τ : Ty) → Tr τ → Prop
  | .vec _, t => ∀ d ∈ Trace.diffs t, Fwd d
  | _, _ => True

/-- A diff of the outer vector that `flatten` handles correctly (C14). -/
def AddsOnly {α : Type} : VecDiff α → Prop
  | .replace _ => True
  | .insertAt _ _ => True
  | .push _ => True
  | .clear => True
  | _ => False

/-- No diff is a `Replace` by nothing or a `Clear` of something that is empty. -/
def Trace.Brisk {α : Type} (t : Trace α) : Prop :=
  ∀ (a : List (VecDiff α)) (d : VecDiff α) (b : List (VecDiff α)), t.diffs = a ++ d :: b →
    replay a [] = some [] → d ≠ .replace [] ∧ d ≠ .clear

/-- The same for polls at any boundary. -/
def Ty.Brisk : (τ : Ty) → Tr τ → Prop
  | .vec _, t => Trace.Brisk t
  | _, _ => True

/-- Something that is polled directly: the subscribers of a `Mutable`, `MutableVec` or
`MutableBTreeMap`. -/
structure Source (τ : Ty) where
  /-- The polls of subscriber `k`. -/
  trace : Nat → Tr τ
  /-- The subscribers made by the expression. -/
  mine : Nat → Prop
  /-- It has not been dropped before its end. -/
  held : Nat → Prop
  /-- The present value. -/
  cur : τ.Den
  /-- The last poll of the subscriber was with this waker, which has been woken since. -/
  woken : Nat → Waker → Prop

/-- What is known about a source: its subscribers behave well, and one that is at rest shows the
present value, unless its waker has been woken. -/
structure Source.Ok {τ : Ty} (s : Source τ) : Prop where
  good : ∀ k, s.mine k → τ.Good (s.trace k)
  fresh : ∀ k, s.mine k → s.held k → ∀ o, Rest o (s.trace k) →
    τ.Shows (s.trace k) s.cur ∨ ∃ x, o = some x ∧ s.woken k x

/-- The polls of an `Enumerate`; it polls its input once for each of them, with the same waker. -/
def EnumSig.World.trace {β : Type} (E : EnumSig.World β) : Trace (Nat × β) :=
  (E.signal.hist.map (·.1)).zip E.outs

/-- The index of the element with the cell `id`, as something that is polled: the signals that were made
from this `ReadOnlyMutable`. -/
def Source.index {β : Type} (E : EnumSig.World β) (id : Nat) (mine : Nat → Prop) :
    Source (.sig (Option Nat)) where
  trace i := match E.store[id]? with
    | some c => Mut.polled i c.es c.os
    | none => []
  mine := mine
  held i := ∃ c, E.store[id]? = some c ∧ Mut.Kept c.m i c.es c.os
  cur := EnumSig.place E.outs id
  woken i x := ∃ c, E.store[id]? = some c ∧ Mut.WokenSince (some c.start) i c.es c.m x

/-- Expressions.  The closures of `switch`, `mapSignal`, `mapIndexed`, `filterSignal`, `flatten`, `switchVec`
and `mapValueSignal` make expressions.

* `sMap`, `inspect`, `not`, `eq`, `neq`, `dedupe`, `dedupeMap`: the methods of `SignalExt`; the closure
  of `dedupe_map` does not change the value it gets.
* `mapRef`: `map_ref!` with `n` inputs.
* `and`, `or`: the functions of the same name; `option`, `result`: those functions, applied to `Some` or
  `Ok` of a signal (for `None` and `Err` see `Source.optionNone`, `Source.resultErr`).
* `stopIf`, `filterMapS`: `SignalExt::stop_if`, `filter_map`.
* `throttle`: `SignalExt::throttle`; `futs i n` is the future made by the `n`-th call of the closure, in the
  copy `i` of the expression (a closure may make the same expression more than once).
* `mapFuture`: `SignalExt::map_future`; `futs a n` is the future made from the value `a` with label `n`;
  `held` tells the labels of the futures made last, by those copies of the expression that have not been
  dropped (the futures made before were dropped, maybe before their output was there).
* `delayRemove`: `SignalVecExt::delay_remove`; `futs a n` is the future of the element `a` with label `n`.
* `broadcast`: `signal_ref(f)` of a `Broadcaster` of the signal; `signal` and `signal_cloned` are the case
  where `f` is the identity.
* `switch`: `SignalExt::switch`; `switchVec`: `SignalExt::switch_signal_vec`; `toVec`:
  `SignalExt::to_signal_vec`.
* `sink`: `to_signal_map`, `to_signal_cloned`, `sum`, `len`, `is_empty`.
* `pipe`: `map`, `filter`, `filter_map`, `sort_by_cloned`, `enumerate` of `SignalVecExt`.
* `chain`: `SignalVecExt::chain`.
* `mapSignal`, `filterSignal`: `SignalVecExt::map_signal`, `filter_signal_cloned`; `flatten`:
  `SignalVecExt::map` with a closure that makes a `SignalVec`, then `flatten`.
* `mapIndexed`: `SignalVecExt::enumerate`, then `map_signal` with a closure that uses the index of its
  element by making signals of it.
* `keys`, `entries`: `signal_vec_keys`, `entries_cloned` of a `MutableBTreeMap`; `bs` is
  `slice::binary_search`.
* `keyCloned`, `mapValue`, `mapValueSignal`: the methods of `SignalMapExt`. -/
inductive Expr : Ty → Type 1 where
  | source {τ : Ty} (s : Source τ) : Expr τ
  | sMap {α β : Type} (f : α → β) (e : Expr (.sig α)) : Expr (.sig β)
  | inspect {α : Type} (e : Expr (.sig α)) : Expr (.sig α)
  | not (e : Expr (.sig Bool)) : Expr (.sig Bool)
  | eq {α : Type} [BEq α] (value : α) (e : Expr (.sig α)) : Expr (.sig Bool)
  | neq {α : Type} [BEq α] (value : α) (e : Expr (.sig α)) : Expr (.sig Bool)
  | dedupe {α : Type} [BEq α] [LawfulBEq α] (e : Expr (.sig α)) : Expr (.sig α)
  | dedupeMap {α β : Type} [BEq α] [LawfulBEq α] (f : α → β) (e : Expr (.sig α)) : Expr (.sig β)
  | mapRef {α β : Type} [Inhabited α] {n : Nat} (f : List α → β) (es : Fin n → Expr (.sig α)) :
      Expr (.sig β)
  | and (e e' : Expr (.sig Bool)) : Expr (.sig Bool)
  | or (e e' : Expr (.sig Bool)) : Expr (.sig Bool)
  | option {α : Type} (e : Expr (.sig α)) : Expr (.sig (Option α))
  | result {α ε : Type} (e : Expr (.sig α)) : Expr (.sig (Except ε α))
  | stopIf {α : Type} (p : α → Bool) (e : Expr (.sig α)) : Expr (.sig α)
  | filterMapS {α β : Type} (f : α → Option β) (e : Expr (.sig α)) : Expr (.sig (Option β))
  | throttle {α : Type} (futs : Nat → Nat → Fut Unit) (e : Expr (.sig α)) : Expr (.sig α)
  | mapFuture {α β : Type} (futs : α → Nat → Fut β) (held : Nat → Prop) (e : Expr (.sig α)) :
      Expr (.sig (Option β))
  | delayRemove {β : Type} (futs : β → Nat → Fut Unit) (e : Expr (.vec β)) : Expr (.vec β)
  | broadcast {α β : Type} (f : α → β) (e : Expr (.sig α)) : Expr (.sig β)
  | switch {ι β : Type} [Inhabited β] (g : ι → Expr (.sig β)) (e : Expr (.sig ι)) : Expr (.sig β)
  | sink {β γ : Type} (k : Sink β γ) (e : Expr (.vec β)) : Expr (.sig γ)
  | keyCloned {K V : Type} [LinearOrder K] (key : K) (e : Expr (.map K V)) : Expr (.sig (Option V))
  | pipe {β γ : Type} (p : Pipe β γ) (e : Expr (.vec β)) : Expr (.vec γ)
  | chain {β : Type} (e e' : Expr (.vec β)) : Expr (.vec β)
  | mapSignal {β γ : Type} [Inhabited γ] (g : β → Expr (.sig γ)) (e : Expr (.vec β)) : Expr (.vec γ)
  | mapIndexed {β γ : Type} [Inhabited γ] (g : Source (.sig (Option Nat)) → β → Expr (.sig γ))
      (e : Expr (.vec β)) : Expr (.vec γ)
  | filterSignal {β : Type} (g : β → Expr (.sig Bool)) (e : Expr (.vec β)) : Expr (.vec β)
  | flatten {ι β : Type} (g : ι → Expr (.vec β)) (e : Expr (.vec ι)) : Expr (.vec β)
  | toVec {α : Type} (e : Expr (.sig (List α))) : Expr (.vec α)
  | switchVec {ι α : Type} (g : ι → Expr (.vec α)) (e : Expr (.sig ι)) : Expr (.vec α)
  | keys {K V : Type} [LinearOrder K] (bs : List K → K → Except Nat Nat) (s : Source (.map K V)) :
      Expr (.vec K)
  | entries {K V : Type} [LinearOrder K] (bs : List K → K → Except Nat Nat) (s : Source (.map K V)) :
      Expr (.vec (K × V))
  | mapValue {K V W : Type} [LinearOrder K] (f : V → W) (e : Expr (.map K V)) : Expr (.map K W)
  | mapValueSignal {K V γ : Type} [LinearOrder K] [Inhabited γ] (g : V → Expr (.sig γ))
      (e : Expr (.map K V)) : Expr (.map K γ)

/-- A combinator with one input, as a relation between the traces at its input and output (compare
`StageRel`, `SinkRel`). -/
def Rel {A B σ : Type} (poll : Waker → σ → Option (Poll (Option B) × σ))
    (init : List (Poll (Option A)) → σ) (input : σ → Src (Option A))
    (u : List (Waker × Poll (Option A))) (t : List (Waker × Poll (Option B))) : Prop :=
  ∃ s, run poll (t.map (·.1)) (init (u.map (·.2))) = some (t.map (·.2), s) ∧ (input s).hist = u

/-- The answers of a signal.  A signal that is never polled has no trace; then it does not matter
what it would answer. -/
def SigTrace.say {γ : Type} [Inhabited γ] : SigTrace γ → List (Poll (Option γ))
  | [] => [.ready (some default)]
  | q :: t => (q :: t).map (·.2)

/-- The trace of the input of `option(Some(signal))` or `result(Ok(signal))`. -/
def SMaybe.hist {α ε : Type} : SMaybe α ε → SigTrace α
  | .signal s => s.hist
  | .value _ => []

/-- A trace of labelled values without the labels. -/
def SigTrace.bare {β : Type} (t : SigTrace (β × Nat)) : SigTrace β := t.mapped Prod.fst

/-- The same for the values of a `SignalMap`. -/
def bareMap {K V : Type} (t : List (Waker × Poll (Option (MapDiff K (V × Nat))))) :
    List (Waker × Poll (Option (MapDiff K V))) :=
  t.map fun q => (q.1, q.2.mapItem (MapDiff.map Prod.fst))

namespace Expr

/-- `e.Exec live t W`: the expression can produce the trace `t`.  If `live`, the subscribers of the
sources which it uses have not been dropped before their end; `W` are the wakers that have been woken
by those subscribers since their last poll.

A combinator with a closure: `u` is the trace at its input, with labels, and `inst b n` the trace of the
expression made by the closure for the value `b` with label `n`.  An expression that has been dropped
again only needs to be executed with `live = false`.

A `Broadcaster` polls its input with a waker of its own.  If this waker has been woken since the last poll
of the input, then the `Broadcaster` has been told (`Bc.Ev.wake`).  The input does not wake its waker while
it is polled (C63).  `k` is the number of the subscriber.

Not covered: a poll of a combinator after its end (only `key_cloned` makes one, C30). -/
def Exec : {τ : Ty} → Expr τ → Bool → Tr τ → (Waker → Prop) → Prop
  | _, .source s, live, t, W =>
    ∃ k, s.mine k ∧ (live = true → s.held k) ∧ t = s.trace k ∧ W = s.woken k
  | _, .sMap f e, live, t, W => ∃ u, e.Exec live u W ∧
      Rel (SMap.poll (logging f)) (SMap.init []) (·.signal) u t
  | _, .inspect (α := α) e, live, t, W => ∃ u, e.Exec live u W ∧
      Rel (SInspect.poll (observing (α := α))) (SMap.init []) (·.signal) u t
  | _, .not e, live, t, W => ∃ u, e.Exec live u W ∧ Rel SNot.poll (SMap.init ()) (·.signal) u t
  | _, @Expr.eq α _ value e, live, t, W => ∃ u, e.Exec live u W ∧ Rel SEq.poll (SEq.init value) (·.signal) u t
  | _, @Expr.neq α _ value e, live, t, W => ∃ u, e.Exec live u W ∧ Rel SNeq.poll (SEq.init value) (·.signal) u t
  | _, @Expr.dedupe α _ _ e, live, t, W => ∃ u, e.Exec live u W ∧
      Rel SDedupe.poll (SDedupe.init ()) (·.signal) u t
  | _, @Expr.dedupeMap α β _ _ f e, live, t, W => ∃ u, e.Exec live u W ∧
      Rel (SDedupeMap.poll (logging fun a => (f a, a))) (SDedupe.init []) (·.signal) u t
  | _, @Expr.mapRef α β _ n f es, live, t, W =>
    ∃ (us : Fin n → SigTrace α) (Ws : Fin n → Waker → Prop), (∀ i, (es i).Exec live (us i) (Ws i)) ∧
      W = (fun x => ∃ i, Ws i x) ∧
      ∃ s, run (SMapRef.poll f) (t.map (·.1)) (SMapRef.init (List.ofFn fun i => (us i).say)) =
          some (t.map (·.2), s) ∧ s.map (·.signal.src.hist) = List.ofFn us
  | _, .and e e', live, t, W => ∃ (u u' : SigTrace Bool) (W1 W2 : Waker → Prop), e.Exec live u W1 ∧
      e'.Exec live u' W2 ∧ W = (fun x => W1 x ∨ W2 x) ∧
      ∃ s, run SAnd.poll (t.map (·.1)) (SMapRef.init [u.say, u'.say]) = some (t.map (·.2), s) ∧
        s.map (·.signal.src.hist) = [u, u']
  | _, .or e e', live, t, W => ∃ (u u' : SigTrace Bool) (W1 W2 : Waker → Prop), e.Exec live u W1 ∧
      e'.Exec live u' W2 ∧ W = (fun x => W1 x ∨ W2 x) ∧
      ∃ s, run SOr.poll (t.map (·.1)) (SMapRef.init [u.say, u'.say]) = some (t.map (·.2), s) ∧
        s.map (·.signal.src.hist) = [u, u']
  | _, .option e, live, t, W => ∃ u, e.Exec live u W ∧
      ∃ s, run SOption.poll (t.map (·.1)) (SOption.init (some (u.map (·.2)))) = some (t.map (·.2), s) ∧
        s.hist = u
  | _, .result (ε := ε) e, live, t, W => ∃ u, e.Exec live u W ∧
      ∃ s, run SResult.poll (t.map (·.1)) (SResult.init (ε := ε) (.ok (u.map (·.2)))) =
        some (t.map (·.2), s) ∧ s.hist = u
  | _, .stopIf p e, live, t, W => ∃ u, e.Exec live u W ∧
      Rel (SStopIf.poll (logging p)) (SStopIf.init []) (·.signal) u t
  | _, .filterMapS f e, live, t, W => ∃ u, e.Exec live u W ∧
      Rel (SFilterMap.poll (logging f)) (SFilterMap.init []) (·.signal) u t
  | _, .throttle (α := α) futs e, live, t, W => ∃ (u : SigTrace α) (We : Waker → Prop) (i : Nat),
      e.Exec live u We ∧
      ∃ s, run (SThrottle.poll fun n => (futs i n).hist.map (·.2)) (t.map (·.1))
          (SThrottle.init (u.map (·.2))) = some (t.map (·.2), s) ∧ s.signal.src.hist = u ∧
        (∀ x, s.future = some x → x.src.hist = (futs i x.tag).hist) ∧
        W = fun y => We y ∨ ∃ x, s.future = some x ∧ (futs i x.tag).woken y
  | _, .mapFuture (α := α) (β := β) futs held e, live, t, W => ∃ (u : SigTrace (α × Nat)) (We : Waker → Prop),
      e.Exec live u.bare We ∧
      ∃ s : SMapFuture (α × Nat) β, run (SMapFuture.poll fun q => (futs q.1 q.2).hist.map (·.2))
          (t.map (·.1)) (SMapFuture.init (u.map (·.2))) = some (t.map (·.2), s) ∧ s.signal.src.hist = u ∧
        (∀ x, (s.old ++ s.future.toList).getLast? = some x →
          x.src.hist = (futs x.tag.1 x.tag.2).hist ∧ (live = true → held x.tag.2)) ∧
        W = fun y => We y ∨ ∃ x, s.future = some x ∧ (futs x.tag.1 x.tag.2).woken y
  | _, .delayRemove (β := β) futs e, live, t, W => ∃ (u v : Trace (β × Nat)) (We : Waker → Prop),
      e.Exec live (Trace.bare u) We ∧ t = Trace.bare v ∧
      ∃ s : VDelay (β × Nat), run (VDelay.poll fun q => (futs q.1 q.2).hist.map (·.2))
          (v.map (·.1)) (VDelay.init (u.map (·.2))) = some (v.map (·.2), s) ∧ s.signal.src.hist = u ∧
        (∀ x ∈ s.futures, x.future.hist = (futs x.tag.1 x.tag.2).hist) ∧
        W = fun y => We y ∨ ∃ x ∈ s.futures, x.isRemoving = true ∧ (futs x.tag.1 x.tag.2).woken y
  | _, .broadcast (α := α) (β := β) f e, live, t, W =>
    ∃ (u : SigTrace α) (We : Waker → Prop) (F : Nat → α → β) (es : List Bc.Ev) (os : List (Bc.Out α β))
      (m : Bc.World α) (k : Nat), e.Exec live u We ∧ F k = f ∧
      runE (Bc.World.step F) (Bc.World.new (u.map fun q => (false, q.2))) es = some (os, m) ∧
      m.hist = (u.map fun q => (false, q.2)) ∧
      (∀ x, u.getLast? = some (x, .pending) → We x → (Bc.due (es.zip os)).1 = true) ∧
      (live = true → Bc.Kept k (es.zip os)) ∧ t = Bc.polled k (es.zip os) ∧
      W = Bc.WokenSince k (es.zip os)
  | _, @Expr.switch ι β _ g e, live, t, W =>
    ∃ (u : SigTrace (ι × Nat)) (inst : ι → Nat → SigTrace β) (We : Waker → Prop)
      (Wi : ι → Nat → Waker → Prop), e.Exec live u.bare We ∧
      (∀ b n, inst b n = [] ∨ ∃ W', (g b).Exec false (inst b n) W') ∧
      ∃ s : SFlatten (ι × Nat) β, run (SFlatten.poll fun q => (inst q.1 q.2).say) (t.map (·.1))
          (SFlatten.init (u.map (·.2))) = some (t.map (·.2), s) ∧ s.signal.src.hist = u ∧
        (∀ x, (s.old ++ s.inner.toList).getLast? = some x →
          x.src.hist = inst x.tag.1 x.tag.2 ∧
          (g x.tag.1).Exec live (inst x.tag.1 x.tag.2) (Wi x.tag.1 x.tag.2)) ∧
        W = fun y => We y ∨ ∃ x, (s.old ++ s.inner.toList).getLast? = some x ∧ Wi x.tag.1 x.tag.2 y
  | _, .sink k e, live, t, W => ∃ u, e.Exec live u W ∧ k.Exec u t
  | _, @Expr.keyCloned K V _ key e, live, t, W => ∃ u, e.Exec live u W ∧
      Rel MWatch.poll (MWatch.init key) (·.signal) u t
  | _, .pipe p e, live, t, W => ∃ u, e.Exec live u W ∧ p.Exec (fun _ => u) t
  | _, .chain (β := β) e e', live, t, W => ∃ (u v : Trace β) (W1 W2 : Waker → Prop), e.Exec live u W1 ∧
      e'.Exec live v W2 ∧ W = (fun x => W1 x ∨ W2 x) ∧
      ∃ s, run VChain.poll (t.map (·.1)) (VChain.init (u.map (·.2)) (v.map (·.2))) =
          some (t.map (·.2), s) ∧ s.left.src.hist = u ∧ s.right.src.hist = v
  | _, @Expr.mapSignal β γ _ g e, live, t, W =>
    ∃ (u : Trace (β × Nat)) (inst : β → Nat → SigTrace γ) (We : Waker → Prop)
      (Wi : β → Nat → Waker → Prop), e.Exec live (Trace.bare u) We ∧
      (∀ b n, inst b n = [] ∨ ∃ W', (g b).Exec false (inst b n) W') ∧
      ∃ s : VMapSignal (β × Nat) γ, run (VMapSignal.poll fun q => (inst q.1 q.2).say) (t.map (·.1))
          (VMapSignal.init (u.map (·.2))) = some (t.map (·.2), s) ∧ s.signal.src.hist = u ∧
        (∀ x ∈ s.signals, x.sig.src.hist = inst x.tag.1 x.tag.2 ∧
          (g x.tag.1).Exec live (inst x.tag.1 x.tag.2) (Wi x.tag.1 x.tag.2)) ∧
        W = fun y => We y ∨ ∃ x ∈ s.signals, Wi x.tag.1 x.tag.2 y
  | _, @Expr.mapIndexed β γ _ g e, live, t, W =>
    ∃ (u : Trace β) (We : Waker → Prop) (es : List EnumSig.Ev) (E : EnumSig.World β)
      (mine : Nat → Nat → Prop) (v : Trace ((Nat × β) × Nat)) (inst : Nat × β → Nat → SigTrace γ)
      (Wi : Nat × β → Nat → Waker → Prop), e.Exec live u We ∧
      (EnumSig.World.init (u.map (·.2))).runs es = .ok E ∧ E.signal.hist = u ∧ Trace.bare v = E.trace ∧
      (∀ b n, inst b n = [] ∨ ∃ W', (g (Source.index E b.1 (mine b.1)) b.2).Exec false (inst b n) W') ∧
      ∃ s : VMapSignal ((Nat × β) × Nat) γ, run (VMapSignal.poll fun q => (inst q.1 q.2).say) (t.map (·.1))
          (VMapSignal.init (v.map (·.2))) = some (t.map (·.2), s) ∧ s.signal.src.hist = v ∧
        (∀ x ∈ s.signals, x.sig.src.hist = inst x.tag.1 x.tag.2 ∧
          (g (Source.index E x.tag.1.1 (mine x.tag.1.1)) x.tag.1.2).Exec live (inst x.tag.1 x.tag.2)
            (Wi x.tag.1 x.tag.2)) ∧
        W = fun y => We y ∨ ∃ x ∈ s.signals, Wi x.tag.1 x.tag.2 y
  | _, .filterSignal (β := β) g e, live, t, W =>
    ∃ (u v : Trace (β × Nat)) (inst : β → Nat → SigTrace Bool) (We : Waker → Prop)
      (Wi : β → Nat → Waker → Prop), e.Exec live (Trace.bare u) We ∧ t = Trace.bare v ∧
      (∀ b n, inst b n = [] ∨ ∃ W', (g b).Exec false (inst b n) W') ∧
      ∃ s : VFilterSignal (β × Nat), run (VFilterSignal.poll fun q => (inst q.1 q.2).say)
          (v.map (·.1)) (VFilterSignal.init (u.map (·.2))) = some (v.map (·.2), s) ∧
        s.signal.src.hist = u ∧
        (∀ x ∈ s.signals, x.signal.src.hist = inst x.value.1 x.value.2 ∧
          (g x.value.1).Exec live (inst x.value.1 x.value.2) (Wi x.value.1 x.value.2)) ∧
        W = fun y => We y ∨ ∃ x ∈ s.signals, Wi x.value.1 x.value.2 y
  | _, .flatten (ι := ι) (β := β) g e, live, t, W =>
    ∃ (u : Trace (ι × Nat)) (inst : ι → Nat → Trace β) (We : Waker → Prop)
      (Wi : ι → Nat → Waker → Prop), e.Exec live (Trace.bare u) We ∧
      (∀ b n, inst b n = [] ∨ ∃ W', (g b).Exec false (inst b n) W') ∧
      ∃ s : VFlatten (ι × Nat) β, run (VFlatten.poll fun q => (inst q.1 q.2).map (·.2)) (t.map (·.1))
          (VFlatten.init (u.map (·.2))) = some (t.map (·.2), s) ∧ s.signal.src.hist = u ∧
        (∀ x ∈ s.inner, x.signalVec.src.hist = inst x.tag.1 x.tag.2 ∧
          (g x.tag.1).Exec live (inst x.tag.1 x.tag.2) (Wi x.tag.1 x.tag.2)) ∧
        W = fun y => We y ∨ ∃ x ∈ s.inner, Wi x.tag.1 x.tag.2 y
  | _, .toVec e, live, t, W => ∃ u, e.Exec live u W ∧
      Rel VToVec.poll (fun script => ⟨Src.mk' script⟩) (·.signal) u t
  | _, .switchVec (ι := ι) (α := α) g e, live, t, W =>
    ∃ (u : SigTrace (ι × Nat)) (inst : ι → Nat → Trace α) (We : Waker → Prop)
      (Wi : ι → Nat → Waker → Prop), e.Exec live u.bare We ∧
      (∀ b n, inst b n = [] ∨ ∃ W', (g b).Exec false (inst b n) W') ∧
      ∃ s : VSwitch (ι × Nat) α, run (VSwitch.poll fun q => (inst q.1 q.2).map (·.2)) (t.map (·.1))
          (VSwitch.init (u.map (·.2))) = some (t.map (·.2), s) ∧ s.signal.src.hist = u ∧
        (∀ q, s.signal.src.got.getLast? = some q → s.inner.src.hist = inst q.1 q.2 ∧
          (g q.1).Exec live (inst q.1 q.2) (Wi q.1 q.2)) ∧
        W = fun y => We y ∨ ∃ q, s.signal.src.got.getLast? = some q ∧ Wi q.1 q.2 y
  | _, @Expr.keys K V _ bs s, live, t, W => ∃ k, s.mine k ∧ (live = true → s.held k) ∧ W = s.woken k ∧
      Rel (MKeys.poll bs) MKeys.init (·.signal) (s.trace k) t
  | _, @Expr.entries K V _ bs s, live, t, W => ∃ k, s.mine k ∧ (live = true → s.held k) ∧ W = s.woken k ∧
      Rel (MEntries.poll bs) MKeys.init (·.signal) (s.trace k) t
  | _, @Expr.mapValue K V _ _ f e, live, t, W => ∃ u, e.Exec live u W ∧
      Rel (MMapValue.poll (logging f)) (MMapValue.init []) (·.signal) u t
  | _, @Expr.mapValueSignal K V γ _ _ g e, live, t, W =>
    ∃ (u : List (Waker × Poll (Option (MapDiff K (V × Nat))))) (inst : V → Nat → SigTrace γ)
      (We : Waker → Prop) (Wi : V → Nat → Waker → Prop), e.Exec live (bareMap u) We ∧
      (∀ b n, inst b n = [] ∨ ∃ W', (g b).Exec false (inst b n) W') ∧
      ∃ s : MMapSignal K (V × Nat) γ, run (MMapSignal.poll fun q => (inst q.1 q.2).say) (t.map (·.1))
          (MMapSignal.init (u.map (·.2))) = some (t.map (·.2), s) ∧ s.signal.src.hist = u ∧
        (∀ x ∈ s.signals, x.2.sig.src.hist = inst x.2.tag.1 x.2.tag.2 ∧
          (g x.2.tag.1).Exec live (inst x.2.tag.1 x.2.tag.2) (Wi x.2.tag.1 x.2.tag.2)) ∧
        W = fun y => We y ∨ ∃ x ∈ s.signals, Wi x.2.tag.1 x.2.tag.2 y

/-! ## Specification -/

/-- What the expression should show, if the sources have their present values.

* `stopIf`: the present value, or one which made it stop.
* `filterMapS`: what the closure makes of the present value, if it accepts it; otherwise `None` or what it
  made of a value that it accepted.
* `throttle`: the present value, unless a future made by its closure is running.
* `mapFuture`: the output of the future made last, which was made from the present value, unless that is
  running.
* `delayRemove`: the present elements, in order, and among them elements whose future is running. -/
def Spec : {τ : Ty} → Expr τ → τ.Den → Prop
  | _, .source s, v => v = s.cur
  | _, .sMap f e, v => ∃ a, e.Spec a ∧ v = f a
  | _, .inspect e, v => e.Spec v
  | _, .not e, v => ∃ a, e.Spec a ∧ v = !a
  | _, @Expr.eq α _ value e, v => ∃ a, e.Spec a ∧ v = (a == value)
  | _, @Expr.neq α _ value e, v => ∃ a, e.Spec a ∧ v = !(a == value)
  | _, @Expr.dedupe α _ _ e, v => e.Spec v
  | _, @Expr.dedupeMap α β _ _ f e, v => ∃ a, e.Spec a ∧ v = f a
  | _, @Expr.mapRef α β _ n f es, v =>
    ∃ as : Fin n → α, (∀ i, (es i).Spec (as i)) ∧ v = f (List.ofFn as)
  | _, .and e e', v => ∃ a b, e.Spec a ∧ e'.Spec b ∧ v = (a && b)
  | _, .or e e', v => ∃ a b, e.Spec a ∧ e'.Spec b ∧ v = (a || b)
  | _, .option e, v => ∃ a, e.Spec a ∧ v = some a
  | _, .result e, v => ∃ a, e.Spec a ∧ v = .ok a
  | _, .stopIf p e, v => e.Spec v ∨ p v = true
  | _, .filterMapS f e, v => ∃ a, e.Spec a ∧ (∀ b, f a = some b → v = some b) ∧
      ∀ b, v = some b → ∃ a', f a' = some b
  | _, .throttle futs e, v => e.Spec v ∨ ∃ i n, (futs i n).Running
  | _, .mapFuture futs held e, v => ∃ a n, e.Spec a ∧ held n ∧
      ((futs a n).Running ∨ ∃ b, (futs a n).result = some b ∧ v = some b)
  | _, .delayRemove (β := β) futs e, zs => ∃ l : List (β × Bool), zs = l.map (·.1) ∧
      e.Spec ((l.filter (!·.2)).map (·.1)) ∧ ∀ a, (a, true) ∈ l → ∃ n, (futs a n).Running
  | _, .broadcast f e, v => ∃ a, e.Spec a ∧ v = f a
  | _, @Expr.switch ι β _ g e, v => ∃ a, e.Spec a ∧ (g a).Spec v
  | _, .sink k e, v => ∃ xs, e.Spec xs ∧ v = k.value xs
  | _, @Expr.keyCloned K V _ key e, v => ∃ m, e.Spec m ∧ v = m key
  | _, .pipe p e, ys => ∃ xs, e.Spec xs ∧ p.Spec (fun _ => xs) ys
  | _, .chain e e', zs => ∃ xs ys, e.Spec xs ∧ e'.Spec ys ∧ zs = xs ++ ys
  | _, @Expr.mapSignal β γ _ g e, ys => ∃ xs, e.Spec xs ∧ List.Forall₂ (fun a y => (g a).Spec y) xs ys
  | _, @Expr.mapIndexed β γ _ g e, ys => ∃ xs, e.Spec xs ∧ ys.length = xs.length ∧
      ∀ (i : Nat) (a : β) (y : γ), xs[i]? = some a → ys[i]? = some y →
        ∃ s : Source (.sig (Option Nat)), s.cur = some i ∧ (g s a).Spec y
  | _, .filterSignal g e, ys => ∃ xs bs, e.Spec xs ∧ List.Forall₂ (fun a b => (g a).Spec b) xs bs ∧
      ys = ((xs.zip bs).filter (·.2)).map (·.1)
  | _, .flatten g e, zs => ∃ xs yss, e.Spec xs ∧ List.Forall₂ (fun a ys => (g a).Spec ys) xs yss ∧
      zs = yss.flatten
  | _, .toVec e, ys => e.Spec ys
  | _, .switchVec g e, ys => ∃ a, e.Spec a ∧ (g a).Spec ys
  | _, @Expr.keys K V _ _ s, ks => ks.Pairwise (· < ·) ∧ ∀ k, k ∈ ks ↔ (s.cur k).isSome
  | _, @Expr.entries K V _ _ s, es => es.Pairwise (fun a b => a.1 < b.1) ∧ ∀ k v, (k, v) ∈ es ↔ s.cur k = some v
  | _, @Expr.mapValue K V _ _ f e, z => ∃ m, e.Spec m ∧ z = fun k => (m k).map f
  | _, @Expr.mapValueSignal K V γ _ _ g e, z => ∃ m, e.Spec m ∧
      ∀ k, (m k = none → z k = none) ∧ ∀ v, m k = some v → ∃ y, z k = some y ∧ (g v).Spec y

/-- No `Move` towards the front can come out. -/
def Forward : {τ : Ty} → Expr τ → Prop
  | τ, .source s => ∀ k, s.mine k → τ.Fwds (s.trace k)
  | _, .pipe _ e => e.Forward
  | _, .chain e e' => e.Forward ∧ e'.Forward
  | _, @Expr.mapSignal β γ _ _ e => e.Forward
  | _, @Expr.mapIndexed β γ _ _ e => e.Forward
  | _, .filterSignal _ e => e.Forward
  | _, .delayRemove _ e => e.Forward
  | _, .flatten g _ => ∀ a, (g a).Forward
  | _, .switchVec g _ => ∀ a, (g a).Forward
  | _, _ => True

/-- A `SignalVec` expression that sends no change without effect: sources that do not, and combinators
that only pass such changes on. -/
def Brisk : {τ : Ty} → Expr τ → Prop
  | τ, .source s => ∀ k, s.mine k → τ.Brisk (s.trace k)
  | _, .pipe p e => ¬ p.Filters ∧ e.Brisk
  | _, .chain e e' => e.Brisk ∧ e'.Brisk
  | _, @Expr.mapSignal β γ _ _ e => e.Brisk
  | _, @Expr.mapIndexed β γ _ _ e => e.Brisk
  | _, .delayRemove _ e => e.Brisk
  | _, _ => False

/-- Requirements on the sources and the parameters: see `Source.Ok`, `Pipe.Lawful`, `Sink.Lawful`.
The inputs of `chain` send no change without effect (C57, C60; see `C71_brisk_partial` for which
expressions do not); pipelines contain no `chain` of their own; no moves towards the front where something is filtered (C13);
`flatten` only gets `Replace`, `InsertAt`, `Push` and `Clear` (C14);
`switch_signal_vec` does not get a `SignalVec` that ends at its first poll (C22);
`slice::binary_search` works. -/
def Lawful : {τ : Ty} → Expr τ → Prop
  | _, .source s => s.Ok
  | _, .sMap _ e => e.Lawful
  | _, .inspect e => e.Lawful
  | _, .not e => e.Lawful
  | _, @Expr.eq α _ _ e => e.Lawful
  | _, @Expr.neq α _ _ e => e.Lawful
  | _, @Expr.dedupe α _ _ e => e.Lawful
  | _, @Expr.dedupeMap α β _ _ _ e => e.Lawful
  | _, @Expr.mapRef α β _ n _ es => n ≠ 0 ∧ ∀ i, (es i).Lawful
  | _, .and e e' => e.Lawful ∧ e'.Lawful
  | _, .or e e' => e.Lawful ∧ e'.Lawful
  | _, .option e => e.Lawful
  | _, .result e => e.Lawful
  | _, .stopIf _ e => e.Lawful
  | _, .filterMapS _ e => e.Lawful
  | _, .throttle futs e => (∀ i n, (futs i n).Ok) ∧ e.Lawful
  | _, .mapFuture futs _ e => (∀ a n, (futs a n).Ok) ∧ e.Lawful
  | _, .delayRemove futs e => (∀ a n, (futs a n).Ok) ∧ e.Lawful
  | _, .broadcast _ e => e.Lawful
  | _, @Expr.switch ι β _ g e => (∀ a, (g a).Lawful) ∧ e.Lawful
  | _, .sink k e => k.Lawful ∧ e.Lawful
  | _, @Expr.keyCloned K V _ _ e => e.Lawful
  | _, .chain e e' => e.Lawful ∧ e'.Lawful ∧
      (∀ live t W, e.Exec live t W → Trace.Brisk t) ∧ ∀ live t W, e'.Exec live t W → Trace.Brisk t
  | _, .pipe p e => p.Straight ∧ p.Lawful ∧ (p.Filters → e.Forward) ∧ e.Lawful
  | _, @Expr.mapSignal β γ _ g e => (∀ a, (g a).Lawful) ∧ e.Lawful
  | _, @Expr.mapIndexed β γ _ g e => (∀ s a, s.Ok → (g s a).Lawful) ∧ e.Lawful
  | _, .filterSignal g e => (∀ a, (g a).Lawful) ∧ e.Forward ∧ e.Lawful
  | _, .flatten g e => (∀ a, (g a).Lawful) ∧ e.Lawful ∧
      ∀ live t W, e.Exec live t W → ∀ d ∈ Trace.diffs t, AddsOnly d
  | _, .toVec e => e.Lawful
  | _, .switchVec g e => (∀ a, (g a).Lawful) ∧ e.Lawful ∧
      ∀ a t W, (g a).Exec false t W → t.head?.map (·.2) ≠ some (.ready none)
  | _, @Expr.keys K V _ bs s => s.Ok ∧ SearchOk bs ∧
      ∀ k, s.mine k → ∀ d ∈ items ((s.trace k).map (·.2)), Sorted d
  | _, @Expr.entries K V _ bs s => s.Ok ∧ SearchOk bs ∧
      ∀ k, s.mine k → ∀ d ∈ items ((s.trace k).map (·.2)), Sorted d
  | _, @Expr.mapValue K V _ _ _ e => e.Lawful
  | _, @Expr.mapValueSignal K V γ _ _ g e => (∀ a, (g a).Lawful) ∧ e.Lawful

end Expr

end Verif
