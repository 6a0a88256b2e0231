import Verif.MutableSpec
import Verif.SignalA
import Verif.SignalB

/-!
# Networks of signals over `Mutable`s (C66): definitions

A closed system: any number of `Mutable`s, and one signal built from their signals with `map`,
`dedupe`, `eq`, `neq`, `map_ref!`, `switch` and `always`, any way and depth.  Unlike in the scripts
of the other files, the inputs of a combinator are here the combinators below it and, at the bottom,
the `Mutable`s as modelled in `Verif/Mutable.lean`, with their values, handles and wakers.

A poll of a combinator is described with its poll function from `Verif/SignalA.lean` and
`Verif/SignalB.lean`: the answers that its inputs give during this poll are put into its scripts, and
it must use exactly these.
-/

namespace Verif.Net

/-- All `Mutable`s, numbered, `/repo/src/signal/mutable.rs:81-84`. -/
abbrev Env (α : Type) := Nat → Mut.World α

variable {α β γ σ : Type}

/-- A new state of one `Mutable`. -/
def Env.put (W : Env α) (m : Nat) (x : Mut.World α) : Env α := fun k => if k = m then x else W k

/-- The current values. -/
def Env.values (W : Env α) (m : Nat) : α := (W m).value

/-- An expression for a signal.
* `source m`: `m.signal()`, `m.signal_cloned()`, `/repo/src/signal/mutable.rs:204-218`;
* `always b`: `/repo/src/signal/signal.rs:893-897`;
* `map f p`, also `inspect`, `not`: `/repo/src/signal/signal.rs:155-171`, `606-609`;
* `dedupe p`, `eq b p`, `neq b p`: `/repo/src/signal/signal.rs:175-196`, `231-252`;
* `mapRef ps f`, also `and`, `or`: `/repo/src/signal/macros.rs:304-308`,
  `/repo/src/signal/signal.rs:614-635`; at least one input, all with the same item type;
* `switch g p`, also `flatten`: `/repo/src/signal/signal.rs:428-445`.  The callback makes a new
  signal for each value, and may choose any expression. -/
inductive Net (α : Type) : Type → Type 1 where
  | source (m : Nat) : Net α α
  | always {β : Type} (b : β) : Net α β
  | map {β γ : Type} (f : β → γ) (p : Net α β) : Net α γ
  | dedupe {β : Type} [DecidableEq β] (p : Net α β) : Net α β
  | eq {β : Type} [DecidableEq β] (b : β) (p : Net α β) : Net α Bool
  | neq {β : Type} [DecidableEq β] (b : β) (p : Net α β) : Net α Bool
  | mapRef {β γ : Type} {n : Nat} (ps : Fin (n + 1) → Net α β) (f : List β → γ) : Net α γ
  | switch {β γ : Type} (g : β → Net α γ) (p : Net α β) : Net α γ

/-- The state of a signal: that of its combinator and of its inputs; for a signal of a `Mutable` the
number of its `ChangedWaker`. -/
def Net.St : {β : Type} → Net α β → Type
  | _, .source _ => Nat
  | _, @Net.always _ β _ => SAlways β
  | _, @Net.map _ β _ _ p => SMap Unit β × p.St
  | _, @Net.dedupe _ β _ p => SDedupe Unit β × p.St
  | _, @Net.eq _ β _ _ p => SEq β × p.St
  | _, @Net.neq _ β _ _ p => SEq β × p.St
  | _, @Net.mapRef _ β _ n ps _ => (Fin (n + 1) → MapRef1 β) × (∀ i, (ps i).St)
  | _, @Net.switch _ β γ g p => SFlatten β γ × p.St × Option ((t : β) × (g t).St)

/-- Several polls after each other, with the given answers. -/
def Many (P : Env α → σ → Poll (Option β) → Env α → σ → Prop) :
    Env α → σ → List (Poll (Option β)) → Env α → σ → Prop
  | W, s, [], W', s' => W' = W ∧ s' = s
  | W, s, r :: l, W', s' => ∃ W1 s1, P W s r W1 s1 ∧ Many P W1 s1 l W' s'

/-- The input `s` with the answers `l` to come. -/
def give {ρ : Type} (l : List (Poll ρ)) (s : Src ρ) : Src ρ := ⟨l, s.hist⟩

/-- From `s` to `s'` the input was polled as often as there are answers in `l`. -/
def Took {ρ : Type} (l : List (Poll ρ)) (s s' : Src ρ) : Prop :=
  s'.hist.length = s.hist.length + l.length

/-- How often inner signals of a `flatten` were polled. -/
def innerPolls (m : SFlatten β γ) : Nat :=
  (m.old.map (·.src.hist.length)).sum + (m.inner.map (·.src.hist.length)).getD 0

/-- `SFlatten` with the answers of its inputs to come. -/
def giveFlatten (lo : List (Poll (Option β))) (li : List (Poll (Option γ))) (m : SFlatten β γ) :
    SFlatten β γ :=
  ⟨⟨give lo m.signal.src, m.signal.alive⟩, m.inner.map fun i => ⟨i.tag, give li i.src⟩, m.old⟩

/-- The construction of a signal, from inputs to outputs, `/repo/src/signal/mutable.rs:181-189`,
`/repo/src/internal.rs:50-56` and the functions cited at `Net`. -/
def Net.Makes : {β : Type} → (p : Net α β) → Env α → p.St → Env α → Prop
  | _, .source m, W, (id : Nat), W' => id = (W m).cells ∧ W' = W.put m (W m).signalState
  | _, .always b, W, s, W' => s = (⟨some b⟩ : SAlways _) ∧ W' = W
  | _, .map _ p, W, s, W' => s.1 = SMap.init () [] ∧ p.Makes W s.2 W'
  | _, @Net.dedupe _ _ _ p, W, s, W' => s.1 = SDedupe.init () [] ∧ p.Makes W s.2 W'
  | _, @Net.eq _ _ _ b p, W, s, W' => s.1 = SEq.init b [] ∧ p.Makes W s.2 W'
  | _, @Net.neq _ _ _ b p, W, s, W' => s.1 = SEq.init b [] ∧ p.Makes W s.2 W'
  | _, @Net.mapRef _ _ _ n ps _, W, s, W' => (∀ i, s.1 i = ⟨Inp.mk' [], none⟩) ∧
      ∃ Ws : Nat → Env α, Ws 0 = W ∧ Ws (n + 1) = W' ∧
        ∀ i : Fin (n + 1), (ps i).Makes (Ws i) (s.2 i) (Ws (i + 1))
  | _, .switch _ p, W, s, W' => s.1 = SFlatten.init [] ∧ p.Makes W s.2.1 W' ∧ s.2.2 = none

/-- The drop of a signal with all its inputs. -/
def Net.Drops : {β : Type} → (p : Net α β) → Env α → p.St → Env α → Prop
  | _, .source m, W, (id : Nat), W' => W' = W.put m ((W m).dropSignal id)
  | _, .always _, W, _, W' => W' = W
  | _, .map _ p, W, s, W' => p.Drops W s.2 W'
  | _, @Net.dedupe _ _ _ p, W, s, W' => p.Drops W s.2 W'
  | _, @Net.eq _ _ _ _ p, W, s, W' => p.Drops W s.2 W'
  | _, @Net.neq _ _ _ _ p, W, s, W' => p.Drops W s.2 W'
  | _, @Net.mapRef _ _ _ n ps _, W, s, W' =>
      ∃ Ws : Nat → Env α, Ws 0 = W ∧ Ws (n + 1) = W' ∧
        ∀ i : Fin (n + 1), (ps i).Drops (Ws i) (s.2 i) (Ws (i + 1))
  | _, .switch g p, W, s, W' => ∃ W1, p.Drops W s.2.1 W1 ∧
      (s.2.2 = none → W' = W1) ∧ (∀ t si, s.2.2 = some ⟨t, si⟩ → (g t).Drops W1 si W')

/-- One poll of a signal, with waker `w`: in the environment `W` and the state `s` it answers `r`,
and leaves `W'` and `s'`.

Simplification: an input that ended stays in the state until its owner is dropped, although the
combinators drop it at once (`/repo/src/internal.rs:87-90`, `/repo/src/signal/signal.rs:1611-1613`,
`1624-1626`).  Its `Mutable`s have no handles left, so nobody looks at its `ChangedWaker`s. -/
def Net.Polls : {β : Type} → (p : Net α β) → Waker → Env α → p.St → Poll (Option β) → Env α →
    p.St → Prop
  | _, .source m, w, W, (id : Nat), r, W', (id' : Nat) =>
      r = ((W m).pollChange id w _root_.id).1 ∧
        W' = W.put m ((W m).pollChange id w _root_.id).2 ∧ id' = id
  | _, .always _, w, W, s, r, W', s' => SAlways.poll w s = some (r, s') ∧ W' = W
  | _, .map f p, w, W, s, r, W', s' => ∃ l, Many (p.Polls w) W s.2 l W' s'.2 ∧
      SMap.poll (fun _ x => (f x, ())) w ⟨give l s.1.signal, s.1.st⟩ = some (r, s'.1) ∧
      Took l s.1.signal s'.1.signal
  | _, @Net.dedupe _ _ _ p, w, W, s, r, W', s' => ∃ l, Many (p.Polls w) W s.2 l W' s'.2 ∧
      SDedupe.poll w ⟨s.1.oldValue, give l s.1.signal, s.1.st⟩ = some (r, s'.1) ∧
      Took l s.1.signal s'.1.signal
  | _, @Net.eq _ _ _ _ p, w, W, s, r, W', s' => ∃ l, Many (p.Polls w) W s.2 l W' s'.2 ∧
      SEq.poll w ⟨give l s.1.signal, s.1.matched, s.1.value⟩ = some (r, s'.1) ∧
      Took l s.1.signal s'.1.signal
  | _, @Net.neq _ _ _ _ p, w, W, s, r, W', s' => ∃ l, Many (p.Polls w) W s.2 l W' s'.2 ∧
      SNeq.poll w ⟨give l s.1.signal, s.1.matched, s.1.value⟩ = some (r, s'.1) ∧
      Took l s.1.signal s'.1.signal
  | _, @Net.mapRef _ _ _ n ps f, w, W, s, r, W', s' =>
      ∃ l : ∀ _ : Fin (n + 1), List (Poll (Option _)),
        (∃ Ws : Nat → Env α, Ws 0 = W ∧ Ws (n + 1) = W' ∧
          ∀ i : Fin (n + 1), Many ((ps i).Polls w) (Ws i) (s.2 i) (l i) (Ws (i + 1)) (s'.2 i)) ∧
        SMapRef.poll f w (List.ofFn fun i =>
            ⟨⟨give (l i) (s.1 i).signal.src, (s.1 i).signal.alive⟩, (s.1 i).value⟩) =
          some (r, List.ofFn s'.1) ∧
        ∀ i, Took (l i) (s.1 i).signal.src (s'.1 i).signal.src
  | _, .switch g p, w, W, s, r, W', s' => ∃ lo li W1, Many (p.Polls w) W s.2.1 lo W1 s'.2.1 ∧
      SFlatten.poll (fun _ => li) w (giveFlatten lo li s.1) = some (r, s'.1) ∧
      Took lo s.1.signal.src s'.1.signal.src ∧ innerPolls s'.1 = innerPolls s.1 + li.length ∧
      (items lo = [] →
        (s.2.2 = none → s'.2.2 = none ∧ li = [] ∧ W' = W1) ∧
        (∀ t si, s.2.2 = some ⟨t, si⟩ →
          ∃ si', s'.2.2 = some ⟨t, si'⟩ ∧ Many ((g t).Polls w) W1 si li W' si')) ∧
      (∀ t, items lo = [t] → ∃ W2 W3 si si', (g t).Makes W1 si W2 ∧
        (s.2.2 = none → W3 = W2) ∧ (∀ t0 s0, s.2.2 = some ⟨t0, s0⟩ → (g t0).Drops W2 s0 W3) ∧
        s'.2.2 = some ⟨t, si'⟩ ∧ Many ((g t).Polls w) W3 si li W' si')

/-- The signals of `Mutable`s that a signal owns: number `i` of `Mutable` number `m`. -/
def Net.Owns : {β : Type} → (p : Net α β) → p.St → Nat → Nat → Prop
  | _, .source m', (id : Nat), m, i => m = m' ∧ i = id
  | _, .always _, _, _, _ => False
  | _, .map _ p, s, m, i => p.Owns s.2 m i
  | _, @Net.dedupe _ _ _ p, s, m, i => p.Owns s.2 m i
  | _, @Net.eq _ _ _ _ p, s, m, i => p.Owns s.2 m i
  | _, @Net.neq _ _ _ _ p, s, m, i => p.Owns s.2 m i
  | _, .mapRef ps _, s, m, i => ∃ k, (ps k).Owns (s.2 k) m i
  | _, .switch g p, s, m, i => p.Owns s.2.1 m i ∨ ∃ t si, s.2.2 = some ⟨t, si⟩ ∧ (g t).Owns si m i

/-- What can happen: something with a `Mutable` (any method of any handle; creation, polls and drops
of other signals), or a poll of the network. -/
inductive Act (α β : Type) where
  | env (m : Nat) (e : Mut.Ev α)
  | poll (w : Waker) (r : Poll (Option β))

/-- The event does not poll or drop a signal that the network owns. -/
def Foreign (p : Net α β) (s : p.St) (m : Nat) (e : Mut.Ev α) : Prop :=
  (∀ i w, e = .poll i w → ¬ p.Owns s m i) ∧ (∀ i, e = .dropSignal i → ¬ p.Owns s m i)

/-- A history. -/
def Steps (p : Net α β) : List (Act α β) → Env α → p.St → Env α → p.St → Prop
  | [], W, s, W', s' => W' = W ∧ s' = s
  | .env m e :: h, W, s, W', s' => Foreign p s m e ∧
      ∃ o x, (W m).step e = some (o, x) ∧ Steps p h (W.put m x) s W' s'
  | .poll w r :: h, W, s, W', s' => ∃ W1 s1, p.Polls w W s r W1 s1 ∧ Steps p h W1 s1 W' s'

/-- The start of a history: the `Mutable`s may have been used before. -/
def Start (p : Net α β) (W : Env α) (s : p.St) : Prop :=
  ∃ W0 : Env α, (∀ m, ∃ a es os, (Mut.World.new a).runs es = some (os, W0 m)) ∧ p.Makes W0 s W

/-! ## Specification -/

/-- The meaning of an expression, for given values of the `Mutable`s. -/
def Net.den : {β : Type} → Net α β → (Nat → α) → β
  | _, .source m, v => v m
  | _, .always b, _ => b
  | _, .map f p, v => f (p.den v)
  | _, @Net.dedupe _ _ _ p, v => p.den v
  | _, @Net.eq _ _ _ b p, v => p.den v == b
  | _, @Net.neq _ _ _ b p, v => p.den v != b
  | _, .mapRef ps f, v => f (List.ofFn fun i => (ps i).den v)
  | _, .switch g p, v => (g (p.den v)).den v

/-- The last value that the network emitted in a history. -/
def lastValue (h : List (Act α β)) : Option β :=
  (h.filterMap fun a => match a with
    | .poll _ (.ready (some b)) => some b
    | _ => none).getLast?

/-- The network was not polled in a history. -/
def NoPoll (h : List (Act α β)) : Prop := ∀ w r, .poll w r ∉ h

end Verif.Net
