import Verif.Net

/-!
# Networks of signals polled while other threads use the `Mutable`s (C68): definitions

As in `Verif/Net.lean`, but a poll of the network is not one step any more: between any two accesses
to a `Mutable` (poll, construction or drop of one of its signals) other threads may use the
`Mutable`s.

Simplification: one call on a `Mutable`, or one poll, construction or drop of one of its signals, is
one step.  (What can happen inside of these is the subject of `Verif/MutableConc.lean`, C36, C62.)
-/

namespace Verif.Net

variable {α β γ σ : Type}

/-- The event does not poll or drop one of the signals `mine`. -/
def Away (mine : Nat → Nat → Prop) (m : Nat) (e : Mut.Ev α) : Prop :=
  (∀ i w, e = .poll i w → ¬ mine m i) ∧ (∀ i, e = .dropSignal i → ¬ mine m i)

/-- What other threads can do: any calls on the `Mutable`s, and creation, polls and drops of signals
that do not belong to the network.  `mine` are the signals of `Mutable`s that belong to the network,
now or later. -/
inductive Others (mine : Nat → Nat → Prop) : Env α → Env α → Prop where
  | refl (W : Env α) : Others mine W W
  | step {W W1 : Env α} {m : Nat} {e : Mut.Ev α} {o : Mut.Obs α} {x : Mut.World α} :
      Others mine W W1 → Away mine m e → (W1 m).step e = some (o, x) → Others mine W (W1.put m x)

/-- `Net.Makes`, with other threads. -/
def Net.CMakes (mine : Nat → Nat → Prop) : {β : Type} → (p : Net α β) → Env α → p.St → Env α → Prop
  | _, .source m, W, (id : Nat), W' => ∃ W1, Others mine W W1 ∧ id = (W1 m).cells ∧ mine m id ∧
      W' = W1.put m (W1 m).signalState
  | _, .always b, W, s, W' => s = (⟨some b⟩ : SAlways _) ∧ W' = W
  | _, .map _ p, W, s, W' => s.1 = SMap.init () [] ∧ p.CMakes mine W s.2 W'
  | _, @Net.dedupe _ _ _ p, W, s, W' => s.1 = SDedupe.init () [] ∧ p.CMakes mine W s.2 W'
  | _, @Net.eq _ _ _ b p, W, s, W' => s.1 = SEq.init b [] ∧ p.CMakes mine W s.2 W'
  | _, @Net.neq _ _ _ b p, W, s, W' => s.1 = SEq.init b [] ∧ p.CMakes mine W s.2 W'
  | _, @Net.mapRef _ _ _ n ps _, W, s, W' => (∀ i, s.1 i = ⟨Inp.mk' [], none⟩) ∧
      ∃ Ws : Nat → Env α, Ws 0 = W ∧ Ws (n + 1) = W' ∧
        ∀ i : Fin (n + 1), (ps i).CMakes mine (Ws i) (s.2 i) (Ws (i + 1))
  | _, .switch _ p, W, s, W' => s.1 = SFlatten.init [] ∧ p.CMakes mine W s.2.1 W' ∧ s.2.2 = none

/-- `Net.Drops`, with other threads. -/
def Net.CDrops (mine : Nat → Nat → Prop) : {β : Type} → (p : Net α β) → Env α → p.St → Env α → Prop
  | _, .source m, W, (id : Nat), W' => ∃ W1, Others mine W W1 ∧ W' = W1.put m ((W1 m).dropSignal id)
  | _, .always _, W, _, W' => W' = W
  | _, .map _ p, W, s, W' => p.CDrops mine W s.2 W'
  | _, @Net.dedupe _ _ _ p, W, s, W' => p.CDrops mine W s.2 W'
  | _, @Net.eq _ _ _ _ p, W, s, W' => p.CDrops mine W s.2 W'
  | _, @Net.neq _ _ _ _ p, W, s, W' => p.CDrops mine W s.2 W'
  | _, @Net.mapRef _ _ _ n ps _, W, s, W' =>
      ∃ Ws : Nat → Env α, Ws 0 = W ∧ Ws (n + 1) = W' ∧
        ∀ i : Fin (n + 1), (ps i).CDrops mine (Ws i) (s.2 i) (Ws (i + 1))
  | _, .switch g p, W, s, W' => ∃ W1, p.CDrops mine W s.2.1 W1 ∧
      (s.2.2 = none → W' = W1) ∧ (∀ t si, s.2.2 = some ⟨t, si⟩ → (g t).CDrops mine W1 si W')

/-- `Net.Polls`, with other threads. -/
def Net.CPolls (mine : Nat → Nat → Prop) : {β : Type} → (p : Net α β) → Waker → Env α → p.St →
    Poll (Option β) → Env α → p.St → Prop
  | _, .source m, w, W, (id : Nat), r, W', (id' : Nat) => ∃ W1, Others mine W W1 ∧
      r = ((W1 m).pollChange id w _root_.id).1 ∧
        W' = W1.put m ((W1 m).pollChange id w _root_.id).2 ∧ id' = id
  | _, .always _, w, W, s, r, W', s' => SAlways.poll w s = some (r, s') ∧ W' = W
  | _, .map f p, w, W, s, r, W', s' => ∃ l, Many (p.CPolls mine w) W s.2 l W' s'.2 ∧
      SMap.poll (fun _ x => (f x, ())) w ⟨give l s.1.signal, s.1.st⟩ = some (r, s'.1) ∧
      Took l s.1.signal s'.1.signal
  | _, @Net.dedupe _ _ _ p, w, W, s, r, W', s' => ∃ l, Many (p.CPolls mine w) W s.2 l W' s'.2 ∧
      SDedupe.poll w ⟨s.1.oldValue, give l s.1.signal, s.1.st⟩ = some (r, s'.1) ∧
      Took l s.1.signal s'.1.signal
  | _, @Net.eq _ _ _ _ p, w, W, s, r, W', s' => ∃ l, Many (p.CPolls mine w) W s.2 l W' s'.2 ∧
      SEq.poll w ⟨give l s.1.signal, s.1.matched, s.1.value⟩ = some (r, s'.1) ∧
      Took l s.1.signal s'.1.signal
  | _, @Net.neq _ _ _ _ p, w, W, s, r, W', s' => ∃ l, Many (p.CPolls mine w) W s.2 l W' s'.2 ∧
      SNeq.poll w ⟨give l s.1.signal, s.1.matched, s.1.value⟩ = some (r, s'.1) ∧
      Took l s.1.signal s'.1.signal
  | _, @Net.mapRef _ _ _ n ps f, w, W, s, r, W', s' =>
      ∃ l : ∀ _ : Fin (n + 1), List (Poll (Option _)),
        (∃ Ws : Nat → Env α, Ws 0 = W ∧ Ws (n + 1) = W' ∧
          ∀ i : Fin (n + 1), Many ((ps i).CPolls mine w) (Ws i) (s.2 i) (l i) (Ws (i + 1)) (s'.2 i)) ∧
        SMapRef.poll f w (List.ofFn fun i =>
            ⟨⟨give (l i) (s.1 i).signal.src, (s.1 i).signal.alive⟩, (s.1 i).value⟩) =
          some (r, List.ofFn s'.1) ∧
        ∀ i, Took (l i) (s.1 i).signal.src (s'.1 i).signal.src
  | _, .switch g p, w, W, s, r, W', s' => ∃ lo li W1, Many (p.CPolls mine w) W s.2.1 lo W1 s'.2.1 ∧
      SFlatten.poll (fun _ => li) w (giveFlatten lo li s.1) = some (r, s'.1) ∧
      Took lo s.1.signal.src s'.1.signal.src ∧ innerPolls s'.1 = innerPolls s.1 + li.length ∧
      (items lo = [] →
        (s.2.2 = none → s'.2.2 = none ∧ li = [] ∧ W' = W1) ∧
        (∀ t si, s.2.2 = some ⟨t, si⟩ →
          ∃ si', s'.2.2 = some ⟨t, si'⟩ ∧ Many ((g t).CPolls mine w) W1 si li W' si')) ∧
      (∀ t, items lo = [t] → ∃ W2 W3 si si', (g t).CMakes mine W1 si W2 ∧
        (s.2.2 = none → W3 = W2) ∧
        (∀ t0 s0, s.2.2 = some ⟨t0, s0⟩ → (g t0).CDrops mine W2 s0 W3) ∧
        s'.2.2 = some ⟨t, si'⟩ ∧ Many ((g t).CPolls mine w) W3 si li W' si')

/-- A history.  Other threads act between the polls (`env`), and in each poll. -/
def CSteps (mine : Nat → Nat → Prop) (p : Net α β) :
    List (Act α β) → Env α → p.St → Env α → p.St → Prop
  | [], W, s, W', s' => W' = W ∧ s' = s
  | .env m e :: h, W, s, W', s' => Away mine m e ∧
      ∃ o x, (W m).step e = some (o, x) ∧ CSteps mine p h (W.put m x) s W' s'
  | .poll w r :: h, W, s, W', s' => ∃ W1 s1, p.CPolls mine w W s r W1 s1 ∧ CSteps mine p h W1 s1 W' s'

/-- The start of a history: the `Mutable`s may have been used before. -/
def CStart (mine : Nat → Nat → Prop) (p : Net α β) (W : Env α) (s : p.St) : Prop :=
  ∃ W0 : Env α, (∀ m, ∃ a es os, (Mut.World.new a).runs es = some (os, W0 m)) ∧ p.CMakes mine W0 s W

/-- `W'` comes after `W`: any number of events at the `Mutable`s, of the network or of others. -/
abbrev Reach (W W' : Env α) : Prop := Others (fun _ _ => False) W W'

/-- The values that the `Mutable`s have at some moment between `W` and `W'`. -/
def Between (W W' : Env α) (v : Nat → α) : Prop := ∃ W1, Reach W W1 ∧ Reach W1 W' ∧ v = W1.values

/-- `b` is a value of the expression if each occurrence of a signal of a `Mutable` in it may be read at
a moment of its own, out of the moments `V`. -/
def Net.Mix (V : (Nat → α) → Prop) : {β : Type} → Net α β → β → Prop
  | _, .source m, b => ∃ v, V v ∧ b = v m
  | _, .always c, b => b = c
  | _, .map f p, b => ∃ a, p.Mix V a ∧ b = f a
  | _, @Net.dedupe _ _ _ p, b => p.Mix V b
  | _, @Net.eq _ _ _ c p, b => ∃ a, p.Mix V a ∧ b = (a == c)
  | _, @Net.neq _ _ _ c p, b => ∃ a, p.Mix V a ∧ b = (a != c)
  | _, .mapRef ps f, b => ∃ a, (∀ i, (ps i).Mix V (a i)) ∧ b = f (List.ofFn a)
  | _, .switch g p, b => ∃ t, p.Mix V t ∧ (g t).Mix V b

/-- An expression in which only one signal of a `Mutable` occurs, without `map_ref!` and `switch`. -/
def Net.Single : {β : Type} → Net α β → Prop
  | _, .source _ => True
  | _, .always _ => True
  | _, .map _ p => p.Single
  | _, @Net.dedupe _ _ _ p => p.Single
  | _, @Net.eq _ _ _ _ p => p.Single
  | _, @Net.neq _ _ _ _ p => p.Single
  | _, .mapRef _ _ => False
  | _, .switch _ _ => False

/-- Waker `w` was woken between `W` and `W'`. -/
def Rung (w : Waker) (W W' : Env α) : Prop := ∃ m l, (W' m).woken = (W m).woken ++ l ∧ w ∈ l

end Verif.Net
