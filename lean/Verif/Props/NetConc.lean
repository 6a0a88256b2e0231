import Verif.NetConcPoll
import Verif.NetTotal
import Verif.Props.Net

/-!
# C68: networks of signals polled while other threads use the `Mutable`s

The networks of C66, but between any two accesses to a `Mutable` inside one poll, other threads may do
anything with the `Mutable`s.  A value can then be a mixture that never held (`C68_not_glitch_free`), but
no change is lost: whoever polls again when woken ends with the current value.
-/

namespace Verif.Net

variable {α β : Type} {mine : Nat → Nat → Prop}

theorem csteps_append {p : Net α β} {h1 h2 : List (Act α β)} {W W' : Env α} {s s' : p.St} :
    CSteps mine p (h1 ++ h2) W s W' s' ↔ ∃ W1 s1, CSteps mine p h1 W s W1 s1 ∧ CSteps mine p h2 W1 s1 W' s' := by
  induction h1 generalizing W s with
  | nil =>
    constructor
    · exact fun h => ⟨W, s, ⟨rfl, rfl⟩, h⟩
    · rintro ⟨_, _, ⟨rfl, rfl⟩, h⟩; exact h
  | cons a h1 ih =>
    cases a with
    | env m e =>
      simp only [List.cons_append, CSteps, ih]
      constructor
      · rintro ⟨k1, o, x, k2, W1, s1, k3, k4⟩; exact ⟨W1, s1, ⟨k1, o, x, k2, k3⟩, k4⟩
      · rintro ⟨W1, s1, ⟨k1, o, x, k2, k3⟩, k4⟩; exact ⟨k1, o, x, k2, W1, s1, k3, k4⟩
    | poll w r =>
      simp only [List.cons_append, CSteps, ih]
      constructor
      · rintro ⟨W1, s1, k1, W2, s2, k2, k3⟩; exact ⟨W2, s2, ⟨W1, s1, k1, k2⟩, k3⟩
      · rintro ⟨W2, s2, ⟨W1, s1, k1, k2⟩, k3⟩; exact ⟨W1, s1, k1, W2, s2, k2, k3⟩

/-- The invariant along a history. -/
theorem csteps_good {p : Net α β} {h0 h : List (Act α β)} {W W' : Env α} {s s' : p.St}
    (hi : Good mine p W s (lastValue h0)) (hs : CSteps mine p h W s W' s') :
    Good mine p W' s' (lastValue (h0 ++ h)) := by
  induction h generalizing h0 W s with
  | nil =>
    obtain ⟨rfl, rfl⟩ := hs
    rw [List.append_nil]
    exact hi
  | cons a h ih =>
    have e : h0 ++ a :: h = (h0 ++ [a]) ++ h := by simp
    rw [e]
    cases a with
    | env m ev =>
      obtain ⟨k1, o, x, k2, k3⟩ := hs
      refine ih ?_ k3
      rw [lastValue_env]
      exact hi.drift ((away_drift hi.ok k1 k2).mono hi.live)
    | poll w r =>
      obtain ⟨W1, s1, k1, k2⟩ := hs
      refine ih ?_ k2
      rw [lastValue_poll]
      exact (cpolls_post hi k1).good

theorem cstart_good {p : Net α β} {W : Env α} {s : p.St} (h : CStart mine p W s) : Good mine p W s none := by
  obtain ⟨W0, h1, h2⟩ := h
  exact (cmakes_ok h2 fun m => by
    obtain ⟨a, es, os, hr⟩ := h1 m
    exact ⟨_, Mut.sim_runs_new hr⟩).2.1

theorem creach_good {p : Net α β} {h : List (Act α β)} {W W' : Env α} {s s' : p.St} (h0 : CStart mine p W s)
    (hs : CSteps mine p h W s W' s') : Good mine p W' s' (lastValue h) :=
  csteps_good (h0 := []) (cstart_good h0) hs

/-- A network that waits, as long as nobody polls it. -/
theorem cwaiting {p : Net α β} {w : Waker} {h : List (Act α β)} {W W' : Env α} {s s' : p.St}
    {last : Option β} (hn : NoPoll h) (hi : Good mine p W s last) (hs : CSteps mine p h W s W' s') :
    Good mine p W' s' last ∧ Grow W W' ∧ (Waits w p W s → Rung w W W' ∨ Waits w p W' s') := by
  induction h generalizing W s with
  | nil =>
    obtain ⟨rfl, rfl⟩ := hs
    exact ⟨hi, Grow.refl _, .inr⟩
  | cons a h ih =>
    have hn' : NoPoll h := fun w r hm => hn w r (List.mem_cons_of_mem _ hm)
    cases a with
    | poll w r => exact absurd (List.mem_cons_self) (hn w r)
    | env m e =>
      obtain ⟨k1, o, x, k2, k3⟩ := hs
      have d := (away_drift hi.ok k1 k2).mono hi.live
      obtain ⟨j1, j2, j3⟩ := ih hn' (hi.drift d) k3
      refine ⟨j1, d.grow.trans j2, fun hw => ?_⟩
      rcases waits_drift d hw with h | h
      · exact .inl (h.left j2)
      · exact (j3 h).imp (Rung.right d.grow) id

/-- **C68**, no lost wakeup: after the network answered `Pending` to waker `w`, however the poll was
disturbed and whatever is done with the `Mutable`s after it, either `w` was woken since that poll began,
or the last value emitted is the value of the expression for the current values, and an undisturbed poll
would answer `Pending` again. -/
theorem C68_woken {p : Net α β} {h h' : List (Act α β)} {w : Waker} {W0 W1 W2 W3 : Env α}
    {s0 s1 s2 s3 : p.St} (h0 : CStart mine p W0 s0) (hs : CSteps mine p h W0 s0 W1 s1)
    (hp : p.CPolls mine w W1 s1 .pending W2 s2) (hn : NoPoll h') (hs' : CSteps mine p h' W2 s2 W3 s3) :
    Rung w W1 W3 ∨ (lastValue h = some (p.den W3.values) ∧
      ∀ w' r W4 s4, p.Polls w' W3 s3 r W4 s4 → r = .pending) := by
  have P := cpolls_post (creach_good h0 hs) hp
  obtain ⟨j1, j2, j3⟩ := cwaiting (w := w) hn P.good hs'
  rcases P.pend rfl with h | h
  · exact .inl (h.left j2)
  rcases j3 h with h | ⟨h3, h4⟩
  · exact .inl (Rung.right P.calm.grow h)
  refine .inr ⟨clean_den j1.inv (armed_clean h3), fun w' r W'' s'' hp => ?_⟩
  have Q := polls_post j1.inv j1.ok hp
  match r with
  | .pending => rfl
  | .ready (some b) => exact absurd rfl (Q.quiet (armed_clean h3) b)
  | .ready none => exact absurd (Q.back (armed_clean h3) (Q.ended rfl)) h4

theorem cdead_steps {p : Net α β} {h : List (Act α β)} {W W' : Env α} {s s' : p.St} {last : Option β}
    (hi : Good mine p W s last) (hd : Dead p W s) (hs : CSteps mine p h W s W' s') :
    Good mine p W' s' last ∧ Dead p W' s' ∧ ∀ w r, .poll w r ∈ h → r = .ready none := by
  induction h generalizing W s with
  | nil =>
    obtain ⟨rfl, rfl⟩ := hs
    exact ⟨hi, hd, fun w r h => by cases h⟩
  | cons a h ih =>
    cases a with
    | env m e =>
      obtain ⟨k1, o, x, k2, k3⟩ := hs
      have d := (away_drift hi.ok k1 k2).mono hi.live
      obtain ⟨j1, j2, j3⟩ := ih (hi.drift d) (dead_later d.later hd) k3
      exact ⟨j1, j2, fun w r hm => j3 w r (by simpa using hm)⟩
    | poll w r =>
      obtain ⟨W1, s1, k1, k2⟩ := hs
      have P := cpolls_post hi k1
      have hr := P.dead hd
      subst hr
      obtain ⟨j1, j2, j3⟩ := ih P.good (P.ended rfl) k2
      refine ⟨j1, j2, fun w' r' hm => ?_⟩
      rcases List.mem_cons.1 hm with h | h
      · cases h; rfl
      · exact j3 w' r' h

theorem dead_own {p : Net α β} {W : Env α} {s : p.St} (h : Dead p W s) {m i : Nat} (ho : p.Owns s m i) :
    (W m).senders = 0 := by
  induction p with
  | source m' => obtain ⟨rfl, rfl⟩ := ho; exact h.1
  | always b => exact ho.elim
  | map f p ih => exact ih h ho
  | dedupe p ih => exact ih h ho
  | eq b p ih => exact ih h ho
  | neq b p ih => exact ih h ho
  | mapRef ps f ih => obtain ⟨k, ho⟩ := ho; exact ih k (h k) ho
  | switch g p ihg ih =>
    rcases ho with ho | ⟨t, si, hs, ho⟩
    · exact ih h.1 ho
    · obtain ⟨-, t', si', hs', hd⟩ := h
      rw [hs] at hs'
      cases hs'
      exact ihg t hd ho

/-- **C68**, the end is final and not early: after the network reported its end, the last value emitted is
the value of the expression, this value never changes any more, every further poll reports the end, and
no `Mutable` that the network listens to has handles left; also when polls are disturbed. -/
theorem C68_end_final {p : Net α β} {h h' : List (Act α β)} {w : Waker} {W0 W1 W2 W3 : Env α}
    {s0 s1 s2 s3 : p.St} (h0 : CStart mine p W0 s0) (hs : CSteps mine p h W0 s0 W1 s1)
    (hp : p.CPolls mine w W1 s1 (.ready none) W2 s2) (hs' : CSteps mine p h' W2 s2 W3 s3) :
    lastValue h = some (p.den W3.values) ∧ (∀ w' r, .poll w' r ∈ h' → r = .ready none) ∧
      ∀ m i, p.Owns s3 m i → (W3 m).handles = 0 := by
  have P := cpolls_post (creach_good h0 hs) hp
  obtain ⟨j1, j2, j3⟩ := cdead_steps P.good (P.ended rfl) hs'
  refine ⟨clean_den j1.inv (armed_clean (w := w) (dead_armed j2)), j3, fun m i ho => ?_⟩
  obtain ⟨S, hS⟩ := j1.ok m
  rw [hS.handles, ← hS.senders]
  exact dead_own j2 ho

/-- **C68**, the first poll gives a value, also when it is disturbed. -/
theorem C68_first {p : Net α β} {h : List (Act α β)} {w : Waker} {r : Poll (Option β)} {W0 W1 W2 : Env α}
    {s0 s1 s2 : p.St} (h0 : CStart mine p W0 s0) (hs : CSteps mine p h W0 s0 W1 s1) (hn : NoPoll h)
    (hp : p.CPolls mine w W1 s1 r W2 s2) : ∃ b, r = .ready (some b) := by
  refine (cpolls_post (creach_good h0 hs) hp).first ?_
  have : ∀ h : List (Act α β), NoPoll h → lastValue h = none := by
    intro h hn
    unfold lastValue
    rw [List.getLast?_eq_none_iff, List.filterMap_eq_nil_iff]
    intro a ha
    cases a with
    | env m e => rfl
    | poll w r => exact absurd ha (hn w r)
  exact this h hn

/-- **C68**, what a value is made of: after every poll, disturbed or not, the last value emitted is a
value of the expression in which each occurrence of a signal of a `Mutable` is read at some moment of
this very poll. -/
theorem C68_moments {p : Net α β} {h : List (Act α β)} {w : Waker} {r : Poll (Option β)}
    {W0 W1 W2 : Env α} {s0 s1 s2 : p.St} (h0 : CStart mine p W0 s0) (hs : CSteps mine p h W0 s0 W1 s1)
    (hp : p.CPolls mine w W1 s1 r W2 s2) :
    ∃ b, lastValue (h ++ [.poll w r]) = some b ∧ p.Mix (Between W1 W2) b := by
  have G := creach_good h0 hs
  have P := cpolls_post G hp
  rw [lastValue_poll]
  cases hv : upd (lastValue h) r with
  | some b => exact ⟨b, rfl, P.mix b hv⟩
  | none =>
    cases hl : lastValue h with
    | none =>
      obtain ⟨b, rfl⟩ := P.first hl
      cases hv
    | some b =>
      rw [hl] at hv
      match r with
      | .ready (some b) => cases hv
      | .ready none => cases hv
      | .pending => cases hv

theorem single_mix {p : Net α β} (hp : p.Single) {V : (Nat → α) → Prop} {b : β} (hne : ∃ v, V v)
    (h : p.Mix V b) : ∃ v, V v ∧ b = p.den v := by
  induction p with
  | source m => exact h
  | always c => obtain ⟨v, hv⟩ := hne; exact ⟨v, hv, h⟩
  | map f p ih => obtain ⟨a, h1, rfl⟩ := h; obtain ⟨v, hv, rfl⟩ := ih hp h1; exact ⟨v, hv, rfl⟩
  | dedupe p ih => exact ih hp h
  | eq b p ih => obtain ⟨a, h1, rfl⟩ := h; obtain ⟨v, hv, rfl⟩ := ih hp h1; exact ⟨v, hv, rfl⟩
  | neq b p ih => obtain ⟨a, h1, rfl⟩ := h; obtain ⟨v, hv, rfl⟩ := ih hp h1; exact ⟨v, hv, rfl⟩
  | mapRef ps f ih => exact hp.elim
  | switch g p ihg ih => exact hp.elim

/-- **C68**, no glitches without `map_ref!` and `switch`: after every poll of a chain of `map`, `dedupe`,
`eq` and `neq`, disturbed or not, the last value emitted is the value of the expression at some moment of
this poll. -/
theorem C68_chain_glitch_free {p : Net α β} {h : List (Act α β)} {w : Waker} {r : Poll (Option β)}
    {W0 W1 W2 : Env α} {s0 s1 s2 : p.St} (hsingle : p.Single) (h0 : CStart mine p W0 s0)
    (hs : CSteps mine p h W0 s0 W1 s1) (hp : p.CPolls mine w W1 s1 r W2 s2) :
    ∃ v, Between W1 W2 v ∧ lastValue (h ++ [.poll w r]) = some (p.den v) := by
  obtain ⟨b, h1, h2⟩ := C68_moments h0 hs hp
  have P := cpolls_post (creach_good h0 hs) hp
  obtain ⟨v, hv, rfl⟩ := single_mix hsingle ⟨_, W1, .refl _, P.calm.reach, rfl⟩ h2
  exact ⟨v, hv, h1⟩

/-- **C68**, consistent in the end: from every state that a history with disturbed polls can reach, an
undisturbed poll does not panic, and after it the last value emitted is the value of the expression; the
next undisturbed poll gives no value. -/
theorem C68_settles {p : Net α β} {h : List (Act α β)} {W0 W1 : Env α}
    {s0 s1 : p.St} (h0 : CStart mine p W0 s0) (hs : CSteps mine p h W0 s0 W1 s1) (w : Waker) :
    (∃ r W2 s2, p.Polls w W1 s1 r W2 s2) ∧ ∀ r W2 s2, p.Polls w W1 s1 r W2 s2 →
      W2.values = W1.values ∧ lastValue (h ++ [.poll w r]) = some (p.den W2.values) ∧
      (r = .ready none → ∀ m i, p.Owns s2 m i → (W2 m).handles = 0) ∧
      ∀ w' r' W3 s3, p.Polls w' W2 s2 r' W3 s3 → ∀ b, r' ≠ .ready (some b) := by
  have G := creach_good h0 hs
  refine ⟨polls_total G.inv G.ok, fun r W2 s2 hp => ?_⟩
  have P := polls_post G.inv G.ok hp
  refine ⟨P.frame.values, ?_, fun hr m i ho => ?_, fun w' r' W3 s3 hp' b => ?_⟩
  · rw [lastValue_poll]; exact clean_den P.inv P.clean
  · obtain ⟨S, hS⟩ := P.frame.ok m
    rw [hS.handles, ← hS.senders]
    exact dead_own (P.ended hr) ho
  · exact (polls_post P.inv P.frame.ok hp').quiet P.clean b

/-! ## Undisturbed polls are a special case -/

theorem many_mono {σ : Type} {P Q : Env α → σ → Poll (Option β) → Env α → σ → Prop}
    (h : ∀ W s r W' s', P W s r W' s' → Q W s r W' s') {W W' : Env α} {s s' : σ} {l : List (Poll (Option β))}
    (hm : Many P W s l W' s') : Many Q W s l W' s' := by
  induction l generalizing W s with
  | nil => exact hm
  | cons r l ih => obtain ⟨W1, s1, h1, h2⟩ := hm; exact ⟨W1, s1, h _ _ _ _ _ h1, ih h2⟩

theorem makes_cmakes (hmine : ∀ m i, mine m i) {p : Net α β} {W W' : Env α} {s : p.St}
    (h : p.Makes W s W') : p.CMakes mine W s W' := by
  induction p generalizing W W' with
  | source m => exact ⟨W, .refl W, h.1, hmine _ _, h.2⟩
  | always b => exact h
  | map f p ih => exact ⟨h.1, ih h.2⟩
  | dedupe p ih => exact ⟨h.1, ih h.2⟩
  | eq b p ih => exact ⟨h.1, ih h.2⟩
  | neq b p ih => exact ⟨h.1, ih h.2⟩
  | mapRef ps f ih =>
    obtain ⟨h1, Ws, h2, h3, h4⟩ := h
    exact ⟨h1, Ws, h2, h3, fun i => ih i (h4 i)⟩
  | switch g p ihg ih => exact ⟨h.1, ih h.2.1, h.2.2⟩

theorem drops_cdrops {p : Net α β} {W W' : Env α} {s : p.St}
    (h : p.Drops W s W') : p.CDrops mine W s W' := by
  induction p generalizing W W' with
  | source m => exact ⟨W, .refl W, h⟩
  | always b => exact h
  | map f p ih => exact ih h
  | dedupe p ih => exact ih h
  | eq b p ih => exact ih h
  | neq b p ih => exact ih h
  | mapRef ps f ih =>
    obtain ⟨Ws, h2, h3, h4⟩ := h
    exact ⟨Ws, h2, h3, fun i => ih i (h4 i)⟩
  | switch g p ihg ih =>
    obtain ⟨W1, h1, h2, h3⟩ := h
    exact ⟨W1, ih h1, h2, fun t si hs => ihg t (h3 t si hs)⟩

/-- **C68**, the polls of C66 are those in which nobody does anything. -/
theorem C68_undisturbed (hmine : ∀ m i, mine m i) {p : Net α β} {w : Waker} {W W' : Env α} {s s' : p.St}
    {r : Poll (Option β)} (h : p.Polls w W s r W' s') : p.CPolls mine w W s r W' s' := by
  induction p generalizing W W' with
  | source m => exact ⟨W, .refl W, h⟩
  | always b => exact h
  | map f p ih =>
    obtain ⟨l, h1, h2⟩ := h
    exact ⟨l, many_mono (fun _ _ _ _ _ h => ih h) h1, h2⟩
  | dedupe p ih =>
    obtain ⟨l, h1, h2⟩ := h
    exact ⟨l, many_mono (fun _ _ _ _ _ h => ih h) h1, h2⟩
  | eq b p ih =>
    obtain ⟨l, h1, h2⟩ := h
    exact ⟨l, many_mono (fun _ _ _ _ _ h => ih h) h1, h2⟩
  | neq b p ih =>
    obtain ⟨l, h1, h2⟩ := h
    exact ⟨l, many_mono (fun _ _ _ _ _ h => ih h) h1, h2⟩
  | mapRef ps f ih =>
    obtain ⟨l, ⟨Ws, h1, h2, h3⟩, h4⟩ := h
    exact ⟨l, ⟨Ws, h1, h2, fun i => many_mono (fun _ _ _ _ _ h => ih i h) (h3 i)⟩, h4⟩
  | switch g p ihg ih =>
    obtain ⟨lo, li, W1, h1, h2, h3, h4, h5, h6⟩ := h
    refine ⟨lo, li, W1, many_mono (fun _ _ _ _ _ h => ih h) h1, h2, h3, h4, fun hl => ⟨(h5 hl).1,
      fun t si hs => ?_⟩, fun t hl => ?_⟩
    · obtain ⟨si', k1, k2⟩ := (h5 hl).2 t si hs
      exact ⟨si', k1, many_mono (fun _ _ _ _ _ h => ihg t h) k2⟩
    · obtain ⟨W2, W3, si, si', k1, k2, k3, k4, k5⟩ := h6 t hl
      exact ⟨W2, W3, si, si', makes_cmakes hmine k1, k2, fun t0 s0 h => drops_cdrops (k3 t0 s0 h), k4,
        many_mono (fun _ _ _ _ _ h => ihg t h) k5⟩

/-! ## A glitch -/

/-- `map_ref!` of the signals of two `Mutable`s. -/
def pair : Net Nat (List Nat) := .mapRef (n := 1) (fun i => .source i) id

/-- **C68**, the price: a poll that is disturbed between its reads can emit a value that the expression
never had.  The two `Mutable`s hold `0`, `0`; the network reads the first, then another thread sets the
first to `1` and then the second, and the network reads the second: it emits `0`, `1`, although the second
never held `1` while the first held `0`. -/
theorem C68_not_glitch_free : ∃ (W0 W1 W2 W3 W4 : Env Nat) (s s' : pair.St) (x1 x2 : Mut.World Nat),
    CStart (fun _ _ => True) pair W0 s ∧
    W1 = W0.put 0 ((W0 0).pollChange 0 7 id).2 ∧
    (W1 0).step (.set 1) = some (.unit, x1) ∧ W2 = W1.put 0 x1 ∧
    (W2 1).step (.set 1) = some (.unit, x2) ∧ W3 = W2.put 1 x2 ∧
    W4 = W3.put 1 ((W3 1).pollChange 0 7 id).2 ∧
    pair.CPolls (fun _ _ => True) 7 W0 s (.ready (some [0, 1])) W4 s' ∧
    ∀ W ∈ [W0, W1, W2, W3, W4], pair.den W.values ≠ [0, 1] := by
  let V : Env Nat := fun _ => Mut.World.new 0
  let V1 : Env Nat := V.put 0 (V 0).signalState
  let W0 : Env Nat := V1.put 1 (V1 1).signalState
  let W1 : Env Nat := W0.put 0 ((W0 0).pollChange 0 7 id).2
  let W2 : Env Nat := W1.put 0 ((W1 0).set 1)
  let W3 : Env Nat := W2.put 1 ((W2 1).set 1)
  let W4 : Env Nat := W3.put 1 ((W3 1).pollChange 0 7 id).2
  have o13 : Others (fun _ _ => True) W1 W3 :=
    .step (e := .set 1) (o := .unit) (.step (e := .set 1) (o := .unit) (.refl W1)
      ⟨by simp, by simp⟩ rfl) ⟨by simp, by simp⟩ rfl
  refine ⟨W0, W1, W2, W3, W4, (fun _ => ⟨Inp.mk' [], none⟩, fun _ => (0 : Nat)),
    (fun i => ⟨⟨⟨[], [(7, .ready (some i.val))]⟩, true⟩, some i.val⟩, fun _ => (0 : Nat)),
    (W1 0).set 1, (W2 1).set 1, ?_, rfl, rfl, rfl, rfl, rfl, rfl, ?_, ?_⟩
  · refine ⟨V, fun m => ⟨0, [], [], rfl⟩, fun i => rfl,
      fun k => if k = 0 then V else if k = 1 then V1 else W0, rfl, rfl, fun i => ?_⟩
    match i with
    | 0 => exact ⟨V, .refl _, rfl, trivial, rfl⟩
    | 1 => exact ⟨V1, .refl _, rfl, trivial, rfl⟩
  · refine ⟨fun i => [.ready (some i.val)],
      ⟨fun k => if k = 0 then W0 else if k = 1 then W1 else W4, rfl, rfl, fun i => ?_⟩, rfl, fun i => rfl⟩
    match i with
    | 0 => exact ⟨W1, (0 : Nat), ⟨W0, .refl _, rfl, rfl, rfl⟩, rfl, rfl⟩
    | 1 => exact ⟨W4, (0 : Nat), ⟨W3, o13, rfl, rfl, rfl⟩, rfl, rfl⟩
  · intro W hW
    simp only [List.mem_cons, List.not_mem_nil, or_false] at hW
    rcases hW with rfl | rfl | rfl | rfl | rfl <;> decide

/-- The hypotheses of the theorems are met: a network that is disturbed in its first poll emits `3`, is
woken in its second poll, which answers `Pending`, then emits `4`, and ends. -/
example : ∃ (W0 W1 W2 W3 W4 W5 : Env Nat) (s0 s : (Net.source 0 : Net Nat Nat).St),
    CStart (fun _ _ => True) (.source 0) W0 s0 ∧
    (Net.source 0).CPolls (fun _ _ => True) 7 W0 s0 (.ready (some 3)) W1 s ∧ W0.values 0 = 2 ∧
    (Net.source 0).CPolls (fun _ _ => True) 7 W1 s .pending W2 s ∧
    CSteps (fun _ _ => True) (.source 0) [.env 0 (.set 4), .env 0 .drop] W2 s W3 s ∧ Rung 7 W1 W3 ∧
    (Net.source 0).CPolls (fun _ _ => True) 7 W3 s (.ready (some 4)) W4 s ∧
    (Net.source 0).CPolls (fun _ _ => True) 7 W4 s (.ready none) W5 s := by
  let V : Env Nat := fun _ => Mut.World.new 2
  let W0 : Env Nat := V.put 0 (V 0).signalState
  let Wa : Env Nat := W0.put 0 ((W0 0).set 3)
  have o1 : Others (fun _ _ => True) W0 Wa :=
    .step (e := .set 3) (o := .unit) (.refl W0) ⟨by simp, by simp⟩ rfl
  refine ⟨W0, _, _, _, _, _, (0 : Nat), (0 : Nat), ⟨V, fun m => ⟨2, [], [], rfl⟩, V, .refl _, rfl, trivial, rfl⟩,
    ⟨Wa, o1, rfl, rfl, rfl⟩, rfl, ⟨_, .refl _, rfl, rfl, rfl⟩,
    ⟨⟨by simp, by simp⟩, _, _, rfl, ⟨by simp, by simp⟩, _, _, rfl, rfl, rfl⟩, ⟨0, [7], rfl, by simp⟩,
    ⟨_, .refl _, rfl, rfl, rfl⟩, ⟨_, .refl _, rfl, rfl, rfl⟩⟩

/-- Chains without `map_ref!` and `switch`. -/
example : (Net.dedupe (.map (· + 1) (.source 0)) : Net Nat Nat).Single := trivial

end Verif.Net
