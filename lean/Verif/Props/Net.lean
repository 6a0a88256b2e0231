import Verif.NetTotal

/-!
# C66: networks of signals over `Mutable`s show the current values

For every expression `p` built from signals of `Mutable`s with `map`, `dedupe`, `eq`, `neq`, `map_ref!`,
`switch` and `always`, every history of calls on the `Mutable`s and polls of the network: the theorems
compare what the network emitted with `p.den`, the value of the expression computed directly from the
current values of the `Mutable`s.
-/

namespace Verif.Net

variable {α β : Type}

/-- **C66.**  After every poll, whatever it answered, the last value that the network emitted is the
value of the expression for the current values of the `Mutable`s. -/
theorem C66_consistent {p : Net α β} {h : List (Act α β)} {w : Waker} {r : Poll (Option β)}
    {W0 W : Env α} {s0 s : p.St} (h0 : Start p W0 s0) (hs : Steps p (h ++ [.poll w r]) W0 s0 W s) :
    lastValue (h ++ [.poll w r]) = some (p.den W.values) := by
  obtain ⟨W1, s1, k1, W2, s2, k2, rfl, rfl⟩ := steps_append.1 hs
  obtain ⟨i1, o1⟩ := reach_inv h0 k1
  have P := polls_post i1 o1 k2
  rw [lastValue_poll]
  exact clean_den P.inv P.clean

/-- **C66**, no glitches: a value that the network emits is the value of the expression for the values
that the `Mutable`s have at this moment; it is never computed from old and new values, however many
paths lead from a `Mutable` to the output. -/
theorem C66_glitch_free {p : Net α β} {h : List (Act α β)} {w : Waker} {b : β}
    {W0 W : Env α} {s0 s : p.St} (h0 : Start p W0 s0)
    (hs : Steps p (h ++ [.poll w (.ready (some b))]) W0 s0 W s) : b = p.den W.values := by
  have := C66_consistent h0 hs
  rw [lastValue_poll] at this
  exact Option.some.inj this

/-- **C66**, polls do not write: the values of the `Mutable`s and the wakers woken are those before the
poll. -/
theorem C66_reads_only {p : Net α β} {h : List (Act α β)} {w : Waker} {r : Poll (Option β)}
    {W0 W1 W : Env α} {s0 s1 s : p.St} (h0 : Start p W0 s0) (hs : Steps p h W0 s0 W1 s1)
    (hp : p.Polls w W1 s1 r W s) : W.values = W1.values ∧ ∀ m, (W m).woken = (W1 m).woken := by
  obtain ⟨i1, o1⟩ := reach_inv h0 hs
  have P := polls_post i1 o1 hp
  exact ⟨P.frame.values, P.frame.woken⟩

/-- **C66**, no repetition: a poll directly after another one gives no value. -/
theorem C66_no_repeat {p : Net α β} {h : List (Act α β)} {w w' : Waker} {r r' : Poll (Option β)}
    {W0 W : Env α} {s0 s : p.St} (h0 : Start p W0 s0)
    (hs : Steps p (h ++ [.poll w r, .poll w' r']) W0 s0 W s) (b : β) : r' ≠ .ready (some b) := by
  obtain ⟨W1, s1, k1, W2, s2, k2, W3, s3, k3, rfl, rfl⟩ := steps_append.1 hs
  obtain ⟨i1, o1⟩ := reach_inv h0 k1
  have P := polls_post i1 o1 k2
  exact (polls_post P.inv P.frame.ok k3).quiet P.clean b

/-- What holds of a network that answered `Pending` to waker `w`, as long as nobody polls it. -/
theorem waiting {p : Net α β} {w : Waker} {h : List (Act α β)} {W W' : Env α} {s s' : p.St}
    {last : Option β} (hn : NoPoll h) (hi : Inv p W s last) (hok : Ok W) (ha : Armed w p W s)
    (hd : ¬ Dead p W s) (hs : Steps p h W s W' s') :
    (∃ m l, (W' m).woken = (W m).woken ++ l ∧ w ∈ l) ∨
      (Inv p W' s' last ∧ Ok W' ∧ Armed w p W' s' ∧ ¬ Dead p W' s') := by
  have grow : ∀ (h : List (Act α β)) (W W' : Env α) (s s' : p.St), NoPoll h → Ok W →
      Steps p h W s W' s' → ∀ m, ∃ l, (W' m).woken = (W m).woken ++ l := by
    intro h
    induction h with
    | nil => rintro W W' s s' - - ⟨rfl, rfl⟩ m; exact ⟨[], by simp⟩
    | cons a h ih =>
      intro W W' s s' hn hok hs m
      cases a with
      | poll w r => exact absurd (List.mem_cons_self) (hn w r)
      | env m1 e =>
        obtain ⟨-, o, x, k2, k3⟩ := hs
        obtain ⟨l, hl⟩ := ih _ _ _ _ (fun w r hm => hn w r (List.mem_cons_of_mem _ hm)) (ok_env hok k2) k3 m
        by_cases hm : m = m1
        · subst hm
          rw [put_same] at hl
          exact ⟨_, by rw [hl, ((hok m).choose_spec.step k2).2.2, List.append_assoc]⟩
        · rw [put_other W x hm] at hl
          exact ⟨l, hl⟩
  induction h generalizing W s with
  | nil =>
    obtain ⟨rfl, rfl⟩ := hs
    exact .inr ⟨hi, hok, ha, hd⟩
  | cons a h ih =>
    have hn' : NoPoll h := fun w r hm => hn w r (List.mem_cons_of_mem _ hm)
    cases a with
    | poll w r => exact absurd (List.mem_cons_self) (hn w r)
    | env m e =>
      obtain ⟨k1, o, x, k2, k3⟩ := hs
      have ok1 := ok_env hok k2
      rcases armed_env ha hi hok k1 k2 with ⟨l, hl, hw⟩ | hk
      · left
        obtain ⟨l', hl'⟩ := grow _ _ _ _ _ hn' ok1 k3 m
        rw [put_same, hl] at hl'
        exact ⟨m, l ++ l', by rw [hl', List.append_assoc], List.mem_append_left _ hw⟩
      · rcases ih hn' (inv_later (later_env hi hok k1 k2) hi) ok1 (armed_kin hk ha)
          (fun h => hd (dead_kin hk h)) k3 with ⟨m', l, hl, hw⟩ | h
        · left
          by_cases hm : m' = m
          · subst hm
            rw [put_same, ((hok m').choose_spec.step k2).2.2, List.append_assoc] at hl
            exact ⟨m', _, hl, List.mem_append_right _ hw⟩
          · rw [put_other W x hm] at hl
            exact ⟨m', l, hl, hw⟩
        · exact .inr h

/-- **C66**, no lost wakeup: after the network answered `Pending` to waker `w`, whatever is done with the
`Mutable`s, either `w` is woken, or the last value emitted is still the value of the expression for the
current values, and a poll would answer `Pending` again. -/
theorem C66_woken {p : Net α β} {h h' : List (Act α β)} {w : Waker} {W0 W W' : Env α} {s0 s s' : p.St}
    (h0 : Start p W0 s0) (hs : Steps p (h ++ [.poll w .pending]) W0 s0 W s) (hn : NoPoll h')
    (hs' : Steps p h' W s W' s') :
    (∃ m l, (W' m).woken = (W m).woken ++ l ∧ w ∈ l) ∨
      (lastValue h = some (p.den W'.values) ∧
        ∀ w' r W'' s'', p.Polls w' W' s' r W'' s'' → r = .pending) := by
  obtain ⟨W1, s1, k1, W2, s2, k2, rfl, rfl⟩ := steps_append.1 hs
  obtain ⟨i1, o1⟩ := reach_inv h0 k1
  have P := polls_post i1 o1 k2
  rcases waiting hn P.inv P.frame.ok (P.pend rfl) (P.alive rfl) hs' with h | ⟨h1, h2, h3, h4⟩
  · exact .inl h
  · refine .inr ⟨clean_den h1 (armed_clean h3), fun w' r W'' s'' hp => ?_⟩
    have Q := polls_post h1 h2 hp
    match r with
    | .pending => rfl
    | .ready (some b) => exact absurd rfl (Q.quiet (armed_clean h3) b)
    | .ready none => exact absurd (Q.back (armed_clean h3) (Q.ended rfl)) h4

theorem dead_steps {p : Net α β} {h : List (Act α β)} {W W' : Env α} {s s' : p.St} {last : Option β}
    (hi : Inv p W s last) (hok : Ok W) (hd : Dead p W s) (hs : Steps p h W s W' s') :
    Inv p W' s' last ∧ Dead p W' s' ∧ ∀ w r, .poll w r ∈ h → r = .ready none := by
  induction h generalizing W s with
  | nil =>
    obtain ⟨rfl, rfl⟩ := hs
    exact ⟨hi, hd, fun w r h => by cases h⟩
  | cons a h ih =>
    cases a with
    | env m e =>
      obtain ⟨k1, o, x, k2, k3⟩ := hs
      have hl := later_env hi hok k1 k2
      obtain ⟨j1, j2, j3⟩ := ih (inv_later hl hi) (ok_env hok k2) (dead_later hl hd) k3
      exact ⟨j1, j2, fun w r hm => j3 w r (by simpa using hm)⟩
    | poll w r =>
      obtain ⟨W1, s1, k1, k2⟩ := hs
      have P := polls_post hi hok k1
      have hr := P.dead hd
      subst hr
      obtain ⟨j1, j2, j3⟩ := ih P.inv P.frame.ok (P.ended rfl) k2
      refine ⟨j1, j2, fun w' r' hm => ?_⟩
      rcases List.mem_cons.1 hm with h | h
      · cases h; rfl
      · exact j3 w' r' h

/-- **C66**, the end is final: after the network reported its end, the value of the expression never
changes any more, whatever is done with the `Mutable`s, and every further poll reports the end. -/
theorem C66_end_final {p : Net α β} {h h' : List (Act α β)} {w : Waker} {W0 W W' : Env α} {s0 s s' : p.St}
    (h0 : Start p W0 s0) (hs : Steps p (h ++ [.poll w (.ready none)]) W0 s0 W s)
    (hs' : Steps p h' W s W' s') :
    lastValue h = some (p.den W'.values) ∧ ∀ w' r, .poll w' r ∈ h' → r = .ready none := by
  obtain ⟨W1, s1, k1, W2, s2, k2, rfl, rfl⟩ := steps_append.1 hs
  obtain ⟨i1, o1⟩ := reach_inv h0 k1
  have P := polls_post i1 o1 k2
  obtain ⟨j1, j2, j3⟩ := dead_steps P.inv P.frame.ok (P.ended rfl) hs'
  exact ⟨clean_den j1 (armed_clean (w := w) (dead_armed j2)), j3⟩

/-- **C66**, the end comes: when no `Mutable` has handles any more, a poll gives the last value, if it
was not emitted yet, or the end; the poll after it gives the end. -/
theorem C66_ends {p : Net α β} {h : List (Act α β)} {w w' : Waker} {r r' : Poll (Option β)}
    {W0 W W1 W2 : Env α} {s0 s s1 s2 : p.St} (h0 : Start p W0 s0) (hs : Steps p h W0 s0 W s)
    (hz : ∀ m, (W m).handles = 0) (hp : p.Polls w W s r W1 s1) (hp' : p.Polls w' W1 s1 r' W2 s2) :
    r ≠ .pending ∧ r' = .ready none := by
  obtain ⟨i1, o1⟩ := reach_inv h0 hs
  have hz' : ∀ m, (W m).senders = 0 := fun m => by
    obtain ⟨S, hS⟩ := o1 m
    rw [hS.senders, ← hS.handles]; exact hz m
  have P := polls_post i1 o1 hp
  have hd : Dead p W1 s1 := clean_dead (fun m => by rw [P.frame.senders]; exact hz' m) P.clean
  exact ⟨fun h => P.alive h hd, (polls_post P.inv P.frame.ok hp').dead hd⟩

/-- **C66**, no panic: every expression can be built, in every state of the `Mutable`s, and in every
state that a history can reach the network can be polled.  (In the model a poll that panics has no
answer.) -/
theorem C66_total {p : Net α β} (W0 : Env α) :
    (∃ s W, p.Makes W0 s W) ∧ ∀ {h : List (Act α β)} {W1 W : Env α} {s1 s : p.St} (w : Waker),
      Start p W1 s1 → Steps p h W1 s1 W s → ∃ r W' s', p.Polls w W s r W' s' := by
  refine ⟨makes_total p W0, fun w h0 hs => ?_⟩
  obtain ⟨i1, o1⟩ := reach_inv h0 hs
  exact polls_total i1 o1

/-! ## A concrete network -/

/-- A diamond: `map_ref!` of two signals of one `Mutable`, one of them mapped. -/
def diamond : Net Nat Nat :=
  .mapRef (n := 1) (fun i => if i = 0 then .source 0 else .map (· * 10) (.source 0)) List.sum

/-- A switch between the diamond and a constant, controlled by a second `Mutable`. -/
def chooser : Net Nat Nat := .switch (fun b => if b then diamond else .always 7) (.eq 0 (.source 1))

/-- A poll, for the example. -/
theorem demo_poll {p : Net α β} {W : Env α} {s : p.St} {last : Option β} (w : Waker) (hi : Inv p W s last)
    (hok : Ok W) : ∃ r W' s', p.Polls w W s r W' s' ∧ Inv p W' s' (some (p.den W.values)) ∧ Ok W' ∧
      Clean p W' s' ∧ W'.values = W.values ∧ (∀ m, (W' m).senders = (W m).senders) ∧
      (last ≠ some (p.den W.values) → r = .ready (some (p.den W.values))) ∧
      (Clean p W s → ∀ b, r ≠ .ready (some b)) ∧ (r = .ready none → Dead p W' s') := by
  obtain ⟨r, W', s', h⟩ := polls_total (w := w) hi hok
  have P := polls_post hi hok h
  have hv := clean_den P.inv P.clean
  rw [P.frame.values] at hv
  refine ⟨r, W', s', h, hv ▸ P.inv, P.frame.ok, P.clean, P.frame.values, P.frame.senders, fun hne => ?_,
    P.quiet, P.ended⟩
  match r with
  | .ready (some b) => cases hv; rfl
  | .ready none => exact absurd hv hne
  | .pending => exact absurd hv hne

/-- A write, for the example. -/
theorem demo_set {p : Net α β} {W : Env α} {s : p.St} {last : Option β} (m : Nat) (a : α)
    (hi : Inv p W s last) (hok : Ok W) (hs : (W m).senders ≠ 0) :
    ∃ x, Foreign p s m (.set a) ∧ (W m).step (.set a) = some (.unit, x) ∧ Inv p (W.put m x) s last ∧
      Ok (W.put m x) ∧ (W.put m x).values = (fun k => if k = m then a else W.values k) ∧
      ∀ k, (W.put m x k).senders = (W k).senders := by
  obtain ⟨S, hS⟩ := hok m
  have hh : (W m).handles ≠ 0 := by rw [hS.handles, ← hS.senders]; exact hs
  have hf : Foreign p s m (.set a) := ⟨fun i w h => (by cases h), fun i h => (by cases h)⟩
  have k : (W m).step (.set a) = some (.unit, (W m).set a) := by simp [Mut.World.step, hh]
  obtain ⟨k1, -, -⟩ := hS.step k
  refine ⟨_, hf, k, inv_later (later_env hi hok hf k) hi, ok_env hok k, funext fun j => ?_, fun j => ?_⟩
  · by_cases hj : j = m
    · subst hj; simp only [Env.values, put_same, ↓reduceIte]; rw [k1.value]; rfl
    · simp only [Env.values, put_other W _ hj, hj, ↓reduceIte]
  · by_cases hj : j = m
    · subst hj; rw [put_same, k1.senders, hS.senders]; rfl
    · rw [put_other W _ hj]

theorem chooser_den (v : Nat → Nat) : chooser.den v = if v 1 = 0 then v 0 + v 0 * 10 else 7 := by
  simp only [chooser, Net.den]
  by_cases h : v 1 = 0
  · simp [h, diamond, Net.den, List.ofFn_succ]
  · simp [h, Net.den]

/-- A history that meets the hypotheses of the theorems: the diamond shows `11`, and after its `Mutable`
was set to `2` it shows `22` at once, not `12` or `21`; then the second `Mutable` switches to the
constant. -/
example : ∃ (W0 W : Env Nat) (s0 s : chooser.St), Start chooser W0 s0 ∧
    Steps chooser [.poll 0 (.ready (some 11)), .poll 0 .pending, .env 0 (.set 2),
      .poll 0 (.ready (some 22)), .env 1 (.set 3), .poll 0 (.ready (some 7)), .poll 0 .pending]
      W0 s0 W s := by
  let V : Env Nat := fun m => Mut.World.new (if m = 0 then 1 else 0)
  obtain ⟨s0, W0, h0⟩ := makes_total chooser V
  have hok : Ok V := fun m => ⟨_, Mut.sim_new _⟩
  have st : Start chooser W0 s0 := ⟨V, fun m => ⟨_, [], [], rfl⟩, h0⟩
  obtain ⟨f0, i0, -⟩ := makes_ok h0 hok
  have v0 : W0.values = fun m => if m = 0 then 1 else 0 := f0.values
  have n0 : ∀ m, (W0 m).senders = 1 := f0.senders
  have alive : ∀ {W : Env Nat} {s : chooser.St}, (∀ m, (W m).senders = 1) → ¬ Dead chooser W s := by
    intro W s hn hd
    have := hd.1.1
    rw [hn 1] at this
    cases this
  have pend : ∀ {r : Poll (Option Nat)} {W : Env Nat} {s : chooser.St}, (∀ m, (W m).senders = 1) →
      (∀ b, r ≠ .ready (some b)) → (r = .ready none → Dead chooser W s) → r = .pending := by
    intro r W s hn h1 h2
    match r with
    | .pending => rfl
    | .ready none => exact absurd (h2 rfl) (alive hn)
    | .ready (some b) => exact absurd rfl (h1 b)
  obtain ⟨r1, W1, s1, p1, i1, o1, c1, v1, n1, a1, -, -⟩ := demo_poll 0 i0 f0.ok
  obtain ⟨r2, W2, s2, p2, i2, o2, c2, v2, n2, -, q2, d2⟩ := demo_poll 0 i1 o1
  obtain ⟨x3, g3, e3, i3, o3, v3, n3⟩ := demo_set 0 2 i2 o2 (by rw [n2, n1, n0]; simp)
  obtain ⟨r4, W4, s4, p4, i4, o4, c4, v4, n4, a4, -, -⟩ := demo_poll 0 i3 o3
  obtain ⟨x5, g5, e5, i5, o5, v5, n5⟩ := demo_set 1 3 i4 o4 (by rw [n4, n3, n2, n1, n0]; simp)
  obtain ⟨r6, W6, s6, p6, i6, o6, c6, v6, n6, a6, -, -⟩ := demo_poll 0 i5 o5
  obtain ⟨r7, W7, s7, p7, i7, o7, c7, v7, n7, -, q7, d7⟩ := demo_poll 0 i6 o6
  have e1 : chooser.den W0.values = 11 := by rw [chooser_den, v0]; rfl
  have e2 : chooser.den W1.values = 11 := by rw [v1, e1]
  have e4 : chooser.den (W2.put 0 x3).values = 22 := by rw [chooser_den, v3, v2, v1, v0]; rfl
  have e6 : chooser.den (W4.put 1 x5).values = 7 := by rw [chooser_den, v5, v4, v3, v2, v1, v0]; rfl
  have r1' := a1 (by simp)
  rw [e1] at r1'
  have r2' := pend (fun m => by rw [n2, n1, n0]) (q2 c1) d2
  have r4' := a4 (by rw [e4, e2]; simp)
  rw [e4] at r4'
  have r6' := a6 (by rw [e6, e4]; simp)
  rw [e6] at r6'
  have r7' := pend (fun m => by rw [n7, n6, n5, n4, n3, n2, n1, n0]) (q7 c6) d7
  subst r1' r2' r4' r6' r7'
  exact ⟨W0, W7, s0, s7, st, W1, s1, p1, W2, s2, p2, g3, _, x3, e3, W4, s4, p4, g5, _, x5, e5,
    W6, s6, p6, W7, s7, p7, rfl, rfl⟩

/-- The end is reached: after all handles are dropped. -/
example : ∃ (W0 W : Env Nat) (s0 s : (Net.source 0 : Net Nat Nat).St), Start (.source 0) W0 s0 ∧
    Steps (.source 0) [.poll 0 (.ready (some 5)), .poll 0 .pending, .env 0 (.set 6), .env 0 .drop,
      .poll 0 (.ready (some 6)), .poll 0 (.ready none)] W0 s0 W s ∧ (W 0).woken = [0] := by
  let V : Env Nat := fun _ => Mut.World.new 5
  refine ⟨V.put 0 (V 0).signalState, _, (0 : Nat), (0 : Nat), ⟨V, fun m => ⟨5, [], [], rfl⟩, rfl, rfl⟩,
    ⟨_, (0 : Nat), ⟨rfl, rfl, rfl⟩, _, (0 : Nat), ⟨rfl, rfl, rfl⟩, ⟨by simp, by simp⟩, _, _, rfl,
      ⟨by simp, by simp⟩, _, _, rfl, _, (0 : Nat), ⟨rfl, rfl, rfl⟩, _, (0 : Nat), ⟨rfl, rfl, rfl⟩, rfl, rfl⟩,
    rfl⟩

end Verif.Net
