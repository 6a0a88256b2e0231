import Verif.Run

/-!
# Behaviour towards the input: wakers, polling after the end, reporting the end

`Polite` states, for a combinator with one input, the three cross-cutting properties C57–C59.
-/

namespace Verif

variable {α β σ ρ : Type}

/-- For a combinator started in `s0` and polled with any wakers, for as long as it does not panic:
* its input is never polled again after it reported its end (C58);
* it reports its own end only after its input did (C59);
* if its last answer is `Pending`, then the input's last answer was `Pending` too, and was given
  to a poll with the waker of the combinator's last poll (C57). -/
def Polite (poll : Waker → σ → Option (Poll (Option β) × σ)) (src : σ → Src (Option α))
    (s0 : σ) : Prop :=
  ∀ ws outs s, run poll ws s0 = some (outs, s) →
    (src s).fused ∧
    (.ready none ∈ outs → (src s).ended) ∧
    (∀ w, ws.getLast? = some w → outs.getLast? = some .pending → (src s).armed w)

/-- `armed` excludes `ended` if the input is used correctly. -/
theorem Src.armed.not_ended {s : Src (Option α)} {w : Waker} (h : s.armed w) (hf : s.fused) :
    ¬ s.ended := by
  rintro ⟨w', hm⟩
  obtain ⟨pre, post, heq⟩ := List.append_of_mem hm
  have := hf pre w' post heq
  subst this
  unfold Src.armed at h
  rw [heq] at h
  simp at h

/-- Every run ends with a poll in a state satisfying the invariant `Live`. -/
theorem run_last {poll : Waker → σ → Option (Poll (Option β) × σ)} (Live : σ → Prop)
    (hstep : ∀ w s r s', Live s → poll w s = some (r, s') → r ≠ .ready none → Live s')
    {ws : List Waker} {s0 : σ} {outs : List (Poll (Option β))} {s : σ}
    (h : run poll ws s0 = some (outs, s)) (h0 : Live s0) :
    (outs = [] ∧ s = s0) ∨ ∃ w s1 r, Live s1 ∧ poll w s1 = some (r, s) ∧
      outs.getLast? = some r ∧ (r ≠ .ready none → ws.getLast? = some w) ∧
      (.ready none ∈ outs → r = .ready none) := by
  induction ws generalizing s0 outs with
  | nil => cases h; exact .inl ⟨rfl, rfl⟩
  | cons w ws ih =>
    right
    simp only [run] at h
    cases hp : poll w s0 with
    | none => simp [hp] at h
    | some rs =>
      obtain ⟨r, s'⟩ := rs
      rw [hp] at h
      have key : r ≠ .ready none → ∀ rest, run poll ws s' = some (rest, s) → outs = r :: rest →
          ∃ w1 s1 r1, Live s1 ∧ poll w1 s1 = some (r1, s) ∧
            outs.getLast? = some r1 ∧ (r1 ≠ .ready none → (w :: ws).getLast? = some w1) ∧
            (.ready none ∈ outs → r1 = .ready none) := by
        intro hr rest hrun hout
        have hl := hstep w s0 r s' h0 hp hr
        rcases ih hrun hl with ⟨h1, h2⟩ | ⟨w1, s1, r1, g1, g2, g3, g4, g5⟩
        · subst h1 h2 hout
          refine ⟨w, s0, r, h0, hp, rfl, fun _ => ?_, by simp; exact Eq.symm⟩
          cases ws with
          | nil => rfl
          | cons w' ws' =>
            simp only [run] at hrun
            cases hq : poll w' s with
            | none => simp [hq] at hrun
            | some q =>
              obtain ⟨q, s2⟩ := q
              rw [hq] at hrun
              match q with
              | .ready none => simp at hrun
              | .ready (some b) =>
                simp only at hrun; split at hrun <;> simp at hrun
              | .pending => simp only at hrun; split at hrun <;> simp at hrun
        · subst hout
          refine ⟨w1, s1, r1, g1, g2, ?_, fun hr1 => ?_, fun hm => ?_⟩
          · rw [List.getLast?_cons, g3]; rfl
          · rw [List.getLast?_cons, g4 hr1]; rfl
          · rcases List.mem_cons.1 hm with hm | hm
            · exact absurd hm.symm hr
            · exact g5 hm
      cases r with
      | ready x =>
        cases x with
        | none =>
          simp only [Option.some.injEq, Prod.mk.injEq] at h
          obtain ⟨rfl, rfl⟩ := h
          exact ⟨w, s0, _, h0, hp, rfl, fun h => absurd rfl h, fun _ => rfl⟩
        | some b =>
          simp only at h
          cases hrun : run poll ws s' with
          | none => simp [hrun] at h
          | some q =>
            rw [hrun] at h
            obtain ⟨rest, s2⟩ := q
            cases h
            exact key (by simp) _ hrun rfl
      | pending =>
        simp only at h
        cases hrun : run poll ws s' with
        | none => simp [hrun] at h
        | some q =>
          rw [hrun] at h
          obtain ⟨rest, s2⟩ := q
          cases h
          exact key (by simp) _ hrun rfl

/-- `Polite` follows from a condition on single polls. -/
theorem polite_of_step {poll : Waker → σ → Option (Poll (Option β) × σ)}
    {src : σ → Src (Option α)} (Live : σ → Prop)
    (hfused : ∀ s, Live s → (src s).fused)
    (hstep : ∀ w s r s', Live s → poll w s = some (r, s') →
      match r with
      | .ready (some _) => Live s'
      | .ready none => (src s').fused ∧ (src s').ended
      | .pending => Live s' ∧ (src s').armed w)
    (s0 : σ) (h0 : Live s0) : Polite poll src s0 := by
  intro ws outs s h
  rcases run_last Live (fun w s r s' hl hp hr => by
    have := hstep w s r s' hl hp
    match r with
    | .ready (some _) => exact this
    | .ready none => exact absurd rfl hr
    | .pending => exact this.1) h h0 with ⟨rfl, rfl⟩ | ⟨w, s1, r, g1, g2, g3, g4, g5⟩
  · exact ⟨hfused _ h0, by simp, by simp⟩
  · have := hstep w s1 r s g1 g2
    match r with
    | .ready (some b) =>
      exact ⟨hfused _ this, fun hm => by simpa using g5 hm, fun w' _ hp => by rw [g3] at hp; simp at hp⟩
    | .ready none =>
      exact ⟨this.1, fun _ => this.2, fun w' _ hp => by rw [g3] at hp; simp at hp⟩
    | .pending =>
      refine ⟨hfused _ this.1, fun hm => by simpa using g5 hm, fun w' hw' hp => ?_⟩
      have := g4 (by simp)
      rw [hw'] at this
      cases this
      exact ‹Live s ∧ _›.2

/-- What any loop over an input does to the input. -/
theorem Src.loop_any (w : Waker) (body : σ → α → Ctl σ ρ) (src : Src (Option α)) (s : σ)
    (hne : ¬ src.ended) :
    ∃ st s' src', src.loop w body s = (st, s', src') ∧ src'.fused ∧
      (src'.ended ↔ st = .ended) ∧ (st = .pending → src'.armed w) := by
  refine ⟨_, _, _, rfl, ?_⟩
  refine pollLoop_rule (w := w) (body := body) (fun _ src => ¬ src.ended)
    (fun st _ src' => src'.fused ∧ (src'.ended ↔ st = .ended) ∧ (st = .pending → src'.armed w))
    ?_ ?_ ?_ ?_ ?_ src s hne
  · intro s a t h s' h1 _; exact not_ended_snoc h1 (by simp)
  · intro s a t h s' r h1 _
    exact ⟨fused_snoc h1, by simpa using not_ended_snoc h1 (by simp), by simp⟩
  · intro s a t h h1 _
    exact ⟨fused_snoc h1, by simpa using not_ended_snoc h1 (by simp), by simp⟩
  · intro s t h h1
    exact ⟨fused_snoc h1, by simpa using ended_snoc _ _ _, by simp⟩
  · intro s t t' h h1 _
    exact ⟨fused_snoc h1, by simpa using not_ended_snoc h1 (by simp), fun _ => armed_snoc _ _ _⟩

theorem Inp.loop_any (w : Waker) (body : σ → α → Ctl σ ρ) (i : Inp (Option α)) (s : σ)
    (hok : i.Ok) :
    ∃ st s' i', i.loop w body s = (st, s', i') ∧ i'.Ok ∧
      (i'.alive = false ↔ st = .ended) ∧ (st = .pending → i'.src.armed w) := by
  unfold Inp.loop
  by_cases ha : i.alive = true
  · simp only [ha, ↓reduceIte]
    obtain ⟨st, s', src', h1, h2, h3, h4⟩ := Src.loop_any w body i.src s (hok.alive ha)
    rw [h1]
    cases st with
    | ended => exact ⟨_, _, _, rfl, ⟨h2, by simpa using h3⟩, by simp, by simp⟩
    | pending => exact ⟨_, _, _, rfl, ⟨h2, by simpa using h3⟩, by simp, h4⟩
    | ret r => exact ⟨_, _, _, rfl, ⟨h2, by simpa using h3⟩, by simp, by simp⟩
    | panic => exact ⟨_, _, _, rfl, ⟨h2, by simpa using h3⟩, by simp, by simp⟩
  · have ha' : i.alive = false := by simpa using ha
    simp only [ha', Bool.false_eq_true, ↓reduceIte]
    exact ⟨_, _, _, rfl, hok, by simp [ha'], by simp⟩

/-- `Inp.loop_any` with an invariant of the loop variables. -/
theorem Inp.loop_any_inv (w : Waker) (body : σ → α → Ctl σ ρ) (P : σ → Prop) (Q : ρ → σ → Prop)
    (hcont : ∀ s a s', P s → body s a = .cont s' → P s')
    (hret : ∀ s a s' r, P s → body s a = .ret s' r → Q r s')
    (i : Inp (Option α)) (s : σ) (hok : i.Ok) (h0 : P s) :
    ∃ st s' i', i.loop w body s = (st, s', i') ∧ i'.Ok ∧
      (i'.alive = false ↔ st = .ended) ∧ (st = .pending → i'.src.armed w) ∧
      (match st with
        | .ret r => Q r s'
        | .panic => True
        | .ended => P s'
        | .pending => P s') := by
  obtain ⟨st, s', i', h1, h2, h3, h4⟩ := Inp.loop_any w body i s hok
  refine ⟨st, s', i', h1, h2, h3, h4, ?_⟩
  have key := pollLoop_rule (w := w) (body := body) (fun s _ => P s)
    (fun st s' _ => match st with
        | .ret r => Q r s'
        | .panic => True
        | .ended => P s'
        | .pending => P s')
    (fun s a _ _ s' hp hb => hcont s a s' hp hb) (fun s a _ _ s' r hp hb => hret s a s' r hp hb)
    (fun _ _ _ _ _ _ => trivial) (fun _ _ _ hp => hp) (fun _ _ _ _ hp _ => hp) i.src s h0
  unfold Inp.loop at h1
  by_cases ha : i.alive = true
  · simp only [ha, ↓reduceIte] at h1
    obtain ⟨st1, s1, src1, e⟩ : ∃ a b c, i.src.loop w body s = (a, b, c) := ⟨_, _, _, rfl⟩
    rw [e] at key h1
    cases st1 <;> (cases h1; exact key)
  · have ha' : i.alive = false := by simpa using ha
    simp only [ha', Bool.false_eq_true, ↓reduceIte] at h1
    cases h1
    exact h0

/-- What is known after a poll: `Live` always; in addition `Idle` after `Pending` and `Done` after
the end. -/
def Outcome (Live Idle Done : σ → Prop) : Poll (Option β) → σ → Prop
  | .ready (some _), s => Live s
  | .ready none, s => Live s ∧ Done s
  | .pending, s => Live s ∧ Idle s

/-- A rule for runs that may panic, with the waker of the last poll. -/
theorem any_run {poll : Waker → σ → Option (Poll (Option β) × σ)}
    (Live : σ → Prop) (Idle : Waker → σ → Prop) (Done : σ → Prop)
    (hstep : ∀ w s r s', Live s → poll w s = some (r, s') → Outcome Live (Idle w) Done r s')
    {ws : List Waker} {s0 : σ} (h0 : Live s0) {outs : List (Poll (Option β))} {s : σ}
    (h : run poll ws s0 = some (outs, s)) :
    Live s ∧ (.ready none ∈ outs → Done s) ∧
      (∀ w, ws.getLast? = some w → outs.getLast? = some .pending → Idle w s) := by
  rcases run_last Live (fun w s r s' hl hp hr => by
    have := hstep w s r s' hl hp
    match r with
    | .ready (some _) => exact this
    | .ready none => exact absurd rfl hr
    | .pending => exact this.1) h h0 with ⟨rfl, rfl⟩ | ⟨w, s1, r, g1, g2, g3, g4, g5⟩
  · exact ⟨h0, by simp, by simp⟩
  · have := hstep w s1 r s g1 g2
    match r with
    | .ready (some b) =>
      exact ⟨this, fun hm => by simpa using g5 hm, fun w' _ hp => by rw [g3] at hp; simp at hp⟩
    | .ready none =>
      exact ⟨this.1, fun _ => this.2, fun w' _ hp => by rw [g3] at hp; simp at hp⟩
    | .pending =>
      refine ⟨this.1, fun hm => by simpa using g5 hm, fun w' hw' hp => ?_⟩
      have := g4 (by simp)
      rw [hw'] at this
      cases this
      exact ‹Live s ∧ _›.2

end Verif
