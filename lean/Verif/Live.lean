import Verif.LiveSpec
import Verif.SignalA
import Verif.Lemmas

/-!
# Rules for proving that the end is reported (C64)
-/

namespace Verif

variable {α β σ ρ : Type}

theorem range_map_succ {γ : Type} (w : Nat → γ) (n : Nat) :
    (List.range (n + 1)).map w = w 0 :: (List.range n).map (fun i => w (i + 1)) := by
  rw [List.range_succ_eq_map]
  simp [Function.comp_def]

/-- A quantity that decreases with every poll that does not report the end. -/
theorem ends_of_wf {poll : Waker → σ → Option (Poll (Option β) × σ)} {R : σ → σ → Prop}
    (wf : WellFounded R) (I : σ → Prop)
    (step : ∀ w s r s', I s → poll w s = some (r, s') → r = .ready none ∨ I s' ∧ R s' s)
    (s0 : σ) (h0 : I s0) : EndsSoon poll s0 := by
  induction s0 using wf.induction with
  | h s ih =>
    intro w
    cases hp : poll (w 0) s with
    | none =>
      refine ⟨1, fun outs t h => ?_⟩
      simp [run, hp] at h
    | some q =>
      obtain ⟨r, s'⟩ := q
      rcases step _ _ _ _ h0 hp with rfl | ⟨h1, h2⟩
      · refine ⟨1, fun outs t h => ?_⟩
        simp only [List.range_one, List.map_cons, List.map_nil, run, hp] at h
        cases h
        simp
      · obtain ⟨n, hn⟩ := ih s' h2 h1 (fun i => w (i + 1))
        refine ⟨n + 1, fun outs t h => ?_⟩
        rw [range_map_succ] at h
        simp only [run, hp] at h
        have key : ∀ q, run poll ((List.range n).map fun i => w (i + 1)) s' = some q →
            .ready none ∈ q.1 := fun q hq => hn q.1 q.2 hq
        cases r with
        | pending =>
          simp only at h
          split at h
          · cases h
          · rename_i heq
            cases h
            exact List.mem_cons_of_mem _ (key _ heq)
        | ready x => cases x with
          | none => cases h; simp
          | some b =>
            simp only at h
            split at h
            · cases h
            · rename_i heq
              cases h
              exact List.mem_cons_of_mem _ (key _ heq)

/-- Lexicographic order of three numbers. -/
def Lex3 (a b c : σ → Nat) (s' s : σ) : Prop :=
  a s' < a s ∨ a s' = a s ∧ (b s' < b s ∨ b s' = b s ∧ c s' < c s)

theorem lex3_wf (a b c : σ → Nat) : WellFounded (Lex3 a b c) := by
  have wf := InvImage.wf (fun s => (a s, b s, c s))
    (Prod.lex Nat.lt_wfRel (Prod.lex Nat.lt_wfRel Nat.lt_wfRel)).wf
  refine Subrelation.wf (fun {x y} h => ?_) wf
  rcases h with h | ⟨h, h' | ⟨h', h''⟩⟩
  · exact .left _ _ h
  · show Prod.Lex _ _ (a x, b x, c x) (a y, b y, c y)
    rw [h]
    exact .right _ (.left _ _ h')
  · show Prod.Lex _ _ (a x, b x, c x) (a y, b y, c y)
    rw [h, h']
    exact .right _ (.right _ h'')

theorem ends_lex {poll : Waker → σ → Option (Poll (Option β) × σ)} (a b c : σ → Nat)
    (I : σ → Prop)
    (step : ∀ w s r s', I s → poll w s = some (r, s') → r = .ready none ∨ I s' ∧ Lex3 a b c s' s)
    (s0 : σ) (h0 : I s0) : EndsSoon poll s0 := ends_of_wf (lex3_wf a b c) I step s0 h0

/-! ## Inputs -/

/-- The script still contains the end and got shorter. -/
def Eats (src src' : Src (Option α)) : Prop :=
  .ready none ∈ src.todo → .ready none ∈ src'.todo ∧ src'.todo.length < src.todo.length

theorem Src.poll_mem {src src' : Src ρ} {w : Waker} {r x : Poll ρ} (e : src.poll w = (r, src'))
    (h : x ∈ src.todo) : src'.todo.length < src.todo.length ∧ (r ≠ x → x ∈ src'.todo) := by
  obtain ⟨t, hi⟩ := src
  cases t with
  | nil => simp at h
  | cons y t =>
    simp only [Src.poll] at e
    cases e
    refine ⟨by simp, fun hne => ?_⟩
    rcases List.mem_cons.1 h with rfl | h
    · exact absurd rfl hne
    · exact h

theorem Src.poll_eats {src src' : Src (Option α)} {w : Waker} {r : Poll (Option α)}
    (e : src.poll w = (r, src')) : r = .ready none ∨ Eats src src' := by
  by_cases hr : r = .ready none
  · exact .inl hr
  · exact .inr fun h => ⟨(Src.poll_mem e h).2 hr, (Src.poll_mem e h).1⟩

theorem Src.loop_due {src src' : Src (Option α)} {w : Waker} {body : σ → α → Ctl σ ρ} {s s' : σ}
    {st : Stop ρ} (e : src.loop w body s = (st, s', src')) (h : .ready none ∈ src.todo) :
    src'.todo.length < src.todo.length ∧ (st ≠ .ended → .ready none ∈ src'.todo) := by
  obtain ⟨t, hi⟩ := src
  simp only [Src.loop] at e
  simp only at h ⊢
  induction t generalizing s hi with
  | nil => simp at h
  | cons y t ih =>
    cases y with
    | pending =>
      simp only [pollLoop] at e
      cases e
      exact ⟨by simp, fun _ => by simpa using h⟩
    | ready x =>
      cases x with
      | none =>
        simp only [pollLoop] at e
        cases e
        exact ⟨by simp, fun hne => absurd rfl hne⟩
      | some a =>
        have h' : Poll.ready none ∈ t := by simpa using h
        simp only [pollLoop] at e
        cases hb : body s a with
        | cont s1 =>
          rw [hb] at e
          have := ih _ e h'
          exact ⟨Nat.lt_succ_of_lt this.1, this.2⟩
        | ret s1 r =>
          rw [hb] at e
          cases e
          exact ⟨by simp, fun _ => h'⟩
        | panic =>
          rw [hb] at e
          cases e
          exact ⟨by simp, fun _ => h'⟩

theorem Src.loop_eats {src src' : Src (Option α)} {w : Waker} {body : σ → α → Ctl σ ρ} {s s' : σ}
    {st : Stop ρ} (e : src.loop w body s = (st, s', src')) : st = .ended ∨ Eats src src' := by
  by_cases hr : st = .ended
  · exact .inl hr
  · exact .inr fun h => ⟨(Src.loop_due e h).2 hr, (Src.loop_due e h).1⟩

/-- Rule for a combinator that polls one input in every poll and reports the end as soon as the
input does. -/
theorem ends_src {poll : Waker → σ → Option (Poll (Option β) × σ)} (src : σ → Src (Option α))
    (step : ∀ w s r s', poll w s = some (r, s') → r = .ready none ∨ Eats (src s) (src s'))
    (s0 : σ) (h0 : Finite (src s0).todo) : EndsSoon poll s0 :=
  ends_of_wf (measure fun s => (src s).todo.length).wf (fun s => .ready none ∈ (src s).todo)
    (fun w s r s' hi hp => (step w s r s' hp).imp id fun h => h hi) s0 h0

/-- An optional input is going to end. -/
def Inp.Due (i : Inp (Option α)) : Prop := i.alive = true → .ready none ∈ i.src.todo

/-- What is left of the script of an optional input. -/
def Inp.left (i : Inp (Option α)) : Nat := if i.alive then i.src.todo.length else 0

theorem Inp.due_mk' {script : List (Poll (Option α))} (h : Finite script) : (Inp.mk' script).Due :=
  fun _ => h

theorem Inp.Due.pos {i : Inp (Option α)} (h : i.Due) (ha : i.alive = true) : 0 < i.left := by
  simp only [Inp.left, ha, if_true]
  exact List.length_pos_of_mem (h ha)

theorem Inp.poll_due {i i' : Inp (Option α)} {w : Waker} {r : Option (Poll (Option α))}
    (e : i.poll w = (r, i')) (h : i.Due) :
    i'.Due ∧ (i'.left < i.left ∧ r ≠ none ∧ (r = some (.ready none) ↔ i'.alive = false) ∨
      i' = i ∧ r = none ∧ i.alive = false) := by
  unfold Inp.poll at e
  by_cases ha : i.alive = true
  · have h1 := h ha
    simp only [ha, if_true] at e
    obtain ⟨q, src, hq⟩ : ∃ q src, i.src.poll w = (q, src) := ⟨_, _, rfl⟩
    have h2 := Src.poll_mem hq h1
    rw [hq] at e
    have hpos := h.pos ha
    cases q with
    | pending =>
      cases e
      exact ⟨fun _ => h2.2 (by simp), .inl ⟨by simpa [Inp.left, ha] using h2.1, by simp⟩⟩
    | ready x =>
      cases x with
      | none =>
        cases e
        exact ⟨fun hh => by simp at hh, .inl ⟨by simpa [Inp.left] using hpos, by simp⟩⟩
      | some a =>
        cases e
        exact ⟨fun _ => h2.2 (by simp), .inl ⟨by simpa [Inp.left, ha] using h2.1, by simp⟩⟩
  · have ha' : i.alive = false := by simpa using ha
    simp only [ha', Bool.false_eq_true, ↓reduceIte] at e
    cases e
    exact ⟨h, .inr ⟨rfl, rfl, ha'⟩⟩

theorem Inp.loop_due {i i' : Inp (Option α)} {w : Waker} {body : σ → α → Ctl σ ρ} {s s' : σ}
    {st : Stop ρ} (e : i.loop w body s = (st, s', i')) (h : i.Due) :
    i'.Due ∧ (i'.left < i.left ∨ i' = i ∧ s' = s ∧ st = .ended) := by
  unfold Inp.loop at e
  by_cases ha : i.alive = true
  · have h1 := h ha
    simp only [ha, if_true] at e
    obtain ⟨q, t, src, hq⟩ : ∃ q t src, i.src.loop w body s = (q, t, src) := ⟨_, _, _, rfl⟩
    have h2 := Src.loop_due hq h1
    rw [hq] at e
    have hpos := h.pos ha
    cases q with
    | ended =>
      cases e
      exact ⟨fun hh => by simp at hh, .inl (by simpa [Inp.left] using hpos)⟩
    | pending =>
      cases e
      exact ⟨fun _ => h2.2 (by simp), .inl (by simpa [Inp.left, ha] using h2.1)⟩
    | ret _ =>
      cases e
      exact ⟨fun _ => h2.2 (by simp), .inl (by simpa [Inp.left, ha] using h2.1)⟩
    | panic =>
      cases e
      exact ⟨fun _ => h2.2 (by simp), .inl (by simpa [Inp.left, ha] using h2.1)⟩
  · have ha' : i.alive = false := by simpa using ha
    simp only [ha', Bool.false_eq_true, ↓reduceIte] at e
    cases e
    exact ⟨h, .inr ⟨rfl, rfl, rfl⟩⟩

/-- An invariant of the loop variables. -/
theorem Inp.loop_inv {i i' : Inp (Option α)} {w : Waker} {body : σ → α → Ctl σ ρ} {s s' : σ}
    {st : Stop ρ} (e : i.loop w body s = (st, s', i')) (P : σ → Prop)
    (hcont : ∀ s a s', P s → body s a = .cont s' → P s')
    (hret : ∀ s a s' r, P s → body s a = .ret s' r → P s') (h0 : P s) : P s' := by
  have key := pollLoop_rule (w := w) (body := body) (fun s _ => P s) (fun _ s' _ => P s')
    (fun s a _ _ s' hp hb => hcont s a s' hp hb) (fun s a _ _ s' r hp hb => hret s a s' r hp hb)
    (fun _ _ _ _ hp _ => hp) (fun _ _ _ hp => hp) (fun _ _ _ _ hp _ => hp) i.src s h0
  unfold Inp.loop at e
  by_cases ha : i.alive = true
  · simp only [ha, ↓reduceIte] at e
    obtain ⟨st1, s1, src1, e1⟩ : ∃ a b c, i.src.loop w body s = (a, b, c) := ⟨_, _, _, rfl⟩
    rw [e1] at key e
    cases st1 <;> (cases e; exact key)
  · have ha' : i.alive = false := by simpa using ha
    simp only [ha', Bool.false_eq_true, ↓reduceIte] at e
    cases e
    exact h0

end Verif
