import Verif.Props.SameVec
import Verif.Props.Expr

/-!
# C101, continued: which expressions are not polled after their end, two filters, examples
-/

namespace Verif

open Expr

variable {α β γ δ : Type}

theorem fused_of_run {M : Type} {poll : Waker → M → Option (Poll (Option β) × M)} {m m' : M}
    {t : List (Waker × Poll (Option β))} (h : run poll (t.map (·.1)) m = some (t.map (·.2), m')) :
    ∀ t1 w t2, t = t1 ++ (w, .ready none) :: t2 → t2 = [] := by
  intro t1 w t2 ht
  refine List.map_eq_nil_iff.1 (run_stops _ _ _ _ h (t1.map (·.2)) (t2.map (·.2)) ?_)
  rw [ht]
  simp

theorem fused_bare {v : Trace (β × Nat)} (h : ∀ t1 w t2, v = t1 ++ (w, .ready none) :: t2 → t2 = []) :
    ∀ t1 w t2, Trace.bare v = t1 ++ (w, .ready none) :: t2 → t2 = [] := by
  intro t1 w t2 ht
  obtain ⟨v1, v2, rfl, h1, h2⟩ := List.map_eq_append_iff.1 ht
  obtain ⟨q, v3, rfl, h3, rfl⟩ := List.map_eq_cons_iff.1 h2
  rcases q with ⟨x, (_ | d) | _⟩ <;> cases h3
  rw [h v1 x v3 rfl]
  rfl

/-- The expression is not just a source, or a subscriber of a `Broadcaster`: there is a combinator at its top. -/
def Expr.Built : {τ : Ty} → Expr τ → Prop
  | _, .source _ => False
  | _, .broadcast _ _ => False
  | _, .pipe (.source _) _ => False
  | _, _ => True

/-- **C101** (not polled after the end).  An expression with a combinator at its top is not polled after its end (by the
combinators around it), so the laws that require this apply to it. -/
theorem C101_fused {τ : Ty} (e : Expr τ) (he : e.Built) : e.Fused := by
  intro l t W h
  cases e with
  | source s => exact absurd he (by simp [Expr.Built])
  | broadcast f e => exact absurd he (by simp [Expr.Built])
  | pipe p e =>
    obtain ⟨u, -, h⟩ := h
    cases p with
    | source i => exact absurd he (by simp [Expr.Built])
    | chain p q =>
      obtain ⟨u, v, -, -, s, h, -⟩ := h
      exact fused_of_run h
    | _ =>
      obtain ⟨u, -, s, h, -⟩ := h
      exact fused_of_run h
  | sink k e =>
    obtain ⟨u, -, h⟩ := h
    cases k <;> (obtain ⟨s, h, -⟩ := h; exact fused_of_run h)
  | mapRef f es =>
    obtain ⟨us, Ws, -, -, s, h, -⟩ := h
    exact fused_of_run h
  | and e e' =>
    obtain ⟨u, u', W1, W2, -, -, -, s, h, -⟩ := h
    exact fused_of_run h
  | or e e' =>
    obtain ⟨u, u', W1, W2, -, -, -, s, h, -⟩ := h
    exact fused_of_run h
  | chain e e' =>
    obtain ⟨u, u', W1, W2, -, -, -, s, h, -⟩ := h
    exact fused_of_run h
  | throttle futs e =>
    obtain ⟨u, We, i, -, s, h, -⟩ := h
    exact fused_of_run h
  | mapFuture futs held e =>
    obtain ⟨u, We, -, s, h, -⟩ := h
    exact fused_of_run h
  | delayRemove futs e =>
    obtain ⟨u, v, We, -, rfl, s, h, -⟩ := h
    exact fused_bare (fused_of_run h)
  | switch g e =>
    obtain ⟨u, inst, We, Wi, -, -, s, h, -⟩ := h
    exact fused_of_run h
  | mapSignal g e =>
    obtain ⟨u, inst, We, Wi, -, -, s, h, -⟩ := h
    exact fused_of_run h
  | mapIndexed g e =>
    obtain ⟨u, We, es, E, mine, v, inst, Wi, -, -, -, -, -, s, h, -⟩ := h
    exact fused_of_run h
  | filterSignal g e =>
    obtain ⟨u, v, inst, We, Wi, -, rfl, -, s, h, -⟩ := h
    exact fused_bare (fused_of_run h)
  | flatten g e =>
    obtain ⟨u, inst, We, Wi, -, -, s, h, -⟩ := h
    exact fused_of_run h
  | switchVec g e =>
    obtain ⟨u, inst, We, Wi, -, -, s, h, -⟩ := h
    exact fused_of_run h
  | mapValueSignal g e =>
    obtain ⟨u, inst, We, Wi, -, -, s, h, -⟩ := h
    exact fused_of_run h
  | keys bs s =>
    obtain ⟨k, -, -, -, s, h, -⟩ := h
    exact fused_of_run h
  | entries bs s =>
    obtain ⟨k, -, -, -, s, h, -⟩ := h
    exact fused_of_run h
  | option e =>
    obtain ⟨u, -, s, h, -⟩ := h
    exact fused_of_run h
  | result e =>
    obtain ⟨u, -, s, h, -⟩ := h
    exact fused_of_run h
  | _ =>
    obtain ⟨u, -, s, h, -⟩ := h
    exact fused_of_run h

/-! ## Two filters -/

/-- The input of the example: three elements, of which the last is moved to the front. -/
def demoMoved : Nat → Trace Nat := fun _ =>
  [(9, .ready (some (.replace [0, 1, 2]))), (9, .ready (some (.move 2 0))), (9, .pending)]

/-- **C101** (two filters).  `.filter(p).filter(q)` is not `.filter(|x| p(x) && q(x))`: if an element is moved to the front
past one that is filtered out (compare C13), then the first panics, while the second sends a change. -/
theorem C101_not_filter_filter : ∃ (p q : Nat → Bool), ¬ Pipe.Same (α := Nat) (.filter q (.filter p (.source 0)))
    (.filter (fun x => p x && q x) (.source 0)) := by
  refine ⟨(· != 1), fun _ => true, fun h => ?_⟩
  have h1 : (Pipe.filter (fun x => (x != 1) && true) (.source 0)).Exec demoMoved
      [(9, .ready (some (.replace [0, 2]))), (9, .ready (some (.move 2 0))), (9, .pending)] :=
    ⟨_, rfl, _, rfl, rfl⟩
  have h2 := (h _ _).2 h1
  simp only [Pipe.Exec, rel_vFilter, exists_eq_left] at h2
  have h3 := (thru_after _ _ _ _ _ _).1 h2
  cases h3 with
  | keep _ hb h4 =>
    cases hb
    cases h4 with
    | keep _ hb h4 => cases hb
    | skip hb _ => cases hb
  | skip hb _ => cases hb

/-! ## Examples -/

/-- `choice.signal()` in `Verif/Props/Expr.lean` is not polled after its end. -/
theorem demoChoice_fused : Fused (.source demoChoice) := by
  rintro l t W ⟨k, rfl, -, rfl, -⟩ t1 w t2 h
  have h' : [(9, Poll.ready (some true)), (9, .pending), (9, .pending)] = t1 ++ (w, .ready none) :: t2 := h
  rcases t1 with _ | ⟨q, _ | ⟨q, _ | ⟨q, _ | ⟨q, t1⟩⟩⟩⟩ <;> simp at h'

/-- The traces are those of real programs: `choice.signal().eq(true)` answers, and so does what it is the same as. -/
example : ∃ W, (dedupe (sMap (· == true) (.source demoChoice))).Exec true
    [(9, .ready (some true)), (9, .pending), (9, .pending)] W := by
  refine ⟨_, ((C101_eq true (.source demoChoice)).1 true _ _).1
    ⟨_, ⟨0, rfl, fun _ => .inl ⟨by decide, by decide⟩, rfl, rfl⟩, _, rfl, rfl⟩⟩

/-- Deep inside: in the closure of a `switch`. -/
example : Same
    (switch (fun b : Bool => .eq 2 (.sMap (· + 1) (.sMap (· * 2) (.dedupe (.source (demoECell b.toNat))))))
      (.inspect (.not (.not (.source demoChoice)))))
    (switch (fun b : Bool => .eq 2 (.sMap (fun x => x * 2 + 1) (.dedupe (.source (demoECell b.toNat)))))
      (.source demoChoice)) :=
  C101_anywhere (.switch (fun b => .eq 2 (.here (C101_map_map _ _ _)))
    (.trans (.here (C101_map_id _ (C101_fused (.not (.not (.source demoChoice))) trivial)).2) (.here ((C101_not _).2 demoChoice_fused))))

/-- A pipeline, with a change that is passed on, and one that the code gets wrong (C13): still the two are the same. -/
example : (Pipe.map (· * 10) (.filter ((· != 10) ∘ (· * 10)) (.source 0))).Exec demoMoved
    [(9, .ready (some (.replace [0, 20]))), (9, .ready (some (.move 2 0))), (9, .pending)] :=
  ((Pipe.C101_filter (· != 10) (· * 10) (.source 0) (.source 0)).2 _ _).1
    ⟨[(9, .ready (some (.replace [0, 10, 20]))), (9, .ready (some (.move 2 0))), (9, .pending)],
      ⟨_, rfl, _, rfl, rfl⟩, _, rfl, rfl⟩

/-- `list.signal_vec().to_signal_cloned().map(|l| l.len())` -/
example : ∃ W, (sMap List.length (sink .toSignalCloned (.source (.vecAlways [1, 2, 3] fun _ => [9, 9])))).Exec true
    [(9, .ready (some 3)), (9, .ready none)] W :=
  ⟨_, (C101_to_signal_map List.length _ true _ _).2
    ⟨_, ⟨0, trivial, fun _ => trivial, rfl, rfl⟩, _, rfl, rfl⟩⟩

end Verif
