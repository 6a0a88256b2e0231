import Verif.Props.SignalA

/-!
# C53, C54 and C56 (parts): `stop_if`, `wait_for`, `first`, `to_future`, `from_future`,
`from_stream`, `always`, `option`, `result`
-/

namespace Verif

variable {α β ε κ : Type}

/-! ## C53: `stop_if` -/

/-- `stop_if` passes on the answers of its input up to and including the first value satisfying the
test, then ends, never polling the input again.  The test is called exactly once per value. -/
theorem C53_stop_if (p : α → Bool) (script : List (Poll (Option α))) (ws : List Waker) :
    ∃ outs s, run (SStopIf.poll (logging p)) ws (SStopIf.init [] script) = some (outs, s) ∧
      s.st = s.signal.got ∧
      ((∀ a ∈ s.signal.got, p a = false) ∨ StopsAt p s.signal.hist) ∧
      (outs = s.signal.hist.map (·.2) ∨
        StopsAt p s.signal.hist ∧ outs = s.signal.hist.map (·.2) ++ [.ready none]) := by
  obtain ⟨outs, s, h1, h2, h3, h4, h5, h6⟩ := run_rule (poll := SStopIf.poll (logging p))
    (fun outs s => s.st = s.signal.got ∧
      (.ready none ∉ outs → outs = s.signal.hist.map (·.2)) ∧
      (outs = s.signal.hist.map (·.2) ∨
        StopsAt p s.signal.hist ∧ outs = s.signal.hist.map (·.2) ++ [.ready none]) ∧
      ((∀ a ∈ s.signal.got, p a = false) ∨ StopsAt p s.signal.hist) ∧
      (.ready none ∉ outs → (s.stopped = false → ∀ a ∈ s.signal.got, p a = false) ∧
        (s.stopped = true → StopsAt p s.signal.hist)))
    (by
      rintro w outs s ⟨hst, ho, -, -, hs⟩ hno
      obtain ⟨hs1, hs2⟩ := hs hno
      have ho := ho hno
      by_cases hstop : s.stopped = true
      · simp only [SStopIf.poll, hstop, if_true]
        exact ⟨_, _, rfl, hst, by simp, .inr ⟨hs2 hstop, by rw [ho]⟩, .inr (hs2 hstop), by simp⟩
      · have hstop' : s.stopped = false := by simpa using hstop
        have hs1 := hs1 hstop'
        simp only [SStopIf.poll, hstop', Bool.false_eq_true, if_false]
        have hh := Src.poll_hist w s.signal
        obtain ⟨r, src', e⟩ : ∃ r s', s.signal.poll w = (r, s') := ⟨_, _, rfl⟩
        rw [e] at hh ⊢
        simp only at hh
        have hg : src'.got = s.signal.got ++ items [r] := by
          simp only [Src.got, hh, List.map_append, items_append]; rfl
        obtain (_ | a) | _ := r
        · have hall : ∀ a ∈ src'.got, p a = false := by simpa [hg] using hs1
          exact ⟨_, _, rfl, by simpa [hg] using hst, by simp, .inl (by simp [hh, ho]), .inl hall,
            by simp⟩
        · have hst' : s.st ++ [a] = src'.got := by rw [hg, hst]; rfl
          have ho' : outs ++ [.ready (some a)] = src'.hist.map (·.2) := by simp [hh, ho]
          by_cases hp : p a = true
          · have : StopsAt p src'.hist := ⟨_, w, a, hh, hp, hs1⟩
            simp only [logging, hp, if_true]
            exact ⟨_, _, rfl, hst', fun _ => ho', .inl ho', .inr this, fun _ =>
              ⟨by simp, fun _ => this⟩⟩
          · have hall : ∀ a ∈ src'.got, p a = false := by
              intro b hb
              rw [hg] at hb
              rcases List.mem_append.1 hb with hb | hb
              · exact hs1 b hb
              · simp at hb; subst hb; simpa using hp
            simp only [logging, hp, Bool.false_eq_true, if_false]
            exact ⟨_, _, rfl, hst', fun _ => ho', .inl ho', .inl hall, fun _ =>
              ⟨fun _ => hall, by simp⟩⟩
        · have hall : ∀ a ∈ src'.got, p a = false := by simpa [hg] using hs1
          have ho' : outs ++ [.pending] = src'.hist.map (·.2) := by simp [hh, ho]
          exact ⟨_, _, rfl, by simpa [hg] using hst, fun _ => ho', .inl ho', .inl hall,
            fun _ => ⟨fun _ => hall, by simp⟩⟩)
    ws [] (SStopIf.init [] script) ⟨rfl, fun _ => rfl, .inl rfl, .inl (by
      simp [SStopIf.init, Src.mk', Src.got]), fun _ => ⟨by
      simp [SStopIf.init, Src.mk', Src.got], by simp [SStopIf.init]⟩⟩ (by simp)
  exact ⟨outs, s, h1, h2, h5, h4⟩

example : ((run (SStopIf.poll (logging (· == 3))) [0, 1, 2, 3] (SStopIf.init [] [.ready (some 1),
    .ready (some 3), .ready (some 4)])).map fun q => (q.1, q.2.st)) =
    some ([.ready (some 1), .ready (some 3), .ready none], [1, 3]) := by rfl

/-- `stop_if` never polls its input after the end, ends only if its input ended or a value
satisfied the test, and `Pending` means that the input is armed (C57, C58). -/
theorem C57_stop_if (f : κ → α → Bool × κ) (k : κ) (script : List (Poll (Option α)))
    (ws : List Waker) (outs : List (Poll (Option α))) (s : SStopIf κ α)
    (h : run (SStopIf.poll f) ws (SStopIf.init k script) = some (outs, s)) :
    s.signal.fused ∧ (.ready none ∈ outs → s.stopped = true) ∧
      (∀ w, ws.getLast? = some w → outs.getLast? = some .pending → s.signal.armed w) := by
  obtain ⟨h1, h2, h3⟩ := any_run (poll := SStopIf.poll f)
    (fun s => s.signal.fused ∧ (s.stopped = false → ¬ s.signal.ended))
    (fun w s => s.signal.armed w) (fun s => s.stopped = true)
    (by
      rintro w s r s' ⟨hf, hne⟩ hp
      by_cases hstop : s.stopped = true
      · simp only [SStopIf.poll, hstop, if_true] at hp
        cases hp
        exact ⟨⟨hf, by simp [hstop]⟩, hstop⟩
      · have hstop' : s.stopped = false := by simpa using hstop
        simp only [SStopIf.poll, hstop', Bool.false_eq_true, if_false] at hp
        obtain ⟨q, src', h1, h2, h3, h4⟩ := Src.poll_any w s.signal (hne hstop')
        rw [h1] at hp
        obtain (_ | a) | _ := q
        · cases hp; exact ⟨⟨h2, by simp⟩, rfl⟩
        · cases hp; exact ⟨h2, fun _ => by simpa using h3⟩
        · cases hp; exact ⟨⟨h2, fun _ => by simpa using h3⟩, h4 rfl⟩)
    (s0 := SStopIf.init k script)
    ⟨fused_of_not_ended (not_ended_mk' _), fun _ => not_ended_mk' _⟩ h
  exact ⟨h1.1, h2, h3⟩

/-! ## C53: `wait_for`, `to_future`, `first` -/

/-- `wait_for` stays pending, with the input armed, until the input produces a value equal to
`value`, and completes with the first such one; it completes with `None` if the input ends before. -/
theorem C53_wait_for [BEq α] (value : α) (script : List (Poll (Option α))) (ws : List Waker) :
    ∃ outs s, runF SWaitFor.poll ws (SWaitFor.init value script) = some (outs, s) ∧
      s.signal.fused ∧
      ((ws = [] ∧ outs = []) ∨
        ∃ k w r, outs = List.replicate k .pending ++ [r] ∧ ws[k]? = some w ∧
          match r with
          | .pending => k + 1 = ws.length ∧ s.signal.armed w ∧
              ∀ a ∈ s.signal.got, (a == value) = false
          | .ready none => s.signal.ended ∧ ∀ a ∈ s.signal.got, (a == value) = false
          | .ready (some a) => StopsAt (· == value) s.signal.hist ∧
              s.signal.got.getLast? = some a) := by
  obtain ⟨outs, s, h1, h2⟩ := runF_rule (poll := SWaitFor.poll)
    (fun s => s.value = value ∧ ¬ s.signal.ended ∧ ∀ a ∈ s.signal.got, (a == value) = false)
    (fun w r s => s.signal.fused ∧ match r with
          | .pending => s.signal.armed w ∧ ∀ a ∈ s.signal.got, (a == value) = false
          | .ready none => s.signal.ended ∧ ∀ a ∈ s.signal.got, (a == value) = false
          | .ready (some a) => StopsAt (· == value) s.signal.hist ∧
              s.signal.got.getLast? = some a)
    (by
      rintro w s ⟨rfl, hne, hall⟩
      have key := pollLoop_rule (w := w) (body := waitForBody s.value)
        (fun _ src => ¬ src.ended ∧ ∀ a ∈ src.got, (a == s.value) = false)
        (fun st _ src => src.fused ∧ match st with
          | .panic => False
          | .pending => ¬ src.ended ∧ src.armed w ∧ ∀ a ∈ src.got, (a == s.value) = false
          | .ended => src.ended ∧ ∀ a ∈ src.got, (a == s.value) = false
          | .ret a => StopsAt (· == s.value) src.hist ∧ src.got.getLast? = some a)
        (by
          rintro ⟨⟩ a t h s' ⟨h1, h2⟩ hb
          refine ⟨not_ended_snoc h1 (by simp), ?_⟩
          by_cases ha : (a == s.value) = true
          · simp [waitForBody, bne, ha] at hb
          · rw [got_snoc]
            intro b hb'
            rcases List.mem_append.1 hb' with hb' | hb'
            · exact h2 b hb'
            · simp at hb'; subst hb'; simpa using ha)
        (by
          rintro ⟨⟩ a t h s' r ⟨h1, h2⟩ hb
          by_cases ha : (a == s.value) = true
          · simp only [waitForBody, bne, ha] at hb
            cases hb
            refine ⟨fused_snoc h1, ⟨h, w, a, rfl, ha, h2⟩, ?_⟩
            rw [got_snoc]; simp
          · simp [waitForBody, bne, ha] at hb)
        (by
          rintro ⟨⟩ a t h _ hb
          by_cases ha : (a == s.value) = true <;> simp [waitForBody, bne, ha] at hb)
        (by
          rintro ⟨⟩ t h ⟨h1, h2⟩
          refine ⟨fused_snoc h1, ended_snoc _ _ _, ?_⟩
          rw [got_snoc]; simpa [Src.got] using h2)
        (by
          rintro ⟨⟩ t t' h ⟨h1, h2⟩ _
          refine ⟨fused_snoc h1, not_ended_snoc h1 (by simp), armed_snoc _ _ _, ?_⟩
          rw [got_snoc]; simpa [Src.got] using h2)
        s.signal () ⟨hne, hall⟩
      obtain ⟨st, u, src', e⟩ : ∃ a b c, s.signal.loop w (waitForBody s.value) () = (a, b, c) :=
        ⟨_, _, _, rfl⟩
      rw [e] at key
      simp only [SWaitFor.poll, e]
      cases st with
      | panic => exact key.2.elim
      | ret a => exact ⟨_, _, rfl, key, by simp⟩
      | ended => exact ⟨_, _, rfl, key, by simp⟩
      | pending => exact ⟨_, _, rfl, ⟨key.1, key.2.2⟩, fun _ => ⟨rfl, key.2.1, key.2.2.2⟩⟩)
    ws (SWaitFor.init value script) ⟨rfl, not_ended_mk' _, by
      simp [SWaitFor.init, Src.mk', Src.got]⟩
  refine ⟨outs, s, h1, ?_⟩
  rcases h2 with ⟨rfl, rfl, rfl⟩ | ⟨k, w, r, g1, g2, g3, g4⟩
  · exact ⟨fused_of_not_ended (not_ended_mk' _), .inl ⟨rfl, rfl⟩⟩
  · refine ⟨g3.1, .inr ⟨k, w, r, g1, g2, ?_⟩⟩
    obtain (_ | a) | _ := r
    · exact g3.2
    · exact g3.2
    · exact ⟨g4 rfl, g3.2⟩

example : (runF SWaitFor.poll [0, 1, 2] (SWaitFor.init 5 [.ready (some 1), .pending,
    .ready (some 5), .ready (some 6)])).map (·.1) = some [.pending, .ready (some 5)] := by rfl

/-- `to_future` stays pending, with the input armed, until the input ends, and completes with the
last value.  It does not panic if the input produces a value before it ends. -/
theorem C53_to_future (script : List (Poll (Option α))) (hv : ValueFirst script)
    (ws : List Waker) :
    ∃ outs s, runF SToFuture.poll ws (SToFuture.init script) = some (outs, s) ∧
      s.signal.fused ∧
      ((ws = [] ∧ outs = []) ∨
        ∃ k w r, outs = List.replicate k .pending ++ [r] ∧ ws[k]? = some w ∧
          match r with
          | .pending => k + 1 = ws.length ∧ s.signal.armed w
          | .ready a => s.signal.ended ∧ s.signal.got.getLast? = some a) := by
  let VF : Src (Option α) → Prop := fun src =>
    ∀ pre post, src.todo = pre ++ .ready none :: post → src.got ++ items pre ≠ []
  obtain ⟨outs, s, h1, h2⟩ := runF_rule (poll := SToFuture.poll)
    (fun s => ¬ s.signal.ended ∧ s.value = s.signal.got.getLast? ∧ VF s.signal)
    (fun w r s => s.signal.fused ∧ match r with
          | .pending => s.signal.armed w
          | .ready a => s.signal.ended ∧ s.signal.got.getLast? = some a)
    (by
      rintro w s ⟨hne, hv, hvf⟩
      have key := pollLoop_rule (w := w) (body := toFutureBody)
        (fun v src => ¬ src.ended ∧ v = src.got.getLast? ∧ VF src)
        (fun st v src => src.fused ∧ v = src.got.getLast? ∧ match st with
          | .panic => False
          | .pending => ¬ src.ended ∧ src.armed w ∧ VF src
          | .ended => src.ended ∧ src.got ≠ []
          | .ret _ => False)
        (by
          rintro v a t h s' ⟨h1, h2, h3⟩ hb
          cases hb
          refine ⟨not_ended_snoc h1 (by simp), by rw [got_snoc]; simp, ?_⟩
          intro pre post he
          rw [got_snoc]
          simp)
        (by rintro _ _ _ _ _ _ _ hb; cases hb)
        (by rintro _ _ _ _ _ hb; cases hb)
        (by
          rintro v t h ⟨h1, h2, h3⟩
          have := h3 [] t rfl
          simp only [items_nil, List.append_nil] at this
          refine ⟨fused_snoc h1, ?_, ended_snoc _ _ _, ?_⟩ <;> rw [got_snoc] <;>
            simp only [items_none, items_nil, List.append_nil]
          · exact h2
          · exact this)
        (by
          rintro v t t' h ⟨h1, h2, h3⟩ ht
          refine ⟨fused_snoc h1, ?_, not_ended_snoc h1 (by simp), armed_snoc _ _ _, ?_⟩
          · rw [got_snoc]; simp only [items_pending, items_nil, List.append_nil]; exact h2
          · intro pre post he
            rw [got_snoc]; simp only [items_pending, items_nil, List.append_nil]
            rcases ht with rfl | ⟨rfl, rfl⟩
            · exact h3 (.pending :: pre) post (by simpa using he)
            · exact h3 pre post he)
        s.signal s.value ⟨hne, hv, hvf⟩
      obtain ⟨st, v, src', e⟩ : ∃ a b c, s.signal.loop w toFutureBody s.value = (a, b, c) :=
        ⟨_, _, _, rfl⟩
      rw [e] at key
      simp only [SToFuture.poll, e]
      obtain ⟨k1, k2, k3⟩ := key
      simp only at k1 k2 k3
      cases st with
      | panic => exact k3.elim
      | ret a => exact k3.elim
      | ended =>
        cases v with
        | none => exact absurd (List.getLast?_eq_none_iff.1 k2.symm) k3.2
        | some v => exact ⟨_, _, rfl, ⟨k1, k3.1, k2.symm⟩, by simp⟩
      | pending => exact ⟨_, _, rfl, ⟨k1, k3.2.1⟩, fun _ => ⟨k3.1, k2, k3.2.2⟩⟩)
    ws (SToFuture.init script) ⟨not_ended_mk' _, rfl, fun pre post he => hv pre post he⟩
  refine ⟨outs, s, h1, ?_⟩
  rcases h2 with ⟨rfl, rfl, rfl⟩ | ⟨k, w, r, g1, g2, g3, g4⟩
  · exact ⟨fused_of_not_ended (not_ended_mk' _), .inl ⟨rfl, rfl⟩⟩
  · refine ⟨g3.1, .inr ⟨k, w, r, g1, g2, ?_⟩⟩
    cases r with
    | ready a => exact g3.2
    | pending => exact ⟨g4 rfl, g3.2⟩

/-- The hypothesis is met, and the future completes with the last value. -/
example : ValueFirst [.ready (some 1), .pending, .ready (some 5), .ready (none : Option Nat)] ∧
    (runF SToFuture.poll [0, 1, 2] (SToFuture.init [.ready (some 1), .pending,
      .ready (some 5), .ready none])).map (·.1) = some [.pending, .ready 5] := by
  refine ⟨?_, rfl⟩
  intro pre post h
  cases pre with
  | nil => simp at h
  | cons r pre => simp only [List.cons_append, List.cons.injEq] at h; rw [← h.1]; simp

/-- The hypothesis is needed: if the input ends without a value, `to_future` panics. -/
theorem C53_to_future_panics (w : Waker) (ws : List Waker) :
    runF SToFuture.poll (w :: ws) (SToFuture.init (α := α) [.ready none]) = none := by rfl

/-- `first` polls its input exactly once, at its first poll, passes on that answer, and then ends. -/
theorem C53_first (script : List (Poll (Option α))) (w : Waker) (ws : List Waker) :
    ∃ outs s r, run SFirst.poll (w :: ws) (SFirst.init script) = some (outs, s) ∧
      s.signal.src.hist = [(w, r)] ∧ r = script.headD .pending ∧
      (r = .ready none ∨ ws = [] → outs = [r]) ∧
      (r ≠ .ready none → ws ≠ [] → outs = [r, .ready none]) := by
  have hp : ∀ r t, SFirst.poll (α := α) w (SFirst.init (r :: t)) =
      some (r, ⟨⟨⟨t, [(w, r)]⟩, false⟩⟩) := by
    intro r t
    obtain (_ | a) | _ := r <;> rfl
  have hp0 : SFirst.poll (α := α) w (SFirst.init []) =
      some (.pending, ⟨⟨⟨[], [(w, .pending)]⟩, false⟩⟩) := rfl
  have key : ∀ r (t : List (Poll (Option α))), SFirst.poll (α := α) w (SFirst.init script) =
      some (r, ⟨⟨⟨t, [(w, r)]⟩, false⟩⟩) → r = script.headD .pending →
      ∃ outs s r, run SFirst.poll (w :: ws) (SFirst.init script) = some (outs, s) ∧
      s.signal.src.hist = [(w, r)] ∧ r = script.headD .pending ∧
      (r = .ready none ∨ ws = [] → outs = [r]) ∧
      (r ≠ .ready none → ws ≠ [] → outs = [r, .ready none]) := by
    intro r t h hr
    cases ws with
    | nil =>
      obtain (_ | a) | _ := r <;> exact ⟨_, _, _, by simp only [run, h]; rfl, rfl, hr, by simp, by simp⟩
    | cons w' ws =>
      obtain (_ | a) | _ := r
      · exact ⟨_, _, _, by simp only [run, h]; rfl, rfl, hr, by simp, by simp⟩
      · exact ⟨_, _, _, by simp only [run, h]; rfl, rfl, hr, by simp, by simp⟩
      · exact ⟨_, _, _, by simp only [run, h]; rfl, rfl, hr, by simp, by simp⟩
  cases script with
  | nil => exact key _ _ hp0 rfl
  | cons r t => exact key _ _ (hp r t) rfl

example : (run SFirst.poll [0, 1] (SFirst.init [.ready (some 7), .ready (some 8)])).map (·.1) =
    some [.ready (some 7), .ready none] := by rfl

/-! ## C54: `from_future`, `from_stream`, `always` -/

/-- `from_future` starts with `None` if the future is not ready at the first poll, produces its
output once it is there, and then ends.  It never polls the future after that, and `Pending` means
that the future is armed. -/
theorem C54_from_future (script : List (Poll α)) (ws : List Waker) :
    ∃ outs s, run SFromFuture.poll ws (SFromFuture.init script) = some (outs, s) ∧
      items outs = (match s.future.hist with
          | (_, .pending) :: _ => [none]
          | _ => []) ++ (match s.future.output with
          | some a => [some a]
          | none => []) ∧
      s.future.fusedF ∧ (.ready none ∈ outs → s.future.completed) ∧
      (∀ w, ws.getLast? = some w → outs.getLast? = some .pending → s.future.armed w) := by
  obtain ⟨outs, s, h1, h2, h3, -, h4⟩ := run_rule (poll := SFromFuture.poll (α := α))
    (fun outs s => items outs = (match s.future.hist with
          | (_, .pending) :: _ => [none]
          | _ => []) ++ (match s.future.output with
          | some a => [some a]
          | none => []) ∧ s.future.fusedF ∧ (s.alive = true ↔ ¬ s.future.completed) ∧
          (s.alive = true → s.future.output = none) ∧
          (s.alive = true → (s.first = true ↔ s.future.hist = [])))
    (by
      rintro w outs s ⟨hi, hf, ha, hout, hfirst⟩ hno
      by_cases hal : s.alive = true
      · simp only [SFromFuture.poll, hal, if_true]
        obtain ⟨r, src', e, g1, g2, g3⟩ := Src.pollF_rule w s.future (ha.1 hal) (hout hal)
        rw [e]
        rw [hout hal] at hi
        cases r with
        | ready a =>
          refine ⟨_, _, rfl, ?_, g2, by simp [g3.2], by simp, by simp⟩
          rw [items_append, hi]
          simp only [g3.1, g1]
          obtain _ | ⟨⟨x, _ | _⟩, h⟩ := s.future.hist <;> simp
        | pending =>
          by_cases hfi : s.first = true
          · simp only [hfi, if_true]
            have hh := (hfirst hal).1 hfi
            refine ⟨_, _, rfl, ?_, g2, by simpa using g3.1, fun _ => g3.2.2, by simp [g1]⟩
            rw [items_append, hi]
            simp only [hh, g1, g3.2.2]
            rfl
          · have hh : s.future.hist ≠ [] := fun h => hfi ((hfirst hal).2 h)
            simp only [hfi, if_false]
            refine ⟨_, _, rfl, ?_, g2, by simpa using g3.1, fun _ => g3.2.2, by simp [g1, hfi]⟩
            rw [items_append, hi]
            simp only [g1, g3.2.2]
            rcases he : s.future.hist with _ | ⟨⟨x, _ | _⟩, h⟩
            · exact absurd he hh
            · simp
            · simp
      · have hal' : s.alive = false := by simpa using hal
        simp only [SFromFuture.poll, hal', Bool.false_eq_true, if_false]
        exact ⟨_, _, rfl, by simpa [items_append] using hi, hf, ha, hout, hfirst⟩)
    ws [] (SFromFuture.init script) ⟨rfl, not_completed.fusedF not_completed_mk', by
      simpa [SFromFuture.init] using not_completed_mk', fun _ => rfl, by
      simp [SFromFuture.init, Src.mk']⟩ (by simp)
  obtain ⟨-, g2, g3⟩ := any_run (poll := SFromFuture.poll (α := α))
    (fun s => s.alive = true ∨ s.future.completed) (fun w s => s.future.armed w)
    (fun s => s.future.completed)
    (by
      rintro w s r s' hl hp
      by_cases hal : s.alive = true
      · simp only [SFromFuture.poll, hal, if_true] at hp
        have hh := Src.poll_hist w s.future
        obtain ⟨r, src', e⟩ : ∃ r s', s.future.poll w = (r, s') := ⟨_, _, rfl⟩
        rw [e] at hp hh
        simp only at hh
        cases r with
        | ready a =>
          cases hp
          exact .inr ⟨w, a, by simp [hh]⟩
        | pending =>
          by_cases hfi : s.first = true
          · simp only [hfi, if_true] at hp
            cases hp
            exact .inl rfl
          · simp only [hfi, if_false] at hp
            cases hp
            exact ⟨.inl rfl, by simp [Src.armed, hh]⟩
      · have hal' : s.alive = false := by simpa using hal
        simp only [SFromFuture.poll, hal', Bool.false_eq_true, if_false] at hp
        cases hp
        exact ⟨hl, by simpa [hal'] using hl⟩)
    (s0 := SFromFuture.init script) (.inl rfl) h1
  exact ⟨outs, s, h1, by simpa using h2, h3, g2, g3⟩

example : (run SFromFuture.poll [0, 1, 2, 3] (SFromFuture.init [.pending, .pending, .ready 7])).map
    (·.1) = some [.ready (some none), .pending, .ready (some (some 7)), .ready none] := by rfl

/-- `from_stream`: the answers are a selection of the values of the stream that always ends with the
latest one, preceded by `None` exactly if the stream had no value at the first poll. -/
theorem C54_from_stream (script : List (Poll (Option α))) (ws : List Waker) (hws : ws ≠ []) :
    ∃ outs s, ∃ vs : List α, run SFromStream.poll ws (SFromStream.init script) = some (outs, s) ∧
      items outs = leadingNone script ++ vs.map some ∧
      vs.Sublist s.stream.src.got ∧ vs.getLast? = s.stream.src.got.getLast? := by
  obtain ⟨outs, s, h1, h2, h3, h4⟩ := run_rule (poll := SFromStream.poll (α := α))
    (fun outs s => s.stream.Ok ∧ (outs = [] → s = SFromStream.init script) ∧
      (outs ≠ [] → s.first = false ∧ ∃ vs : List α, items outs = leadingNone script ++ vs.map some ∧
      vs.Sublist s.stream.src.got ∧ vs.getLast? = s.stream.src.got.getLast?))
    (by
      rintro w outs s ⟨hok, h0, hn⟩ hno
      obtain ⟨st, v, i', e, hi, hst⟩ := Inp.loop_rule (w := w) (body := fromStreamBody)
        (fun v g _ => ∃ l, g = s.stream.src.got ++ l ∧ v = l.getLast?)
        (fun _ _ _ _ => False)
        (by
          rintro v g a t ⟨l, rfl, rfl⟩
          exact ⟨l ++ [a], by simp, by simp⟩)
        s.stream none hok ⟨[], by simp, rfl⟩
      have key : ∀ done, (∃ l, i'.src.got = s.stream.src.got ++ l ∧ v = l.getLast?) →
          ∃ r s', SFromStream.finish done v i' s.first = (r, s') ∧ s'.stream = i' ∧
            s'.first = false ∧ ∃ vs : List α, items (outs ++ [r]) = leadingNone script ++ vs.map some ∧
            vs.Sublist i'.src.got ∧ vs.getLast? = i'.src.got.getLast? := by
        rintro done ⟨l, hl, hv⟩
        by_cases h : outs = []
        · have hs := h0 h
          subst h hs
          have hf := fromStream_first w script
          rw [show (SFromStream.init script).stream = Inp.mk' script from rfl] at e
          rw [e] at hf
          simp only at hf
          have hl' : i'.src.got = l := hl
          cases v with
          | none =>
            have hl0 : l = [] := by simpa using hv.symm
            have : leadingNone script = [none] := by
              exact hf.1 rfl
            exact ⟨_, _, rfl, rfl, rfl, [], by simp [this], by simp, by simp [hl', hl0]⟩
          | some a =>
            have : leadingNone script = [] := by
              have : leadingNone script ≠ [none] := fun h => absurd (hf.2 h) (by simp)
              revert this
              unfold leadingNone
              split <;> simp
            refine ⟨_, _, rfl, rfl, rfl, [a], by simp [this], ?_, by simp [hl', ← hv]⟩
            rw [hl']
            exact List.singleton_sublist.2 (List.mem_of_getLast? hv.symm)
        · obtain ⟨hfi, vs, g1, g2, g3⟩ := hn h
          cases v with
          | none =>
            have hl0 : l = [] := by simpa using hv.symm
            subst hl0
            rw [List.append_nil] at hl
            simp only [SFromStream.finish, hfi, Bool.false_eq_true, if_false]
            cases done
            · exact ⟨_, _, rfl, rfl, rfl, vs, by simpa [items_append] using g1, by rw [hl]; exact g2,
                by rw [hl]; exact g3⟩
            · exact ⟨_, _, rfl, rfl, rfl, vs, by simpa [items_append] using g1, by rw [hl]; exact g2,
                by rw [hl]; exact g3⟩
          | some a =>
            refine ⟨_, _, rfl, rfl, rfl, vs ++ [a], ?_, ?_, ?_⟩
            · rw [items_append, g1]; simp
            · rw [hl]
              exact g2.append (List.singleton_sublist.2 (List.mem_of_getLast? hv.symm))
            · rw [hl, List.getLast?_append, List.getLast?_append, ← hv]; simp
      simp only [SFromStream.poll, e]
      cases st with
      | panic => exact hst.elim
      | ret r => exact hst.1.elim
      | ended =>
        obtain ⟨r, s', k1, k2, k3, k4⟩ := key true hst.1
        exact ⟨r, s', congrArg some k1, by rw [k2]; exact hi, by simp, fun _ => ⟨k3, by rw [k2]; exact k4⟩⟩
      | pending =>
        obtain ⟨r, s', k1, k2, k3, k4⟩ := key false hst.1
        exact ⟨r, s', congrArg some k1, by rw [k2]; exact hi, by simp, fun _ => ⟨k3, by rw [k2]; exact k4⟩⟩)
    ws [] (SFromStream.init script) ⟨Inp.ok_mk' _, fun _ => rfl, by simp⟩ (by simp)
  have hne : outs ≠ [] := by
    obtain _ | ⟨w, ws⟩ := ws
    · exact absurd rfl hws
    · exact run_ne_nil' h1
  obtain ⟨-, vs, g1, g2, g3⟩ := h4 (by simpa using hne)
  exact ⟨outs, s, vs, h1, by simpa using g1, g2, g3⟩

example : (run SFromStream.poll [0, 1, 2, 3] (SFromStream.init [.pending, .ready (some 1),
    .ready (some 2), .pending, .ready none])).map (·.1) =
    some [.ready (some none), .ready (some (some 2)), .ready none] := by rfl

/-- `signal::from_stream` (C57, C58, C59). -/
theorem C57_signal_from_stream (script : List (Poll (Option α))) :
    Polite SFromStream.poll (·.stream.src) (SFromStream.init script) := by
  refine polite_of_step (fun s => s.stream.Ok) (fun s h => h.fused) ?_ _ (Inp.ok_mk' _)
  intro w s r s' hl hp
  obtain ⟨st, v, i', h1, h2, h3, h4⟩ := Inp.loop_any w fromStreamBody s.stream none hl
  simp only [SFromStream.poll, h1] at hp
  cases st with
  | panic => cases hp
  | ret r => cases hp
  | ended =>
    cases v with
    | some v => cases hp; exact h2
    | none =>
      cases hf : s.first with
      | true => simp only [SFromStream.finish, hf, if_true] at hp; cases hp; exact h2
      | false =>
        simp only [SFromStream.finish, hf, Bool.false_eq_true, if_false, if_true] at hp
        cases hp
        exact ⟨h2.fused, h2.dead.2 (h3.2 rfl)⟩
  | pending =>
    cases v with
    | some v => cases hp; exact h2
    | none =>
      cases hf : s.first with
      | true => simp only [SFromStream.finish, hf, if_true] at hp; cases hp; exact h2
      | false =>
        simp only [SFromStream.finish, hf, Bool.false_eq_true, if_false] at hp
        cases hp
        exact ⟨h2, h4 rfl⟩

/-- `always` produces its value once and then ends. -/
theorem C54_always (a : α) (w w' : Waker) (ws : List Waker) :
    run SAlways.poll (w :: w' :: ws) ⟨some a⟩ = some ([.ready (some a), .ready none], ⟨none⟩) := by
  rfl

/-! ## C56 (part): `option`, `result` -/

/-- `option(Some(signal))` passes on every answer, with the values wrapped in `Some`. -/
theorem C56_option_some (script : List (Poll (Option α))) (ws : List Waker) :
    ∃ outs src, run SOption.poll ws (SOption.init (some script)) = some (outs, .signal src) ∧
      outs = src.hist.map (fun p => p.2.mapItem some) ∧
      src.hist.map (·.1) = ws.take outs.length := by
  obtain ⟨outs, s, h, h1, h2, h3, h4, -, src, rfl⟩ := trace_run (poll := SOption.poll (α := α))
    (fun s => match s with | .signal src => src | _ => ⟨[], []⟩) (fun s => match s with
      | .signal src => src.got | _ => []) (Poll.mapItem some) (fun s => ∃ src, s = .signal src)
    (by
      rintro w _ ⟨src, rfl⟩
      have hh := Src.poll_hist w src
      obtain ⟨r, src', e⟩ : ∃ r s', src.poll w = (r, s') := ⟨_, _, rfl⟩
      rw [e] at hh
      have hg : src'.got = src.got ++ items [r] := by
        simp only at hh
        simp only [Src.got, hh, List.map_append, items_append]; rfl
      simp only [SOption.poll, SMaybe.poll, e]
      obtain (_ | a) | _ := r
      · exact ⟨_, rfl, rfl, hg, _, rfl⟩
      · exact ⟨_, rfl, rfl, hg, _, rfl⟩
      · exact ⟨_, rfl, rfl, hg, _, rfl⟩)
    ws (SOption.init (some script)) ⟨_, rfl⟩
  refine ⟨outs, src, h1, ?_⟩
  have h2' : src.hist = h := by simpa [SOption.init, Src.mk'] using h2
  rw [h2']
  exact ⟨h3, h4⟩

example : (run SOption.poll [0, 1] (SOption.init (some [.ready (some 1), .ready none]))).map (·.1) =
    some [.ready (some (some 1)), .ready none] := by rfl

/-- `option(None)` is `None` once, then it ends. -/
theorem C56_option_none (w w' : Waker) (ws : List Waker) :
    run SOption.poll (w :: w' :: ws) (SOption.init (α := α) none) =
      some ([.ready (some none), .ready none], .value none) := by rfl

/-- `result(Ok(signal))` passes on every answer, with the values wrapped in `Ok`. -/
theorem C56_result_ok (script : List (Poll (Option α))) (ws : List Waker) :
    ∃ outs src, run SResult.poll ws (SResult.init (ε := ε) (.ok script)) =
        some (outs, .signal src) ∧
      outs = src.hist.map (fun p => p.2.mapItem Except.ok) ∧
      src.hist.map (·.1) = ws.take outs.length := by
  obtain ⟨outs, s, h, h1, h2, h3, h4, -, src, rfl⟩ := trace_run (poll := SResult.poll (α := α) (ε := ε))
    (fun s => match s with | .signal src => src | _ => ⟨[], []⟩) (fun s => match s with
      | .signal src => src.got | _ => []) (Poll.mapItem Except.ok) (fun s => ∃ src, s = .signal src)
    (by
      rintro w _ ⟨src, rfl⟩
      have hh := Src.poll_hist w src
      obtain ⟨r, src', e⟩ : ∃ r s', src.poll w = (r, s') := ⟨_, _, rfl⟩
      rw [e] at hh
      have hg : src'.got = src.got ++ items [r] := by
        simp only at hh
        simp only [Src.got, hh, List.map_append, items_append]; rfl
      simp only [SResult.poll, SMaybe.poll, e]
      obtain (_ | a) | _ := r
      · exact ⟨_, rfl, rfl, hg, _, rfl⟩
      · exact ⟨_, rfl, rfl, hg, _, rfl⟩
      · exact ⟨_, rfl, rfl, hg, _, rfl⟩)
    ws (SResult.init (.ok script)) ⟨_, rfl⟩
  refine ⟨outs, src, h1, ?_⟩
  have h2' : src.hist = h := by simpa [SResult.init, Src.mk'] using h2
  rw [h2']
  exact ⟨h3, h4⟩

/-- `result(Err(e))` is `Err(e)` once, then it ends. -/
theorem C56_result_err (e : ε) (w w' : Waker) (ws : List Waker) :
    run SResult.poll (w :: w' :: ws) (SResult.init (α := α) (.error e)) =
      some ([.ready (some (.error e)), .ready none], .value none) := by rfl

end Verif
