import Verif.ForEach
import Verif.SignalAProofs
import Verif.Live

/-!
# `for_each` (property C65)
-/

namespace Verif

variable {α κ : Type}

theorem feCalls_append (l l' : List (FeEv α)) : feCalls (l ++ l') = feCalls l ++ feCalls l' := by
  induction l with
  | nil => rfl
  | cons e l ih => cases e <;> simp [feCalls, ih]

theorem feInputs_append (l l' : List (FeEv α)) : feInputs (l ++ l') = feInputs l ++ feInputs l' := by
  induction l with
  | nil => rfl
  | cons e l ih => cases e <;> simp [feInputs, ih]

theorem feFinished_append (l l' : List (FeEv α)) :
    feFinished (l ++ l') = feFinished l + feFinished l' := by
  induction l with
  | nil => simp [feFinished]
  | cons e l ih =>
    match e with
    | .input _ _ => simp [feFinished, ih]
    | .call _ => simp [feFinished, ih]
    | .work _ (.ready _) => simp only [List.cons_append, feFinished, ih]; omega
    | .work _ .pending => simp [feFinished, ih]

theorem serial_nil : Serial ([] : List (FeEv α)) := by
  intro pre e post h; simp at h

theorem Serial.snoc {log : List (FeEv α)} (h : Serial log) (e : FeEv α)
    (he : match e with
      | .input _ _ => feFinished log = (feCalls log).length
      | .call a => feFinished log = (feCalls log).length ∧
          ∃ w, log.getLast? = some (.input w (.ready (some a)))
      | .work _ _ => feFinished log + 1 = (feCalls log).length) : Serial (log ++ [e]) := by
  intro pre e' post heq
  rcases List.eq_nil_or_concat post with rfl | ⟨post', x, rfl⟩
  · obtain ⟨rfl, h2⟩ := List.append_inj' heq rfl
    cases h2
    exact he
  · have : log = pre ++ e' :: post' := by
      have h3 : log ++ [e] = (pre ++ e' :: post') ++ [x] := by simpa using heq
      exact (List.append_inj' h3 rfl).1
    exact h pre e' post' this

/-- The state between polls. -/
structure FeInv (f : κ → α → List (Poll Unit) × κ) (k0 : κ) (m : SForEach κ α) : Prop where
  serial : Serial m.log
  inputs : feInputs m.log = m.stream.hist
  calls : feCalls m.log = m.stream.got
  place : m.st = fePlace f k0 m.stream.got
  idle : m.future = none → feFinished m.log = (feCalls m.log).length
  busy : ∀ s, m.future = some s → ∃ pre a, m.log = pre ++ .call a :: s.hist.map (fun p => .work p.1 p.2) ∧
    Plays (f (fePlace f k0 (feCalls pre)) a).1 s ∧ ¬ s.completed ∧
    feFinished m.log + 1 = (feCalls m.log).length

/-- What a poll establishes. -/
structure FePost (f : κ → α → List (Poll Unit) × κ) (k0 : κ) (w : Waker) (r : Poll Unit)
    (m : SForEach κ α) : Prop where
  inv : FeInv f k0 m
  pending : r = .pending → ¬ m.stream.ended ∧
    (m.future = none ∧ m.stream.armed w ∨ ∃ s, m.future = some s ∧ s.armed w)
  ready : ∀ u, r = .ready u → m.future = none ∧ m.stream.ended ∧ m.stream.fused

theorem plays_poll {ρ : Type} {script : List (Poll ρ)} {s s' : Src ρ} {w : Waker} {r : Poll ρ}
    (h : Plays script s) (e : s.poll w = (r, s')) : Plays script s' := by
  obtain ⟨k, hk⟩ := h
  obtain ⟨t, h⟩ := s
  cases t with
  | nil =>
    simp only [Src.poll] at e
    cases e
    refine ⟨k + 1, ?_⟩
    simp only [List.append_nil] at hk
    simp [hk, List.replicate_succ']
  | cons r' t =>
    simp only [Src.poll] at e
    cases e
    exact ⟨k, by simpa using hk⟩

theorem src_poll_hist {ρ : Type} {s s' : Src ρ} {w : Waker} {r : Poll ρ} (e : s.poll w = (r, s')) :
    s'.hist = s.hist ++ [(w, r)] := by
  obtain ⟨t, h⟩ := s
  cases t <;> (simp only [Src.poll] at e; cases e; rfl)

theorem fe_loop (f : κ → α → List (Poll Unit) × κ) (k0 : κ) (w : Waker)
    (t : List (Poll (Option α))) (h : List (Waker × Poll (Option α))) (k : κ) (g : List (FeEv α))
    (hi : FeInv f k0 ⟨⟨t, h⟩, none, k, g⟩) (hne : ¬ (⟨t, h⟩ : Src (Option α)).ended) :
    FePost f k0 w (SForEach.loop f w t h k g).1 (SForEach.loop f w t h k g).2 := by
  induction t generalizing h k g with
  | nil =>
    refine ⟨⟨hi.serial.snoc _ (hi.idle rfl), ?_, ?_, ?_, fun _ => ?_, by simp [SForEach.loop]⟩,
      fun _ => ⟨not_ended_snoc hne (by simp), .inl ⟨rfl, armed_snoc _ _ _⟩⟩, by simp [SForEach.loop]⟩
    · simpa [SForEach.loop, feInputs_append, feInputs] using hi.inputs
    · rw [SForEach.loop, got_snoc]; simpa [feCalls_append, feCalls, Src.got] using hi.calls
    · rw [SForEach.loop, got_snoc]; simpa [Src.got] using hi.place
    · simpa [SForEach.loop, feCalls_append, feFinished_append, feCalls, feFinished] using hi.idle rfl
  | cons r t ih =>
    match r with
    | .pending =>
      refine ⟨⟨hi.serial.snoc _ (hi.idle rfl), ?_, ?_, ?_, fun _ => ?_, by simp [SForEach.loop]⟩,
        fun _ => ⟨not_ended_snoc hne (by simp), .inl ⟨rfl, armed_snoc _ _ _⟩⟩, by simp [SForEach.loop]⟩
      · simpa [SForEach.loop, feInputs_append, feInputs] using hi.inputs
      · rw [SForEach.loop, got_snoc]; simpa [feCalls_append, feCalls, Src.got] using hi.calls
      · rw [SForEach.loop, got_snoc]; simpa [Src.got] using hi.place
      · simpa [SForEach.loop, feCalls_append, feFinished_append, feCalls, feFinished] using hi.idle rfl
    | .ready none =>
      refine ⟨⟨hi.serial.snoc _ (hi.idle rfl), ?_, ?_, ?_, fun _ => ?_, by simp [SForEach.loop]⟩,
        by simp [SForEach.loop], fun _ _ => ⟨rfl, ended_snoc _ _ _, fused_snoc hne⟩⟩
      · simpa [SForEach.loop, feInputs_append, feInputs] using hi.inputs
      · rw [SForEach.loop, got_snoc]; simpa [feCalls_append, feCalls, Src.got] using hi.calls
      · rw [SForEach.loop, got_snoc]; simpa [Src.got] using hi.place
      · simpa [SForEach.loop, feCalls_append, feFinished_append, feCalls, feFinished] using hi.idle rfl
    | .ready (some a) =>
      have hidle := hi.idle rfl
      have hcalls : feCalls g = (⟨t, h⟩ : Src (Option α)).got := hi.calls
      have hplace : k = fePlace f k0 (⟨t, h⟩ : Src (Option α)).got := hi.place
      have hinputs : feInputs g = h := hi.inputs
      have hser : ∀ r, Serial (g ++ [.input w (.ready (some a))] ++ [.call a] ++ [.work w r]) := by
        intro r
        have h1 := hi.serial.snoc (.input w (.ready (some a))) hidle
        have h2 := h1.snoc (.call a) ⟨by
          simpa [feCalls_append, feFinished_append, feCalls, feFinished] using hidle, w, by simp⟩
        exact h2.snoc (.work w r) (by
          simpa [feCalls_append, feFinished_append, feCalls, feFinished] using hidle)
      obtain ⟨script, k', hf⟩ : ∃ script k', f k a = (script, k') := ⟨_, _, rfl⟩
      obtain ⟨r, s, hp⟩ : ∃ r s, (Src.mk' script).poll w = (r, s) := ⟨_, _, rfl⟩
      have hgot := got_snoc (t := t) (h := h) (w := w) (r := .ready (some a))
      have hcalls' : ∀ r, feCalls (g ++ [.input w (.ready (some a))] ++ [.call a] ++ [.work w r]) =
          (⟨t, h ++ [(w, .ready (some a))]⟩ : Src (Option α)).got := by
        intro r
        rw [hgot]
        simp [feCalls_append, feCalls, hcalls, items, Src.got]
      have hplace' : k' = fePlace f k0 (⟨t, h ++ [(w, .ready (some a))]⟩ : Src (Option α)).got := by
        rw [hgot]
        have : (f k a).2 = k' := by rw [hf]
        rw [← this, hplace]
        simp [fePlace, items, Src.got]
      have hinputs' : ∀ r, feInputs (g ++ [.input w (.ready (some a))] ++ [.call a] ++ [.work w r]) =
          h ++ [(w, .ready (some a))] := by
        intro r
        simp [feInputs_append, feInputs, hinputs]
      have hne' : ¬ (⟨t, h ++ [(w, .ready (some a))]⟩ : Src (Option α)).ended :=
        not_ended_snoc hne (by simp)
      unfold SForEach.loop
      simp only [hf, hp]
      cases r with
      | ready u =>
        refine ih _ _ _ ⟨hser _, hinputs' _, hcalls' _, hplace', fun _ => ?_, by simp⟩ hne'
        simp only [feCalls_append, feFinished_append, feCalls, feFinished, List.length_append]
        simp [hidle]
      | pending =>
        have hh := src_poll_hist hp
        refine ⟨⟨hser _, hinputs' _, hcalls' _, hplace', by simp, fun s' hs' => ?_⟩,
          fun _ => ⟨hne', .inr ⟨s, rfl, by simp [Src.armed, hh]⟩⟩, by simp⟩
        cases hs'
        refine ⟨g ++ [.input w (.ready (some a))], a, ?_, ?_, ?_, ?_⟩
        · simp [hh, Src.mk']
        · have : fePlace f k0 (feCalls (g ++ [.input w (.ready (some a))])) = k := by
            rw [hplace, ← hcalls]; simp [feCalls_append, feCalls]
          rw [this, hf]
          exact plays_poll ⟨0, by simp [Src.mk']⟩ hp
        · rintro ⟨w', u, hm⟩
          simp [hh, Src.mk'] at hm
        · simp only [feCalls_append, feFinished_append, feCalls, feFinished, List.length_append]
          simp [hidle]

theorem fe_poll (f : κ → α → List (Poll Unit) × κ) (k0 : κ) (w : Waker) (m : SForEach κ α)
    (hi : FeInv f k0 m) (hne : ¬ m.stream.ended) :
    ∃ r m', SForEach.poll f w m = some (r, m') ∧ FePost f k0 w r m' := by
  obtain ⟨⟨t, h⟩, fut, k, g⟩ := m
  unfold SForEach.poll
  cases fut with
  | none => exact ⟨_, _, rfl, fe_loop f k0 w t h k g hi hne⟩
  | some s =>
    obtain ⟨pre, a, h1, h2, h3, h4⟩ := hi.busy s rfl
    obtain ⟨r, s', hp⟩ : ∃ r s', s.poll w = (r, s') := ⟨_, _, rfl⟩
    have hh := src_poll_hist hp
    have h4' : feFinished g + 1 = (feCalls g).length := h4
    simp only [hp]
    cases r with
    | ready u =>
      refine ⟨_, _, rfl, fe_loop f k0 w t h k _ ⟨hi.serial.snoc _ h4, ?_, ?_, hi.place,
        fun _ => ?_, by simp⟩ hne⟩
      · simpa [feInputs_append, feInputs] using hi.inputs
      · simpa [feCalls_append, feCalls] using hi.calls
      · simp only [feCalls_append, feFinished_append, feCalls, feFinished, List.append_nil]
        omega
    | pending =>
      refine ⟨_, _, rfl, ⟨hi.serial.snoc _ h4, ?_, ?_, hi.place, by simp, fun s2 hs2 => ?_⟩,
        fun _ => ⟨hne, .inr ⟨s', rfl, by simp [Src.armed, hh]⟩⟩, by simp⟩
      · simpa [feInputs_append, feInputs] using hi.inputs
      · simpa [feCalls_append, feCalls] using hi.calls
      · cases hs2
        refine ⟨pre, a, ?_, plays_poll h2 hp, ?_, ?_⟩
        · have h1' : g = pre ++ .call a :: s.hist.map (fun p => .work p.1 p.2) := h1
          simp [h1', hh]
        · rintro ⟨w', u, hm⟩
          rw [hh] at hm
          simp only [List.mem_append, List.mem_singleton, Prod.mk.injEq, reduceCtorEq, and_false,
            or_false] at hm
          exact h3 ⟨w', u, hm⟩
        · simp only [feCalls_append, feFinished_append, feCalls, feFinished]
          simpa using h4'

theorem fe_init (f : κ → α → List (Poll Unit) × κ) (k0 : κ) (script : List (Poll (Option α))) :
    FeInv f k0 (SForEach.init k0 script) :=
  ⟨serial_nil, rfl, rfl, rfl, fun _ => rfl, by simp [SForEach.init]⟩

/-- **C65.**  For every input, every callback (with any state of its own, giving any futures) and
every sequence of polls of a `for_each`, up to its completion:
* no poll panics;
* things happen one after the other, in the sense of `Serial`;
* the callback is called exactly once on each value the input gave, in order;
* the polls of the input are those recorded: none happens behind the back of the log;
* at the end of the run there is nothing left to do for the callback's last future, or it is kept,
  not completed, has been polled since the call, and gives what the callback's future gives;
* if the last answer is `Pending`, to a poll with waker `w`, the last future is armed with `w`, or
  there is none and the input is;
* it completes exactly when the input has ended, and then all futures have completed; the input is
  not polled after its end. -/
theorem C65_for_each (f : κ → α → List (Poll Unit) × κ) (k0 : κ) (script : List (Poll (Option α)))
    (ws : List Waker) :
    ∃ outs m, runF (SForEach.poll f) ws (SForEach.init k0 script) = some (outs, m) ∧
      Serial m.log ∧ feCalls m.log = m.stream.got ∧ feInputs m.log = m.stream.hist ∧
      (m.future = none ∧ feFinished m.log = (feCalls m.log).length ∨
        ∃ s pre a, m.future = some s ∧
          m.log = pre ++ .call a :: s.hist.map (fun p => .work p.1 p.2) ∧ ¬ s.completed ∧
          Plays (f (fePlace f k0 (feCalls pre)) a).1 s) ∧
      (∀ w, ws.getLast? = some w → outs.getLast? = some .pending →
        m.future = none ∧ m.stream.armed w ∨ ∃ s, m.future = some s ∧ s.armed w) ∧
      ((∃ u, .ready u ∈ outs) ↔ m.stream.ended) ∧ (m.stream.ended → m.future = none) ∧
      m.stream.fused := by
  obtain ⟨outs, m, h1, h2⟩ := runF_rule (poll := SForEach.poll f)
    (fun m => FeInv f k0 m ∧ ¬ m.stream.ended) (FePost f k0)
    (by
      rintro w m ⟨h1, h2⟩
      obtain ⟨r, m', h3, h4⟩ := fe_poll f k0 w m h1 h2
      exact ⟨r, m', h3, h4, fun hr => ⟨h4.inv, (h4.pending hr).1⟩⟩)
    ws (SForEach.init k0 script) ⟨fe_init f k0 script, not_ended_mk' _⟩
  have fin : ∀ m : SForEach κ α, FeInv f k0 m →
      (m.future = none ∧ feFinished m.log = (feCalls m.log).length ∨
        ∃ s pre a, m.future = some s ∧
          m.log = pre ++ .call a :: s.hist.map (fun p => .work p.1 p.2) ∧ ¬ s.completed ∧
          Plays (f (fePlace f k0 (feCalls pre)) a).1 s) := by
    intro m hi
    cases hf : m.future with
    | none => exact .inl ⟨rfl, hi.idle hf⟩
    | some s =>
      obtain ⟨pre, a, h1, h2, h3, h4⟩ := hi.busy s hf
      exact .inr ⟨s, pre, a, rfl, h1, h3, h2⟩
  refine ⟨outs, m, h1, ?_⟩
  rcases h2 with ⟨rfl, rfl, rfl⟩ | ⟨k, w, r, rfl, h3, h4, h5⟩
  · have hi := fe_init f k0 script
    have hne : ¬ (SForEach.init k0 script).stream.ended := not_ended_mk' _
    exact ⟨hi.serial, hi.calls, hi.inputs, fin _ hi, by simp, by simpa using hne,
      fun h => absurd h hne, fused_of_not_ended hne⟩
  · refine ⟨h4.inv.serial, h4.inv.calls, h4.inv.inputs, fin _ h4.inv, ?_, ?_, ?_, ?_⟩
    · intro w' hw' ho
      simp only [List.getLast?_append, List.getLast?_singleton, Option.some_or, Option.some.injEq] at ho
      have hk := h5 ho
      have : w' = w := by
        rw [List.getLast?_eq_getElem?, ← hk] at hw'
        simp only [Nat.add_sub_cancel] at hw'
        rw [h3] at hw'
        exact (Option.some.inj hw').symm
      subst this
      exact (h4.pending ho).2
    · cases r with
      | pending =>
        simp only [List.mem_append, List.mem_singleton, reduceCtorEq, or_false]
        constructor
        · rintro ⟨u, hu⟩; simp at hu
        · intro h; exact absurd h (h4.pending rfl).1
      | ready u => exact ⟨fun _ => (h4.ready u rfl).2.1, fun _ => ⟨u, by simp⟩⟩
    · intro h
      cases r with
      | pending => exact absurd h (h4.pending rfl).1
      | ready u => exact (h4.ready u rfl).1
    · cases r with
      | pending => exact fused_of_not_ended (h4.pending rfl).1
      | ready u => exact (h4.ready u rfl).2.2

/-! ## Completion -/

/-- Every poll of a future that has not completed brings it closer to its result. -/
theorem completes_of_wf {σ β : Type} {poll : Waker → σ → Option (Poll β × σ)} {R : σ → σ → Prop}
    (hwf : WellFounded R) (Inv : σ → Prop)
    (step : ∀ w s r s', Inv s → poll w s = some (r, s') →
      (∃ b, r = .ready b) ∨ Inv s' ∧ R s' s) (s0 : σ) (h0 : Inv s0) : CompletesSoon poll s0 := by
  induction s0 using hwf.induction with
  | _ s0 ih =>
    intro w
    cases hp : poll (w 0) s0 with
    | none => exact ⟨1, fun outs s h => by simp [List.range_succ, runF, hp] at h⟩
    | some q =>
      obtain ⟨r, s'⟩ := q
      rcases step _ _ _ _ h0 hp with ⟨b, rfl⟩ | ⟨h1, h2⟩
      · refine ⟨1, fun outs s h => ?_⟩
        simp [List.range_succ, runF, hp] at h
        exact ⟨b, by simp [← h.1]⟩
      · obtain ⟨n, hn⟩ := ih s' h2 h1 (fun i => w (i + 1))
        refine ⟨n + 1, fun outs s h => ?_⟩
        rw [range_map_succ] at h
        simp only [runF, hp] at h
        cases r with
        | ready b => simp at h; exact ⟨b, by simp [← h.1]⟩
        | pending =>
          simp only at h
          cases hq : runF poll ((List.range n).map fun i => w (i + 1)) s' with
          | none => simp [hq] at h
          | some q =>
            obtain ⟨outs', s''⟩ := q
            rw [hq] at h
            cases h
            obtain ⟨b, hb⟩ := hn _ _ hq
            exact ⟨b, by simp [hb]⟩

theorem fe_loop_due (f : κ → α → List (Poll Unit) × κ) (hf : ∀ k a, Completes (f k a).1) (w : Waker)
    (t : List (Poll (Option α))) (h : List (Waker × Poll (Option α))) (k : κ) (g : List (FeEv α))
    (hd : .ready none ∈ t) :
    (∃ u, (SForEach.loop f w t h k g).1 = .ready u) ∨
      .ready none ∈ (SForEach.loop f w t h k g).2.stream.todo ∧
      (∀ s, (SForEach.loop f w t h k g).2.future = some s → Completes s.todo) ∧
      (SForEach.loop f w t h k g).2.stream.todo.length < t.length := by
  induction t generalizing h k g with
  | nil => simp at hd
  | cons r t ih =>
    match r with
    | .pending => exact .inr ⟨by simpa [SForEach.loop] using hd, by simp [SForEach.loop], by simp [SForEach.loop]⟩
    | .ready none => exact .inl ⟨(), rfl⟩
    | .ready (some a) =>
      have hd' : .ready none ∈ t := by simpa using hd
      obtain ⟨script, k', he⟩ : ∃ script k', f k a = (script, k') := ⟨_, _, rfl⟩
      obtain ⟨r, s, hp⟩ : ∃ r s, (Src.mk' script).poll w = (r, s) := ⟨_, _, rfl⟩
      obtain ⟨u, hu⟩ := hf k a
      rw [he] at hu
      have hm := Src.poll_mem hp (x := .ready u) hu
      unfold SForEach.loop
      simp only [he, hp]
      cases r with
      | ready _ =>
        rcases ih (h ++ [(w, .ready (some a))]) k'
          (g ++ [.input w (.ready (some a))] ++ [.call a] ++ [.work w (.ready ())]) hd' with h1 | h1
        · exact .inl h1
        · exact .inr ⟨h1.1, h1.2.1, Nat.lt_succ_of_lt h1.2.2⟩
      | pending =>
        refine .inr ⟨hd', fun s' hs' => ?_, by simp⟩
        cases hs'
        exact ⟨u, hm.2 (by simp)⟩

/-- **C65.**  If the input ends when polled often enough and every future the callback gives completes
when polled often enough, then the `for_each` completes after finitely many polls. -/
theorem C65_completes (f : κ → α → List (Poll Unit) × κ) (hf : ∀ k a, Completes (f k a).1) (k0 : κ)
    (script : List (Poll (Option α))) (hs : Finite script) :
    CompletesSoon (SForEach.poll f) (SForEach.init k0 script) := by
  refine completes_of_wf (lex3_wf (fun m : SForEach κ α => m.stream.todo.length)
      (fun m => match m.future with
        | some s => s.todo.length
        | none => 0) (fun _ => 0))
    (fun m => .ready none ∈ m.stream.todo ∧ ∀ s, m.future = some s → Completes s.todo) ?_ _
    ⟨hs, by simp [SForEach.init]⟩
  rintro w ⟨⟨t, h⟩, fut, k, g⟩ r m' ⟨h1, h2⟩ hp
  unfold SForEach.poll at hp
  cases fut with
  | none =>
    simp only [Option.some.injEq] at hp
    have key := fe_loop_due f hf w t h k g h1
    rw [hp] at key
    rcases key with key | ⟨a, b, c⟩
    · exact .inl key
    · exact .inr ⟨⟨a, b⟩, .inl c⟩
  | some s =>
    obtain ⟨u, hu⟩ := h2 s rfl
    obtain ⟨q, s', hq⟩ : ∃ q s', s.poll w = (q, s') := ⟨_, _, rfl⟩
    have hm := Src.poll_mem hq (x := .ready u) hu
    simp only [hq] at hp
    cases q with
    | ready _ =>
      simp only [Option.some.injEq] at hp
      have key := fe_loop_due f hf w t h k (g ++ [.work w (.ready ())]) h1
      rw [hp] at key
      rcases key with key | ⟨a, b, c⟩
      · exact .inl key
      · exact .inr ⟨⟨a, b⟩, .inl c⟩
    | pending =>
      cases hp
      refine .inr ⟨⟨h1, fun s2 hs2 => ?_⟩, .inr ⟨rfl, .inl hm.1⟩⟩
      cases hs2
      exact ⟨u, hm.2 (by simp)⟩

/-! ## Non-vacuity -/

/-- A callback that counts its calls; the `k`-th future is pending `k` times and then completes. -/
def demoWork (k : Nat) (_ : Nat) : List (Poll Unit) × Nat :=
  (List.replicate k .pending ++ [.ready ()], k + 1)

/-- Values 7, 8, a wait, 9, the end: the first future completes at once, the second needs two polls,
the third three. -/
example : ∃ m, runF (SForEach.poll demoWork) [1, 2, 3, 4, 5]
      (SForEach.init 0 [.ready (some 7), .ready (some 8), .pending, .ready (some 9), .ready none]) =
      some ([.pending, .pending, .pending, .pending, .ready ()], m) ∧
    m.log = [.input 1 (.ready (some 7)), .call 7, .work 1 (.ready ()),
      .input 1 (.ready (some 8)), .call 8, .work 1 .pending,
      .work 2 (.ready ()), .input 2 .pending,
      .input 3 (.ready (some 9)), .call 9, .work 3 .pending, .work 4 .pending,
      .work 5 (.ready ()), .input 5 (.ready none)] := ⟨_, rfl, rfl⟩

example : ∀ k a, Completes (demoWork k a).1 := fun k _ => ⟨(), by simp [demoWork]⟩

end Verif
