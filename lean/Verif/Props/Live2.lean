import Verif.Props.Live1

/-!
# C64: combinators with one input and some state of their own
-/

namespace Verif

variable {α β κ : Type}

/-- The common shape of `to_signal_map`, `sum`, `len` and `from_stream`: a loop over the input, then
an answer that depends on whether something changed or nothing was ever emitted. -/
theorem ends_first {σ τ γ : Type} {poll : Waker → σ → Option (Poll (Option β) × σ)}
    (inp : σ → Inp (Option α)) (first : σ → Bool)
    (step : ∀ w s r s', poll w s = some (r, s') →
      ∃ (body : τ → α → Ctl τ γ) (st : Stop γ) (t t' : τ), (inp s).loop w body t = (st, t', inp s') ∧
        (st = .ended → t' = t → r = .ready none ∨ first s = true ∧ first s' = false))
    (s0 : σ) (h0 : (inp s0).Due) : EndsSoon poll s0 := by
  refine ends_lex (fun s => (inp s).left) (fun s => (first s).toNat) (fun _ => 0)
    (fun s => (inp s).Due) ?_ s0 h0
  intro w s r s' hi hp
  obtain ⟨body, st, t, t', e, h⟩ := step w s r s' hp
  obtain ⟨h1, h2 | ⟨h2, h3, h4⟩⟩ := Inp.loop_due e hi
  · exact .inr ⟨h1, .inl h2⟩
  · rcases h h4 h3 with h | ⟨ha, hb⟩
    · exact .inl h
    · refine .inr ⟨h1, .inr ⟨by simp [h2], .inl ?_⟩⟩
      simp [ha, hb]

/-- `to_signal_map`, `to_signal_cloned`. -/
theorem C64_to_signal_map (f : List α → β) (script : List (Poll (Option (VecDiff α))))
    (h : Finite script) : EndsSoon (VToSignal.poll f) (VToSignal.init script) := by
  refine ends_first (τ := List α × Bool) (γ := Empty) (·.signal) (·.first) ?_ _ (Inp.due_mk' h)
  intro w s r s' hp
  obtain ⟨st, ⟨v, c⟩, i, e⟩ : ∃ st t i, s.signal.loop w toSignalBody (s.values, false) = (st, t, i) :=
    ⟨_, _, _, rfl⟩
  refine ⟨toSignalBody, st, (s.values, false), (v, c), ?_⟩
  simp only [VToSignal.poll, e] at hp
  rw [e]
  cases st with
  | panic => cases hp
  | ret _ => cases hp
  | pending => refine ⟨?_, by simp⟩; simp only at hp; repeat' split at hp; all_goals (cases hp; rfl)
  | ended =>
    cases hf : s.first <;> cases c <;> simp [hf] at hp <;> obtain ⟨rfl, rfl⟩ := hp <;> simp

/-- `sum`. -/
theorem C64_sum (add : α → α → α) (zero : α) (script : List (Poll (Option (VecDiff α))))
    (h : Finite script) : EndsSoon (VSum.poll add zero) (VToSignal.init script) := by
  refine ends_first (τ := List α × Bool) (γ := Empty) (·.signal) (·.first) ?_ _ (Inp.due_mk' h)
  intro w s r s' hp
  obtain ⟨st, ⟨v, c⟩, i, e⟩ : ∃ st t i, s.signal.loop w sumBody (s.values, false) = (st, t, i) :=
    ⟨_, _, _, rfl⟩
  refine ⟨sumBody, st, (s.values, false), (v, c), ?_⟩
  simp only [VSum.poll, e] at hp
  rw [e]
  cases st with
  | panic => cases hp
  | ret _ => cases hp
  | pending => refine ⟨?_, by simp⟩; simp only at hp; repeat' split at hp; all_goals (cases hp; rfl)
  | ended =>
    cases hf : s.first <;> cases c <;> simp [hf] at hp <;> obtain ⟨rfl, rfl⟩ := hp <;> simp

theorem VLen.poll_live {w : Waker} {s s' : VLen α} {r : Poll (Option Nat)}
    (hp : VLen.poll w s = some (r, s')) :
    ∃ (body : Nat × Bool → VecDiff α → Ctl (Nat × Bool) Empty) (st : Stop Empty) (t t' : Nat × Bool),
      s.signal.loop w body t = (st, t', s'.signal) ∧
        (st = .ended → t' = t → r = .ready none ∨ s.first = true ∧ s'.first = false) := by
  obtain ⟨st, ⟨v, c⟩, i, e⟩ : ∃ st t i, s.signal.loop w lenBody (s.len, false) = (st, t, i) :=
    ⟨_, _, _, rfl⟩
  refine ⟨lenBody, st, (s.len, false), (v, c), ?_⟩
  simp only [VLen.poll, e] at hp
  rw [e]
  cases st with
  | panic => cases hp
  | ret _ => cases hp
  | pending => refine ⟨?_, by simp⟩; simp only at hp; repeat' split at hp; all_goals (cases hp; rfl)
  | ended =>
    cases hf : s.first <;> cases c <;> simp [hf] at hp <;> obtain ⟨rfl, rfl⟩ := hp <;> simp

/-- `len`. -/
theorem C64_len (script : List (Poll (Option (VecDiff α)))) (h : Finite script) :
    EndsSoon VLen.poll (VLen.init script) :=
  ends_first (·.signal) (·.first) (fun _ _ _ _ hp => VLen.poll_live hp) _ (Inp.due_mk' h)

/-- `is_empty`.  It does report the end when polled again; what it fails to do is to arrange for
that poll (`C20_is_empty_fails`). -/
theorem C64_is_empty (script : List (Poll (Option (VecDiff α)))) (h : Finite script) :
    EndsSoon VIsEmpty.poll (VIsEmpty.init script) := by
  refine ends_first (τ := Nat × Bool) (γ := Empty) (·.len.signal) (·.len.first) ?_ _ (Inp.due_mk' h)
  intro w s r s' hp
  simp only [VIsEmpty.poll] at hp
  cases hq : s.len.poll w with
  | none => simp [hq] at hp
  | some q =>
    obtain ⟨q, l⟩ := q
    obtain ⟨body, st, t, t', e, h⟩ := VLen.poll_live hq
    rw [hq] at hp
    have hl : s'.len = l ∧ (q = .ready none → r = .ready none) := by
      cases q with
      | pending => cases hp; simp
      | ready x =>
        cases x with
        | none => cases hp; simp
        | some n => simp only at hp; split at hp <;> cases hp <;> simp
    refine ⟨body, st, t, t', by rw [hl.1]; exact e, fun h1 h2 => ?_⟩
    rw [hl.1]
    exact (h h1 h2).imp hl.2 id

/-- `signal::from_stream`. -/
theorem C64_signal_from_stream (script : List (Poll (Option α))) (h : Finite script) :
    EndsSoon SFromStream.poll (SFromStream.init script) := by
  refine ends_first (τ := Option α) (γ := Empty) (·.stream) (·.first) ?_ _ (Inp.due_mk' h)
  intro w s r s' hp
  obtain ⟨st, v, i, e⟩ : ∃ st t i, s.stream.loop w fromStreamBody none = (st, t, i) :=
    ⟨_, _, _, rfl⟩
  refine ⟨fromStreamBody, st, none, v, ?_⟩
  simp only [SFromStream.poll, SFromStream.finish, e] at hp
  rw [e]
  cases st with
  | panic => cases hp
  | ret _ => cases hp
  | pending =>
    cases hf : s.first <;> cases v <;> simp [hf] at hp <;> obtain ⟨rfl, rfl⟩ := hp <;> simp
  | ended =>
    cases hf : s.first <;> cases v <;> simp [hf] at hp <;> obtain ⟨rfl, rfl⟩ := hp <;> simp

/-- `sort_by_cloned`, for any sort and search function. -/
theorem C64_sort_by_cloned (S : SliceFns) (cmp : α → α → Ordering)
    (script : List (Poll (Option (VecDiff α)))) (h : Finite script) :
    EndsSoon (VSort.poll S cmp) (VSort.init script) := by
  refine ends_lex (fun s => s.signal.todo.length) (fun s => s.pending.toList.length) (fun _ => 0)
    (fun s => .ready none ∈ s.signal.todo) ?_ _ h
  intro w s r s' hi hp
  cases hpe : s.pending with
  | some d =>
    simp only [VSort.poll, hpe] at hp
    cases hp
    exact .inr ⟨hi, .inr ⟨rfl, .inl (by simp [hpe])⟩⟩
  | none =>
    obtain ⟨st, t, src', e⟩ : ∃ st t src', s.signal.loop w (sortBody S cmp) (s.values, s.indexes) =
      (st, t, src') := ⟨_, _, _, rfl⟩
    have he := Src.loop_due e hi
    simp only [VSort.poll, hpe, e] at hp
    cases st with
    | panic => cases hp
    | ended => cases hp; exact .inl rfl
    | pending => cases hp; exact .inr ⟨he.2 (by simp), .inl he.1⟩
    | ret d => cases hp; exact .inr ⟨he.2 (by simp), .inl he.1⟩

/-- `first`: two polls, whatever the input does. -/
theorem C64_first (script : List (Poll (Option α))) : EndsSoon SFirst.poll (SFirst.init script) := by
  refine ends_lex (fun s => s.signal.alive.toNat) (fun _ => 0) (fun _ => 0) (fun _ => True) ?_ _
    trivial
  intro w s r s' _ hp
  cases ha : s.signal.alive with
  | false =>
    simp [SFirst.poll, Inp.poll, ha] at hp
    exact .inl hp.1.symm
  | true =>
    refine .inr ⟨trivial, .inl ?_⟩
    simp only [SFirst.poll, Inp.poll, ha, if_true] at hp
    simp only [ha]
    split at hp
    · cases hp; exact Nat.zero_lt_one
    · rename_i heq
      split at heq <;> cases heq

/-- `from_future`. -/
theorem C64_from_future (script : List (Poll α)) (h : Completes script) :
    EndsSoon SFromFuture.poll (SFromFuture.init script) := by
  refine ends_lex (fun s => s.alive.toNat) (fun s => s.future.todo.length) (fun _ => 0)
    (fun s => s.alive = true → Completes s.future.todo) ?_ _ (fun _ => h)
  intro w s r s' hi hp
  cases ha : s.alive with
  | false => simp [SFromFuture.poll, ha] at hp; exact .inl hp.1.symm
  | true =>
    obtain ⟨b, hb⟩ := hi ha
    obtain ⟨q, src', e⟩ : ∃ q src', s.future.poll w = (q, src') := ⟨_, _, rfl⟩
    have he := Src.poll_mem e hb
    simp only [SFromFuture.poll, ha, e, if_true] at hp
    cases q with
    | ready v => cases hp; exact .inr ⟨by simp, .inl (by simp [ha])⟩
    | pending =>
      have h2 : s'.future = src' ∧ s'.alive = true := by
        simp only at hp; split at hp <;> cases hp <;> simp
      exact .inr ⟨fun _ => ⟨b, by rw [h2.1]; exact he.2 (by simp)⟩,
        .inr ⟨by simp [ha, h2.2], .inl (by simpa [h2.1] using he.1)⟩⟩

/-- `always`. -/
theorem C64_always (v : Option α) : EndsSoon SAlways.poll ⟨v⟩ := by
  refine ends_lex (fun s => s.value.toList.length) (fun _ => 0) (fun _ => 0) (fun _ => True) ?_ _
    trivial
  intro w s r s' _ hp
  simp only [SAlways.poll] at hp
  cases hv : s.value with
  | none => rw [hv] at hp; cases hp; exact .inl rfl
  | some v => cases hp; exact .inr ⟨trivial, .inl (by simp [hv])⟩

/-- `signal_vec::always`. -/
theorem C64_vec_always (v : Option (List α)) : EndsSoon VAlways.poll ⟨v⟩ := by
  refine ends_lex (fun s => s.values.toList.length) (fun _ => 0) (fun _ => 0) (fun _ => True) ?_ _
    trivial
  intro w s r s' _ hp
  simp only [VAlways.poll] at hp
  cases hv : s.values with
  | none => rw [hv] at hp; cases hp; exact .inl rfl
  | some v => cases hp; exact .inr ⟨trivial, .inl (by simp [hv])⟩

/-- `signal_map::always`. -/
theorem C64_map_always {K V : Type} (v : Option (List (K × V))) : EndsSoon MAlways.poll ⟨v⟩ := by
  refine ends_lex (fun s => s.map.toList.length) (fun _ => 0) (fun _ => 0) (fun _ => True) ?_ _
    trivial
  intro w s r s' _ hp
  simp only [MAlways.poll] at hp
  cases hv : s.map with
  | none => rw [hv] at hp; cases hp; exact .inl rfl
  | some v => rw [hv] at hp; cases hp; exact .inr ⟨trivial, .inl (by simp [hv])⟩

/-- `result` and `option`, common part. -/
theorem SMaybe.ends {ε γ : Type} (f : α → γ) (g : ε → γ) (s0 : SMaybe α ε)
    (h : ∀ src, s0 = .signal src → Finite src.todo) : EndsSoon (SMaybe.poll f g) s0 := by
  refine ends_lex (fun s => match s with
      | .signal src => src.todo.length
      | .value v => v.toList.length) (fun _ => 0) (fun _ => 0)
    (fun s => ∀ src, s = .signal src → .ready none ∈ src.todo) ?_ _ h
  intro w s r s' hi hp
  match s with
  | .value (some v) => cases hp; exact .inr ⟨by simp, .inl (by simp)⟩
  | .value none => cases hp; exact .inl rfl
  | .signal src =>
    obtain ⟨q, src', e⟩ : ∃ q src', src.poll w = (q, src') := ⟨_, _, rfl⟩
    have he := Src.poll_mem e (hi src rfl)
    simp only [SMaybe.poll, e] at hp
    match q with
    | .ready (some v) =>
      cases hp
      exact .inr ⟨fun _ heq => by cases heq; exact he.2 (by simp), .inl he.1⟩
    | .ready none => cases hp; exact .inl rfl
    | .pending =>
      cases hp
      exact .inr ⟨fun _ heq => by cases heq; exact he.2 (by simp), .inl he.1⟩

/-- `result`. -/
theorem C64_result {ε : Type} (x : Except ε (List (Poll (Option α))))
    (h : ∀ script, x = .ok script → Finite script) : EndsSoon SResult.poll (SResult.init x) := by
  refine SMaybe.ends _ _ _ ?_
  intro src hs
  cases x with
  | ok script => cases hs; exact h script rfl
  | error e => cases hs

/-- `option`. -/
theorem C64_option (x : Option (List (Poll (Option α))))
    (h : ∀ script, x = some script → Finite script) : EndsSoon SOption.poll (SOption.init x) := by
  refine SMaybe.ends _ _ _ ?_
  intro src hs
  cases x with
  | some script => cases hs; exact h script rfl
  | none => cases hs

end Verif
