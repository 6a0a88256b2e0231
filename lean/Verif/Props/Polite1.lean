import Verif.Props.SignalVecFold

/-!
# C57, C58, C59 for the single-input `SignalVec` combinators

`Polite` (`Verif/Polite.lean`) is stated for all scripts, well-formed or not, all callbacks with
all closure states, and all poll schedules.
-/

namespace Verif

variable {α β κ : Type}

/-- What one poll of an input that has not ended does to it. -/
theorem Src.poll_any (w : Waker) (src : Src (Option α)) (hne : ¬ src.ended) :
    ∃ r src', src.poll w = (r, src') ∧ src'.fused ∧ (src'.ended ↔ r = .ready none) ∧
      (r = .pending → src'.armed w) := by
  obtain ⟨r, src', h1, h2, -, -, h5⟩ := Src.poll_rule w src hne
  refine ⟨r, src', h1, h2, ?_⟩
  cases r with
  | pending => exact ⟨by simpa using h5.1, fun _ => h5.2⟩
  | ready x =>
    cases x with
    | none => exact ⟨by simpa using h5, by simp⟩
    | some a => exact ⟨by simpa using h5, by simp⟩

/-- `map` (C57, C58, C59). -/
theorem C57_map (f : κ → α → β × κ) (k : κ) (script : List (Poll (Option (VecDiff α)))) :
    Polite (VMap.poll f) (·.signal) (VMap.init k script) := by
  refine polite_of_step (fun s => ¬ s.signal.ended) (fun s h => fused_of_not_ended h) ?_ _
    (not_ended_mk' _)
  intro w s r s' hl hp
  obtain ⟨q, src', h1, h2, h3, h4⟩ := Src.poll_any w s.signal hl
  simp only [VMap.poll, h1] at hp
  cases q with
  | pending => cases hp; exact ⟨by simpa using h3, h4 rfl⟩
  | ready x =>
    cases x with
    | none => cases hp; exact ⟨h2, h3.2 rfl⟩
    | some a => cases hp; simpa using h3

/-- `filter_map` (C57, C58, C59). -/
theorem C57_filter_map (f : κ → α → Option β × κ) (k : κ)
    (script : List (Poll (Option (VecDiff α)))) :
    Polite (VFilterMap.poll f) (·.signal) (VFilterMap.init k script) := by
  refine polite_of_step (fun s => ¬ s.signal.ended) (fun s h => fused_of_not_ended h) ?_ _
    (not_ended_mk' _)
  intro w s r s' hl hp
  obtain ⟨st, ⟨ix, k'⟩, src', h1, h2, h3, h4⟩ :=
    Src.loop_any w (filterMapBody f) s.signal (s.indexes, s.st) hl
  simp only [VFilterMap.poll, h1] at hp
  cases st with
  | pending => cases hp; exact ⟨by simpa using h3, h4 rfl⟩
  | ended => cases hp; exact ⟨h2, h3.2 rfl⟩
  | ret d => cases hp; simpa using h3
  | panic => cases hp

/-- `filter` (C57, C58, C59). -/
theorem C57_filter (f : κ → α → Bool × κ) (k : κ) (script : List (Poll (Option (VecDiff α)))) :
    Polite (VFilter.poll f) (·.signal) (VFilterMap.init k script) :=
  C57_filter_map _ k script

/-- `enumerate` (C57, C58, C59). -/
theorem C57_enumerate (script : List (Poll (Option (VecDiff α)))) :
    Polite VEnumerate.poll (·.signal) (VEnumerate.init script) := by
  refine polite_of_step (fun s => ¬ s.signal.ended) (fun s h => fused_of_not_ended h) ?_ _
    (not_ended_mk' _)
  intro w s r s' hl hp
  obtain ⟨q, src', h1, h2, h3, h4⟩ := Src.poll_any w s.signal hl
  simp only [VEnumerate.poll, h1] at hp
  cases q with
  | pending => cases hp; exact ⟨by simpa using h3, h4 rfl⟩
  | ready x =>
    cases x with
    | none => cases hp; exact ⟨h2, h3.2 rfl⟩
    | some a =>
      simp only at hp
      cases he : enumChange s.mutables s.cells a with
      | none => simp [he] at hp
      | some q => obtain ⟨d, m, c⟩ := q; simp only [he] at hp; cases hp; simpa using h3

/-- `to_signal_map`, `to_signal_cloned` (C57, C58, C59). -/
theorem C57_to_signal_map (f : List α → β) (script : List (Poll (Option (VecDiff α)))) :
    Polite (VToSignal.poll f) (·.signal.src) (VToSignal.init script) := by
  refine polite_of_step (fun s => s.signal.Ok) (fun s h => h.fused) ?_ _ (Inp.ok_mk' _)
  intro w s r s' hl hp
  obtain ⟨st, ⟨v, c⟩, i', h1, h2, h3, h4⟩ := Inp.loop_any w toSignalBody s.signal (s.values, false) hl
  simp only [VToSignal.poll, h1] at hp
  cases st with
  | panic => cases hp
  | ret r => cases hp
  | ended =>
    by_cases hc : (c || s.first) = true
    · simp only [hc, if_true] at hp; cases hp; exact h2
    · simp only [hc, if_true] at hp; cases hp
      exact ⟨h2.fused, h2.dead.2 (h3.2 rfl)⟩
  | pending =>
    by_cases hc : (c || s.first) = true
    · simp only [hc, if_true] at hp; cases hp; exact h2
    · simp [hc] at hp; obtain ⟨rfl, rfl⟩ := hp
      exact ⟨h2, h4 rfl⟩

/-- `sum` (C57, C58, C59). -/
theorem C57_sum (add : α → α → α) (zero : α) (script : List (Poll (Option (VecDiff α)))) :
    Polite (VSum.poll add zero) (·.signal.src) (VToSignal.init script) := by
  refine polite_of_step (fun s => s.signal.Ok) (fun s h => h.fused) ?_ _ (Inp.ok_mk' _)
  intro w s r s' hl hp
  obtain ⟨st, ⟨v, c⟩, i', h1, h2, h3, h4⟩ := Inp.loop_any w sumBody s.signal (s.values, false) hl
  simp only [VSum.poll, h1] at hp
  cases st with
  | panic => cases hp
  | ret r => cases hp
  | ended =>
    by_cases hc : (c || s.first) = true
    · simp only [hc, if_true] at hp; cases hp; exact h2
    · simp only [hc, if_true] at hp; cases hp
      exact ⟨h2.fused, h2.dead.2 (h3.2 rfl)⟩
  | pending =>
    by_cases hc : (c || s.first) = true
    · simp only [hc, if_true] at hp; cases hp; exact h2
    · simp [hc] at hp; obtain ⟨rfl, rfl⟩ := hp
      exact ⟨h2, h4 rfl⟩

/-- One poll of `len`, towards its input. -/
theorem VLen.poll_any {w : Waker} {s s' : VLen α} {r : Poll (Option Nat)} (hl : s.signal.Ok)
    (hp : VLen.poll w s = some (r, s')) :
    s'.signal.Ok ∧ (s'.signal.src.ended ∨ s'.signal.src.armed w) ∧
      match r with
      | .ready (some _) => True
      | .ready none => s'.signal.src.ended
      | .pending => s'.signal.src.armed w := by
  obtain ⟨st, ⟨v, c⟩, i', h1, h2, h3, h4⟩ := Inp.loop_any w lenBody s.signal (s.len, false) hl
  simp only [VLen.poll, h1] at hp
  cases st with
  | panic => cases hp
  | ret r => cases hp
  | ended =>
    by_cases hc : (c || s.first) = true
    · simp only [hc, if_true] at hp; cases hp; exact ⟨h2, .inl (h2.dead.2 (h3.2 rfl)), trivial⟩
    · simp only [hc, if_true] at hp; cases hp
      exact ⟨h2, .inl (h2.dead.2 (h3.2 rfl)), h2.dead.2 (h3.2 rfl)⟩
  | pending =>
    by_cases hc : (c || s.first) = true
    · simp only [hc, if_true] at hp; cases hp; exact ⟨h2, .inr (h4 rfl), trivial⟩
    · simp [hc] at hp; obtain ⟨rfl, rfl⟩ := hp
      exact ⟨h2, .inr (h4 rfl), h4 rfl⟩

/-- `len` (C57, C58, C59). -/
theorem C57_len (script : List (Poll (Option (VecDiff α)))) :
    Polite VLen.poll (·.signal.src) (VLen.init script) := by
  refine polite_of_step (fun s => s.signal.Ok) (fun s h => h.fused) ?_ _ (Inp.ok_mk' _)
  intro w s r s' hl hp
  obtain ⟨h1, h2, h3⟩ := VLen.poll_any hl hp
  cases r with
  | pending => exact ⟨h1, h3⟩
  | ready x =>
    cases x with
    | none => exact ⟨h1.fused, h3⟩
    | some a => exact h1

/-- `is_empty` (C57 partial; C58, C59).  Missing: after `Pending` the input may have ended instead
of being armed (`C20_is_empty_fails`). -/
theorem C57_is_empty_partial (script : List (Poll (Option (VecDiff α)))) (ws : List Waker)
    (outs : List (Poll (Option Bool))) (s : VIsEmpty α)
    (h : run VIsEmpty.poll ws (VIsEmpty.init script) = some (outs, s)) :
    s.len.signal.src.fused ∧ (.ready none ∈ outs → s.len.signal.src.ended) ∧
    (∀ w, ws.getLast? = some w → outs.getLast? = some .pending →
      s.len.signal.src.ended ∨ s.len.signal.src.armed w) := by
  have hstep : ∀ w (s : VIsEmpty α) r s', s.len.signal.Ok → VIsEmpty.poll w s = some (r, s') →
      s'.len.signal.Ok ∧ (s'.len.signal.src.ended ∨ s'.len.signal.src.armed w) ∧
      (r = .ready none → s'.len.signal.src.ended) := by
    intro w s r s' hl hp
    simp only [VIsEmpty.poll] at hp
    cases hq : s.len.poll w with
    | none => simp [hq] at hp
    | some q =>
      obtain ⟨q, l⟩ := q
      obtain ⟨h1, h2, h3⟩ := VLen.poll_any hl hq
      rw [hq] at hp
      cases q with
      | pending => cases hp; exact ⟨h1, h2, by simp⟩
      | ready x =>
        cases x with
        | none => cases hp; exact ⟨h1, h2, fun _ => h3⟩
        | some n =>
          simp only at hp
          split at hp <;> cases hp <;> exact ⟨h1, h2, by simp⟩
  rcases run_last (fun s => s.len.signal.Ok) (fun w s r s' hl hp _ => (hstep w s r s' hl hp).1) h
      (Inp.ok_mk' _) with ⟨rfl, rfl⟩ | ⟨w, s1, r, g1, g2, g3, g4, g5⟩
  · exact ⟨(Inp.ok_mk' _).fused, by simp, by simp⟩
  · obtain ⟨a1, a2, a3⟩ := hstep w s1 r s g1 g2
    refine ⟨a1.fused, fun hm => a3 (g5 hm), fun w' hw' hp => ?_⟩
    rw [g3] at hp
    cases hp
    rw [g4 (by simp)] at hw'
    cases hw'
    exact a2

/-- `from_stream` (C57, C58, C59). -/
theorem C57_from_stream (script : List (Poll (Option α))) :
    Polite VFromStream.poll (·.stream) ⟨Src.mk' script⟩ := by
  refine polite_of_step (fun s => ¬ s.stream.ended) (fun s h => fused_of_not_ended h) ?_ _
    (not_ended_mk' _)
  intro w s r s' hl hp
  obtain ⟨q, src', h1, h2, h3, h4⟩ := Src.poll_any w s.stream hl
  simp only [VFromStream.poll, h1] at hp
  cases q with
  | pending => cases hp; exact ⟨by simpa using h3, h4 rfl⟩
  | ready x =>
    cases x with
    | none => cases hp; exact ⟨h2, h3.2 rfl⟩
    | some a => cases hp; simpa using h3

/-- A concrete run meeting the hypotheses of the last clause of `Polite`: `map` ends on `Pending`,
and its input is armed with the waker 7 of that poll. -/
example : ∃ outs s, run (VMap.poll (logging (· + 1))) [5, 6, 7] (VMap.init [] demoScript) = some (outs, s) ∧
    outs.getLast? = some .pending ∧ s.signal.hist.getLast? = some (7, .pending) :=
  ⟨_, _, rfl, by decide, by decide⟩

end Verif
