import Verif.Sink
import Verif.PipeMut

/-!
# Proofs about signals at the end of a pipeline
-/

namespace Verif

variable {α β γ σ : Type}

/-- After each poll the input has ended, or it is armed with the waker of that poll. -/
def Drains (poll : Waker → σ → Option (Poll (Option γ) × σ)) (Live : σ → Prop)
    (input : σ → Src (Option (VecDiff β))) : Prop :=
  ∀ w s r s', Live s → poll w s = some (r, s') → Live s' ∧ (input s').fused ∧
    ((input s').ended ∨ (input s').armed w ∧ r ≠ .ready none)

theorem SinkRel.rest {poll : Waker → σ → Option (Poll (Option γ) × σ)}
    {init : List (Poll (Option (VecDiff β))) → σ} {input : σ → Src (Option (VecDiff β))}
    {u : Trace β} {t : SigTrace γ} (Live : σ → Prop) (h : SinkRel poll init input u t)
    (h0 : ∀ x, Live (init x)) (hd : Drains poll Live input) {x : Waker} {r : Poll (Option γ)}
    (hl : t.getLast? = some (x, r)) :
    u.getLast? = some (x, .pending) ∧ r ≠ .ready none ∨ ∃ y, u.getLast? = some (y, .ready none) := by
  obtain ⟨s, h1, h2⟩ := h
  rcases run_last Live (fun w s r s' hl hp _ => (hd w s r s' hl hp).1) h1 (h0 _) with
    ⟨h3, -⟩ | ⟨w, s1, q, g1, g2, g3, g4, -⟩
  · simp only [List.map_eq_nil_iff] at h3
    subst h3
    simp at hl
  · obtain ⟨-, k2, k3⟩ := hd w s1 q s g1 g2
    rw [List.getLast?_map, hl] at g3
    cases g3
    rcases k3 with k3 | ⟨k3, k4⟩
    · obtain ⟨y, hy⟩ := last_of_fused k2 k3
      exact .inr ⟨y, by rw [← h2]; exact hy⟩
    · have := g4 k4
      rw [List.getLast?_map, hl] at this
      cases this
      exact .inl ⟨by rw [← h2]; exact k3, k4⟩

theorem VToSignal.drains (f : List β → γ) :
    Drains (VToSignal.poll f) (fun s => s.signal.Ok) (·.signal.src) := by
  intro w s r s' hl hp
  obtain ⟨st, ⟨v, c⟩, i', h1, h2, h3, h4⟩ := Inp.loop_any w toSignalBody s.signal (s.values, false) hl
  simp only [VToSignal.poll, h1] at hp
  cases st with
  | panic => cases hp
  | ret r => cases hp
  | ended =>
    have := h2.dead.2 (h3.2 rfl)
    simp only at hp
    split at hp
    · cases hp; exact ⟨h2, h2.fused, .inl this⟩
    · simp only [↓reduceIte] at hp
      cases hp; exact ⟨h2, h2.fused, .inl this⟩
  | pending =>
    simp only at hp
    split at hp
    · cases hp; exact ⟨h2, h2.fused, .inr ⟨h4 rfl, by simp⟩⟩
    · simp only [reduceCtorEq, ↓reduceIte] at hp
      cases hp; exact ⟨h2, h2.fused, .inr ⟨h4 rfl, by simp⟩⟩

theorem VSum.drains (add : β → β → β) (zero : β) :
    Drains (VSum.poll add zero) (fun s => s.signal.Ok) (·.signal.src) := by
  intro w s r s' hl hp
  obtain ⟨st, ⟨v, c⟩, i', h1, h2, h3, h4⟩ := Inp.loop_any w sumBody s.signal (s.values, false) hl
  simp only [VSum.poll, h1] at hp
  cases st with
  | panic => cases hp
  | ret r => cases hp
  | ended =>
    have := h2.dead.2 (h3.2 rfl)
    simp only at hp
    split at hp
    · cases hp; exact ⟨h2, h2.fused, .inl this⟩
    · simp only [↓reduceIte] at hp
      cases hp; exact ⟨h2, h2.fused, .inl this⟩
  | pending =>
    simp only at hp
    split at hp
    · cases hp; exact ⟨h2, h2.fused, .inr ⟨h4 rfl, by simp⟩⟩
    · simp only [reduceCtorEq, ↓reduceIte] at hp
      cases hp; exact ⟨h2, h2.fused, .inr ⟨h4 rfl, by simp⟩⟩

theorem VLen.drains :
    Drains (VLen.poll (α := β)) (fun s => s.signal.Ok) (·.signal.src) := by
  intro w s r s' hl hp
  obtain ⟨h1, h2, h3⟩ := VLen.poll_any hl hp
  refine ⟨h1, h1.fused, ?_⟩
  rcases h2 with h2 | h2
  · exact .inl h2
  · by_cases hr : r = .ready none
    · subst hr; exact .inl h3
    · exact .inr ⟨h2, hr⟩

theorem VIsEmpty.drains :
    Drains (VIsEmpty.poll (α := β)) (fun s => s.len.signal.Ok) (·.len.signal.src) := by
  intro w s r s' hl hp
  simp only [VIsEmpty.poll] at hp
  cases hq : s.len.poll w with
  | none => simp [hq] at hp
  | some q =>
    obtain ⟨q, l⟩ := q
    obtain ⟨h1, h2, h3⟩ := VLen.poll_any hl hq
    rw [hq] at hp
    cases q with
    | pending => cases hp; exact ⟨h1, h1.fused, .inr ⟨h3, by simp⟩⟩
    | ready x =>
      cases x with
      | none => cases hp; exact ⟨h1, h1.fused, .inl h3⟩
      | some n =>
        simp only at hp
        split at hp <;> cases hp <;> exact ⟨h1, h1.fused, h2.imp id fun h => ⟨h, by simp⟩⟩

/-- At every moment, the last poll of a sink has emptied its input. -/
theorem Sink.rest (k : Sink β γ) {u : Trace β} {t : SigTrace γ} (h : k.Exec u t) {x : Waker}
    {r : Poll (Option γ)} (hl : t.getLast? = some (x, r)) :
    u.getLast? = some (x, .pending) ∧ r ≠ .ready none ∨ ∃ y, u.getLast? = some (y, .ready none) := by
  cases k with
  | toSignalMap f => exact SinkRel.rest _ h (fun _ => Inp.ok_mk' _) (VToSignal.drains f) hl
  | toSignalCloned => exact SinkRel.rest _ h (fun _ => Inp.ok_mk' _) (VToSignal.drains id) hl
  | sum add zero => exact SinkRel.rest _ h (fun _ => Inp.ok_mk' _) (VSum.drains add zero) hl
  | len => exact SinkRel.rest _ h (fun _ => Inp.ok_mk' _) VLen.drains hl
  | isEmpty => exact SinkRel.rest _ h (fun _ => Inp.ok_mk' _) VIsEmpty.drains hl

/-- The last value of a sink is the value of its input's contents. -/
theorem Sink.last_value (k : Sink β γ) (hk : k.Lawful) {u : Trace β} {t : SigTrace γ}
    (h : k.Exec u t) {zs : List β} (hz : replay u.diffs [] = some zs) (ht : t ≠ []) :
    t.last = some (k.value zs) ∧ ∃ b, t.head?.map (·.2) = some (.ready (some b)) := by
  have hws : t.map (·.1) ≠ [] := by simpa using ht
  cases k with
  | toSignalMap f =>
    obtain ⟨s, h1, h2⟩ := h
    obtain ⟨outs, s', xs, g1, g2, g3, g4⟩ := C18_to_signal_map f u.answers ⟨zs, hz⟩ _ hws
    rw [h1] at g1; cases g1
    rw [Src.got, h2] at g2
    cases g2.symm.trans hz
    exact ⟨g3, by simpa [List.head?_map] using g4⟩
  | toSignalCloned =>
    obtain ⟨s, h1, h2⟩ := h
    obtain ⟨outs, s', xs, g1, g2, g3, g4⟩ := C18_to_signal_map id u.answers ⟨zs, hz⟩ _ hws
    rw [h1] at g1; cases g1
    rw [Src.got, h2] at g2
    cases g2.symm.trans hz
    exact ⟨g3, by simpa [List.head?_map] using g4⟩
  | sum add zero =>
    obtain ⟨s, h1, h2⟩ := h
    obtain ⟨outs, s', xs, g1, g2, g3, g4⟩ := C21_sum (zero := zero) hk.1 hk.2 u.answers ⟨zs, hz⟩ _ hws
    rw [h1] at g1; cases g1
    rw [Src.got, h2] at g2
    cases g2.symm.trans hz
    exact ⟨g3, by simpa [List.head?_map] using g4⟩
  | len =>
    obtain ⟨s, h1, h2⟩ := h
    obtain ⟨outs, s', xs, g1, g2, g3, g4⟩ := C19_len_partial u.answers ⟨zs, hz⟩ _ hws
    rw [h1] at g1; cases g1
    rw [Src.got, h2] at g2
    cases g2.symm.trans hz
    exact ⟨g3, by simpa [List.head?_map] using g4⟩
  | isEmpty =>
    obtain ⟨s, h1, h2⟩ := h
    obtain ⟨outs, s', xs, g1, g2, g3, g4, -⟩ := C20_is_empty_partial u.answers ⟨zs, hz⟩ _ hws
    rw [h1] at g1; cases g1
    rw [Src.got, h2] at g2
    cases g2.symm.trans hz
    exact ⟨g3, by simpa [List.head?_map] using g4⟩

end Verif
