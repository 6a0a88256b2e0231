import Verif.Live
import Verif.SignalVec4
import Verif.SignalVec6
import Verif.SignalMap
import Verif.Props.SignalVecFold

/-!
# C64: combinators with one input report the end

For all scripts that contain the end, all callbacks with all closure states and all wakers.
-/

namespace Verif

variable {α β κ : Type}

/-- Closes the goals left after unfolding one poll. -/
local macro "live_tac" he:ident hp:ident : tactic =>
  `(tactic| (
    repeat' split at $hp:ident
    all_goals first
      | (cases $hp:ident; exact .inl rfl)
      | (cases $hp:ident; exact .inr (($he).resolve_left (by simp)))
      | (cases $hp:ident; simp_all; done)
      | (simp_all; done)))

/-! ## `SignalVec` -/

/-- `map`. -/
theorem C64_map (f : κ → α → β × κ) (k : κ) (script : List (Poll (Option (VecDiff α))))
    (h : Finite script) : EndsSoon (VMap.poll f) (VMap.init k script) := by
  refine ends_src (·.signal) ?_ _ h
  intro w s r s' hp
  obtain ⟨q, src', e⟩ : ∃ q src', s.signal.poll w = (q, src') := ⟨_, _, rfl⟩
  have he := Src.poll_eats e
  simp only [VMap.poll, e] at hp
  live_tac he hp

/-- `filter_map`. -/
theorem C64_filter_map (f : κ → α → Option β × κ) (k : κ)
    (script : List (Poll (Option (VecDiff α)))) (h : Finite script) :
    EndsSoon (VFilterMap.poll f) (VFilterMap.init k script) := by
  refine ends_src (·.signal) ?_ _ h
  intro w s r s' hp
  obtain ⟨st, t, src', e⟩ : ∃ st t src', s.signal.loop w (filterMapBody f) (s.indexes, s.st) =
    (st, t, src') := ⟨_, _, _, rfl⟩
  have he := Src.loop_eats e
  simp only [VFilterMap.poll, e] at hp
  live_tac he hp

/-- `filter`. -/
theorem C64_filter (f : κ → α → Bool × κ) (k : κ) (script : List (Poll (Option (VecDiff α))))
    (h : Finite script) : EndsSoon (VFilter.poll f) (VFilterMap.init k script) :=
  C64_filter_map _ k script h

/-- `enumerate`. -/
theorem C64_enumerate (script : List (Poll (Option (VecDiff α)))) (h : Finite script) :
    EndsSoon VEnumerate.poll (VEnumerate.init script) := by
  refine ends_src (·.signal) ?_ _ h
  intro w s r s' hp
  obtain ⟨q, src', e⟩ : ∃ q src', s.signal.poll w = (q, src') := ⟨_, _, rfl⟩
  have he := Src.poll_eats e
  simp only [VEnumerate.poll, e] at hp
  live_tac he hp

/-- `signal_vec::from_stream`. -/
theorem C64_from_stream (script : List (Poll (Option α))) (h : Finite script) :
    EndsSoon VFromStream.poll ⟨Src.mk' script⟩ := by
  refine ends_src (·.stream) ?_ _ h
  intro w s r s' hp
  obtain ⟨q, src', e⟩ : ∃ q src', s.stream.poll w = (q, src') := ⟨_, _, rfl⟩
  have he := Src.poll_eats e
  simp only [VFromStream.poll, e] at hp
  live_tac he hp

/-- `to_signal_vec`. -/
theorem C64_to_signal_vec (script : List (Poll (Option (List α)))) (h : Finite script) :
    EndsSoon VToVec.poll ⟨Src.mk' script⟩ := by
  refine ends_src (·.signal) ?_ _ h
  intro w s r s' hp
  obtain ⟨q, src', e⟩ : ∃ q src', s.signal.poll w = (q, src') := ⟨_, _, rfl⟩
  have he := Src.poll_eats e
  simp only [VToVec.poll, e] at hp
  live_tac he hp

/-! ## `Signal` -/

/-- `map`. -/
theorem C64_signal_map (f : κ → α → β × κ) (k : κ) (script : List (Poll (Option α))) (h : Finite script) :
    EndsSoon (SMap.poll f) (SMap.init k script) := by
  refine ends_src (·.signal) ?_ _ h
  intro w s r s' hp
  obtain ⟨q, src', e⟩ : ∃ q src', s.signal.poll w = (q, src') := ⟨_, _, rfl⟩
  have he := Src.poll_eats e
  simp only [SMap.poll, e] at hp
  live_tac he hp

/-- `inspect`. -/
theorem C64_inspect (f : κ → α → κ) (k : κ) (script : List (Poll (Option α))) (h : Finite script) :
    EndsSoon (SInspect.poll f) (SMap.init k script) := by
  refine ends_src (·.signal) ?_ _ h
  intro w s r s' hp
  obtain ⟨q, src', e⟩ : ∃ q src', s.signal.poll w = (q, src') := ⟨_, _, rfl⟩
  have he := Src.poll_eats e
  simp only [SInspect.poll, e] at hp
  live_tac he hp

/-- `not`. -/
theorem C64_not (script : List (Poll (Option Bool))) (h : Finite script) :
    EndsSoon SNot.poll (SMap.init () script) :=
  C64_signal_map (fun _ x => (!x, ())) () script h

/-- `stop_if`. -/
theorem C64_stop_if (f : κ → α → Bool × κ) (k : κ) (script : List (Poll (Option α))) (h : Finite script) :
    EndsSoon (SStopIf.poll f) (SStopIf.init k script) := by
  refine ends_src (·.signal) ?_ _ h
  intro w s r s' hp
  obtain ⟨q, src', e⟩ : ∃ q src', s.signal.poll w = (q, src') := ⟨_, _, rfl⟩
  have he := Src.poll_eats e
  simp only [SStopIf.poll, e] at hp
  live_tac he hp

/-- `eq`. -/
theorem C64_eq [BEq α] (value : α) (script : List (Poll (Option α))) (h : Finite script) :
    EndsSoon SEq.poll (SEq.init value script) := by
  refine ends_src (·.signal) ?_ _ h
  intro w s r s' hp
  obtain ⟨st, t, src', e⟩ : ∃ st t src', s.signal.loop w (eqBody s.value) s.matched = (st, t, src') :=
    ⟨_, _, _, rfl⟩
  have he := Src.loop_eats e
  simp only [SEq.poll, e] at hp
  live_tac he hp

/-- `neq`. -/
theorem C64_neq [BEq α] (value : α) (script : List (Poll (Option α))) (h : Finite script) :
    EndsSoon SNeq.poll (SEq.init value script) := by
  refine ends_src (·.signal) ?_ _ h
  intro w s r s' hp
  obtain ⟨st, t, src', e⟩ : ∃ st t src', s.signal.loop w (neqBody s.value) s.matched = (st, t, src') :=
    ⟨_, _, _, rfl⟩
  have he := Src.loop_eats e
  simp only [SNeq.poll, e] at hp
  live_tac he hp

/-- `dedupe_map`. -/
theorem C64_dedupe_map [BEq α] (f : κ → α → (β × α) × κ) (k : κ) (script : List (Poll (Option α))) (h : Finite script) :
    EndsSoon (SDedupeMap.poll f) (SDedupe.init k script) := by
  refine ends_src (·.signal) ?_ _ h
  intro w s r s' hp
  obtain ⟨st, t, src', e⟩ : ∃ st t src', s.signal.loop w (dedupeBody f) (s.oldValue, s.st) = (st, t, src') :=
    ⟨_, _, _, rfl⟩
  have he := Src.loop_eats e
  simp only [SDedupeMap.poll, e] at hp
  live_tac he hp

/-- `dedupe`, `dedupe_cloned`. -/
theorem C64_dedupe [BEq α] (script : List (Poll (Option α))) (h : Finite script) :
    EndsSoon SDedupe.poll (SDedupe.init () script) := C64_dedupe_map _ () script h

/-- `filter_map`. -/
theorem C64_signal_filter_map (f : κ → α → Option β × κ) (k : κ) (script : List (Poll (Option α))) (h : Finite script) :
    EndsSoon (SFilterMap.poll f) (SFilterMap.init k script) := by
  refine ends_src (·.signal) ?_ _ h
  intro w s r s' hp
  obtain ⟨st, t, src', e⟩ : ∃ st t src', s.signal.loop w (filterMapSBody f) (s.st, s.first) = (st, t, src') :=
    ⟨_, _, _, rfl⟩
  have he := Src.loop_eats e
  simp only [SFilterMap.poll, e] at hp
  live_tac he hp

/-- `wait_for`. -/
theorem C64_wait_for [BEq α] (value : α) (script : List (Poll (Option α))) (h : Finite script) :
    EndsSoon SWaitFor.poll (SWaitFor.init value script) := by
  refine ends_src (·.signal) ?_ _ h
  intro w s r s' hp
  obtain ⟨st, t, src', e⟩ : ∃ st t src', s.signal.loop w (waitForBody s.value) () = (st, t, src') :=
    ⟨_, _, _, rfl⟩
  have he := Src.loop_eats e
  simp only [SWaitFor.poll, e] at hp
  live_tac he hp

/-! ## `SignalMap` -/

section

variable {K V W : Type}

/-- `map_value`. -/
theorem C64_map_value (f : κ → V → W × κ) (k : κ) (script : List (Poll (Option (MapDiff K V)))) (h : Finite script) :
    EndsSoon (MMapValue.poll f) (MMapValue.init k script) := by
  refine ends_src (·.signal) ?_ _ h
  intro w s r s' hp
  obtain ⟨q, src', e⟩ : ∃ q src', s.signal.poll w = (q, src') := ⟨_, _, rfl⟩
  have he := Src.poll_eats e
  simp only [MMapValue.poll, e] at hp
  live_tac he hp

/-- `signal_vec_entries`. -/
theorem C64_entries [LinearOrder K] (bs : List K → K → Except Nat Nat) (script : List (Poll (Option (MapDiff K V)))) (h : Finite script) :
    EndsSoon (MEntries.poll bs) (MKeys.init script) := by
  refine ends_src (·.signal) ?_ _ h
  intro w s r s' hp
  obtain ⟨q, src', e⟩ : ∃ q src', s.signal.poll w = (q, src') := ⟨_, _, rfl⟩
  have he := Src.poll_eats e
  simp only [MEntries.poll, e] at hp
  live_tac he hp

/-- `signal_vec_keys`. -/
theorem C64_keys [LinearOrder K] (bs : List K → K → Except Nat Nat) (script : List (Poll (Option (MapDiff K V)))) (h : Finite script) :
    EndsSoon (MKeys.poll bs) (MKeys.init script) := by
  refine ends_src (·.signal) ?_ _ h
  intro w s r s' hp
  obtain ⟨st, t, src', e⟩ : ∃ st t src', s.signal.loop w (keysBody bs) s.keys = (st, t, src') :=
    ⟨_, _, _, rfl⟩
  have he := Src.loop_eats e
  simp only [MKeys.poll, e] at hp
  live_tac he hp

end

end Verif
