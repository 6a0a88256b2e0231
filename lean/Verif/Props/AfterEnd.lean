import Verif.AfterEnd
import Verif.SignalA
import Verif.SignalB
import Verif.SignalVec1
import Verif.SignalVec2
import Verif.SignalVec3
import Verif.SignalVec4
import Verif.SignalVec5
import Verif.SignalVec6
import Verif.SignalMap
import Mathlib.Data.Nat.Basic

/-!
# Polls after the end (property C92)
-/

namespace Verif

/-! ## Lemmas -/

theorem endsForGood_of {σ β : Type} {poll : Waker → σ → Option (Poll (Option β) × σ)}
    (h : ∀ w s s', poll w s = some (.ready none, s') → ∀ w', poll w' s' = some (.ready none, s')) :
    EndsForGood poll := by
  intro w s s' he ws
  induction ws with
  | nil => rfl
  | cons w' ws ih => simp only [runOn, h w s s' he w', ih]; rfl

theorem endsAsLongAs_of {σ β A R : Type} {poll : Waker → σ → Option (Poll (Option β) × σ)}
    {inp : σ → Src (Option A)} {rest : σ → R}
    (h : ∀ w s s', poll w s = some (.ready none, s') → ∀ w' r, (inp s').todo = .ready none :: r →
      ∃ s'', poll w' s' = some (.ready none, s'') ∧
        inp s'' = ⟨r, (inp s').hist ++ [(w', .ready none)]⟩ ∧ rest s'' = rest s') :
    EndsAsLongAs poll inp rest := by
  intro w s s' he ws
  induction ws generalizing w s s' with
  | nil =>
    intro more hm
    refine ⟨s', rfl, ?_, rfl⟩
    simp only [List.length_nil, List.replicate_zero, List.nil_append] at hm
    simp [← hm]
  | cons w' ws ih =>
    intro more hm
    simp only [List.length_cons, List.replicate_succ, List.cons_append] at hm
    obtain ⟨s1, h1, h2, h3⟩ := h w s s' he w' _ hm
    obtain ⟨s2, g1, g2, g3⟩ := ih w' s' s1 h1 more (by rw [h2])
    refine ⟨s2, by simp only [runOn, h1, g1]; rfl, ?_, g3.trans h3⟩
    rw [g2, h2]
    simp

theorem src_poll_ended {A : Type} {s : Src (Option A)} {r : List (Poll (Option A))} (w : Waker)
    (h : s.todo = .ready none :: r) : s.poll w = (.ready none, ⟨r, s.hist ++ [(w, .ready none)]⟩) := by
  simp only [Src.poll, h]

theorem src_loop_ended {A σ ρ : Type} {s : Src (Option A)} {r : List (Poll (Option A))} (w : Waker)
    (body : σ → A → Ctl σ ρ) (v : σ) (h : s.todo = .ready none :: r) :
    s.loop w body v = (.ended, v, ⟨r, s.hist ++ [(w, .ready none)]⟩) := by
  simp only [Src.loop, h, pollLoop]

theorem inp_poll_dead {A : Type} {i : Inp (Option A)} (w : Waker) (h : i.alive = false) :
    i.poll w = (none, i) := by simp [Inp.poll, h]

theorem inp_loop_dead {A σ ρ : Type} {i : Inp (Option A)} (w : Waker) (body : σ → A → Ctl σ ρ) (v : σ)
    (h : i.alive = false) : i.loop w body v = (.ended, v, i) := by simp [Inp.loop, h]

theorem inp_poll_ends {A : Type} {i i' : Inp (Option A)} {w : Waker} {o : Option (Poll (Option A))}
    (h : i.poll w = (o, i')) (ho : o = none ∨ o = some (.ready none)) : i'.alive = false := by
  unfold Inp.poll at h
  split at h
  · split at h
    · cases h; rfl
    · rename_i r s hne heq
      cases h
      rcases ho with ho | ho
      · cases ho
      · cases ho
        exact (hne rfl).elim
  · cases h; simp_all

theorem inp_loop_ends {A σ ρ : Type} {i i' : Inp (Option A)} {w : Waker} {body : σ → A → Ctl σ ρ}
    {v v' : σ} (h : i.loop w body v = (.ended, v', i')) : i'.alive = false := by
  unfold Inp.loop at h
  split at h
  · split at h
    · cases h; rfl
    · cases h; simp_all
  · cases h; simp_all

/-! ## Signals that remember their end -/

theorem C92_stop_if {A κ : Type} (test : κ → A → Bool × κ) : EndsForGood (SStopIf.poll test) := by
  refine endsForGood_of ?_
  intro w s s' h w'
  unfold SStopIf.poll at h
  repeat' split at h
  all_goals first
    | (cases h; done)
    | (cases h; simp_all [SStopIf.poll])

theorem C92_first {A : Type} : EndsForGood (SFirst.poll (α := A)) := by
  refine endsForGood_of ?_
  intro w s s' h w'
  unfold SFirst.poll at h
  split at h
  · cases h; simp [SFirst.poll, Inp.poll]
  · rename_i i heq
    cases h
    simp [SFirst.poll, Inp.poll, inp_poll_ends heq (.inl rfl)]

theorem C92_from_future {A : Type} : EndsForGood (SFromFuture.poll (α := A)) := by
  refine endsForGood_of ?_
  intro w s s' h w'
  unfold SFromFuture.poll at h
  repeat' split at h
  all_goals first
    | (cases h; done)
    | (cases h; simp_all [SFromFuture.poll])

theorem C92_from_stream {A : Type} : EndsForGood (SFromStream.poll (α := A)) := by
  refine endsForGood_of ?_
  intro w s s' h w'
  unfold SFromStream.poll SFromStream.finish at h
  repeat' split at h
  all_goals first
    | (cases h; done)
    | skip
  all_goals
    simp_all
  obtain ⟨rfl⟩ := h
  rename_i heq _
  simp [SFromStream.poll, SFromStream.finish, inp_loop_dead w' _ _ (inp_loop_ends heq)]

theorem C92_always {A : Type} : EndsForGood (SAlways.poll (α := A)) := by
  refine endsForGood_of ?_
  intro w s s' h w'
  simp only [SAlways.poll, Option.some.injEq, Prod.mk.injEq] at h
  simp [SAlways.poll, ← h.2]

theorem C92_flatten {I B : Type} (g : I → List (Poll (Option B))) : EndsForGood (SFlatten.poll g) := by
  refine endsForGood_of ?_
  intro w s s' h w'
  have key : ∀ m : SFlatten I B, m.signal.alive = false →
      SFlatten.pollInner w true m = (.ready none, s') → s'.signal.alive = false ∧ s'.inner = none := by
    clear h
    intro m hm hp
    unfold SFlatten.pollInner at hp
    repeat' split at hp
    all_goals first
      | (cases hp; done)
      | (cases hp; simp_all)
  have key1 : s'.signal.alive = false ∧ s'.inner = none → SFlatten.poll g w' s' = some (.ready none, s') := by
    rintro ⟨h1, h2⟩
    obtain ⟨i, n, o⟩ := s'
    cases h2
    simp [SFlatten.poll, SFlatten.pollInner, inp_poll_dead w' h1]
  have key2 : ∀ m : SFlatten I B, SFlatten.pollInner w false m ≠ (.ready none, s') := by
    intro m hp
    unfold SFlatten.pollInner at hp
    repeat' split at hp
    all_goals first
      | (cases hp; done)
      | (cases hp; simp_all)
  unfold SFlatten.poll at h
  split at h
  · rename_i heq
    exact key1 (key _ (inp_poll_ends heq (.inl rfl)) (Option.some.inj h))
  · rename_i heq
    exact key1 (key _ (inp_poll_ends heq (.inr rfl)) (Option.some.inj h))
  · exact absurd (Option.some.inj h) (key2 _)
  · exact absurd (Option.some.inj h) (key2 _)

theorem C92_map_future {A B : Type} (g : A → List (Poll B)) : EndsForGood (SMapFuture.poll g) := by
  refine endsForGood_of ?_
  intro w s s' h w'
  unfold SMapFuture.poll at h
  split at h
  · rename_i f o i heq
    have hd := inp_loop_ends heq
    have h := Option.some.inj h
    unfold SMapFuture.finish at h
    repeat' split at h
    all_goals first
      | (cases h; done)
      | (cases h
         simp_all [SMapFuture.poll, SMapFuture.finish, inp_loop_dead w' _ _ hd])
  · have h := Option.some.inj h
    unfold SMapFuture.finish at h
    repeat' split at h
    all_goals first
      | (cases h; done)
      | simp_all
  · cases h
  · cases h

theorem C92_throttle {A : Type} (g : Nat → List (Poll Unit)) : EndsForGood (SThrottle.poll (α := A) g) := by
  refine endsForGood_of ?_
  intro w s s' h w'
  have key : ∀ m : SThrottle A, m.future = none → SThrottle.pollSignal g w m = (.ready none, s') →
      SThrottle.poll g w' s' = some (.ready none, s') := by
    intro m hm hp
    unfold SThrottle.pollSignal at hp
    split at hp
    · rename_i heq
      have hd := inp_poll_ends heq (.inl rfl)
      cases hp
      simp [SThrottle.poll, SThrottle.pollSignal, hm, inp_poll_dead w' hd]
    · rename_i heq
      have hd := inp_poll_ends heq (.inr rfl)
      cases hp
      simp [SThrottle.poll, SThrottle.pollSignal, hm, inp_poll_dead w' hd]
    · split at hp <;> cases hp
    · cases hp
  unfold SThrottle.poll at h
  split at h
  · exact key _ (by assumption) (Option.some.inj h)
  · split at h
    · exact key _ rfl (Option.some.inj h)
    · cases h

theorem pollInputs_ended {A : Type} {w : Waker} {ms ms' : List (MapRef1 A)} {r : PollResult}
    (h : pollInputs w ms = (r, ms')) (hr : r.done = true) : ∀ m ∈ ms', m.signal.alive = false := by
  induction ms generalizing ms' r with
  | nil => cases h; simp
  | cons m ms ih =>
    simp only [pollInputs] at h
    cases h
    simp only [PollResult.merge, Bool.and_eq_true] at hr
    intro x hx
    rcases List.mem_cons.1 hx with rfl | hx
    · have h1 := hr.1
      unfold MapRef1.poll at h1 ⊢
      split at h1 <;> simp_all
      · rename_i heq; exact inp_poll_ends heq (.inl rfl)
      · rename_i heq; exact inp_poll_ends heq (.inr rfl)
    · exact ih rfl hr.2 x hx

theorem pollInputs_dead {A : Type} (w : Waker) (ms : List (MapRef1 A))
    (h : ∀ m ∈ ms, m.signal.alive = false) : pollInputs w ms = (⟨true, false⟩, ms) := by
  induction ms with
  | nil => rfl
  | cons m ms ih =>
    simp only [List.mem_cons, forall_eq_or_imp] at h
    simp [pollInputs, ih h.2, MapRef1.poll, inp_poll_dead w h.1, PollResult.merge]

theorem C92_map_mut {A B : Type} (f : List A → B × List A) : EndsForGood (SMapMut.poll f) := by
  refine endsForGood_of ?_
  intro w s s' h w'
  unfold SMapMut.poll at h
  split at h
  rename_i r ms' heq
  split at h
  · split at h <;> cases h
  · split at h
    · rename_i hr
      cases h
      simp [SMapMut.poll, pollInputs_dead w' _ (pollInputs_ended heq hr)]
    · cases h

theorem C92_map_ref {A B : Type} (f : List A → B) : EndsForGood (SMapRef.poll f) := C92_map_mut _

theorem C92_and : EndsForGood SAnd.poll := C92_map_mut _

theorem C92_or : EndsForGood SOr.poll := C92_map_mut _

/-! ## Signals that ask their input again -/

theorem C92_map {A B κ : Type} (f : κ → A → B × κ) : EndsAsLongAs (SMap.poll f) (·.signal) (·.st) := by
  refine endsAsLongAs_of ?_
  intro w s s' _ w' r hr
  simp only [SMap.poll, src_poll_ended w' hr]
  exact ⟨_, rfl, rfl, rfl⟩

theorem C92_inspect {A κ : Type} (f : κ → A → κ) : EndsAsLongAs (SInspect.poll f) (·.signal) (·.st) := by
  refine endsAsLongAs_of ?_
  intro w s s' _ w' r hr
  simp only [SInspect.poll, src_poll_ended w' hr]
  exact ⟨_, rfl, rfl, rfl⟩

theorem C92_not : EndsAsLongAs SNot.poll (·.signal) (·.st) := C92_map _

theorem C92_eq {A : Type} [BEq A] :
    EndsAsLongAs (SEq.poll (α := A)) (·.signal) (fun s => (s.matched, s.value)) := by
  refine endsAsLongAs_of ?_
  intro w s s' _ w' r hr
  simp only [SEq.poll, src_loop_ended w' _ _ hr]
  exact ⟨_, rfl, rfl, rfl⟩

theorem C92_neq {A : Type} [BEq A] :
    EndsAsLongAs (SNeq.poll (α := A)) (·.signal) (fun s => (s.matched, s.value)) := by
  refine endsAsLongAs_of ?_
  intro w s s' _ w' r hr
  simp only [SNeq.poll, src_loop_ended w' _ _ hr]
  exact ⟨_, rfl, rfl, rfl⟩

theorem C92_dedupe_map {A B κ : Type} [BEq A] (f : κ → A → (B × A) × κ) :
    EndsAsLongAs (SDedupeMap.poll f) (·.signal) (fun s => (s.oldValue, s.st)) := by
  refine endsAsLongAs_of ?_
  intro w s s' _ w' r hr
  simp only [SDedupeMap.poll, src_loop_ended w' _ _ hr]
  exact ⟨_, rfl, rfl, rfl⟩

theorem C92_dedupe {A : Type} [BEq A] :
    EndsAsLongAs (SDedupe.poll (α := A)) (·.signal) (fun s => (s.oldValue, s.st)) := C92_dedupe_map _

theorem C92_filter_map {A B κ : Type} (f : κ → A → Option B × κ) :
    EndsAsLongAs (SFilterMap.poll f) (·.signal) (fun s => (s.st, s.first)) := by
  refine endsAsLongAs_of ?_
  intro w s s' _ w' r hr
  simp only [SFilterMap.poll, src_loop_ended w' _ _ hr]
  exact ⟨_, rfl, rfl, rfl⟩

theorem C92_wait_for {A : Type} [BEq A] :
    EndsAsLongAs (SWaitFor.poll (α := A)) (·.signal) (·.value) := by
  refine endsAsLongAs_of ?_
  intro w s s' _ w' r hr
  simp only [SWaitFor.poll, src_loop_ended w' _ _ hr]
  exact ⟨_, rfl, rfl, rfl⟩

theorem C92_sample_stream {A B : Type} :
    EndsAsLongAs (SSample.poll (α := A) (β := B)) (·.stream) (fun s => (s.signal, s.value)) := by
  refine endsAsLongAs_of ?_
  intro w s s' _ w' r hr
  simp only [SSample.poll, src_poll_ended w' hr]
  exact ⟨_, rfl, rfl, rfl⟩

/-- `option` and `result`: a value ends for good, a signal as long as the signal does. -/
theorem C92_option_result {A E C : Type} (f : A → C) (g : E → C) :
    (∀ w v s', SMaybe.poll f g w (.value v) = some (.ready none, s') →
      ∀ ws, runOn (SMaybe.poll f g) ws s' = some (List.replicate ws.length (.ready none), s')) ∧
    (∀ w src s', SMaybe.poll f g w (.signal src) = some (.ready none, s') → ∃ src', s' = .signal src' ∧
      ∀ ws more, src'.todo = List.replicate ws.length (.ready none) ++ more →
        runOn (SMaybe.poll f g) ws s' = some (List.replicate ws.length (.ready none),
          .signal ⟨more, src'.hist ++ ws.map fun w => (w, .ready none)⟩)) := by
  constructor
  · intro w v s' h ws
    have hs : s' = .value none := by
      cases v <;> simp only [SMaybe.poll] at h <;> cases h
      rfl
    subst hs
    induction ws with
    | nil => rfl
    | cons w ws ih => simp only [runOn, SMaybe.poll, ih]; rfl
  · intro w src s' h
    obtain ⟨src', rfl⟩ : ∃ src', s' = SMaybe.signal src' := by
      unfold SMaybe.poll at h
      simp only at h
      split at h <;> cases h
      exact ⟨_, rfl⟩
    refine ⟨src', rfl, ?_⟩
    clear h
    intro ws
    induction ws generalizing src' with
    | nil =>
      intro more hm
      simp only [List.length_nil, List.replicate_zero, List.nil_append] at hm
      simp [runOn, ← hm]
    | cons w' ws ih =>
      intro more hm
      simp only [List.length_cons, List.replicate_succ, List.cons_append] at hm
      simp only [runOn, SMaybe.poll, src_poll_ended w' hm]
      rw [ih _ more rfl]
      simp [List.replicate_succ]

/-! ## Lists that remember their end -/

theorem C92_vec_always {A : Type} : EndsForGood (VAlways.poll (α := A)) := by
  refine endsForGood_of ?_
  intro w s s' h w'
  simp only [VAlways.poll, Option.some.injEq, Prod.mk.injEq] at h
  simp [VAlways.poll, ← h.2]

theorem C92_to_signal_map {A B : Type} (callback : List A → B) : EndsForGood (VToSignal.poll callback) := by
  refine endsForGood_of ?_
  intro w s s' h w'
  unfold VToSignal.poll at h
  repeat' split at h
  all_goals first
    | (cases h; done)
    | skip
  rename_i stop v c i hp hr heq h1 h2
  subst h2
  cases h
  simp only [Bool.or_eq_true, not_or, Bool.not_eq_true] at h1
  simp [VToSignal.poll, inp_loop_dead w' _ _ (inp_loop_ends heq), h1]

theorem C92_sum {A : Type} (add : A → A → A) (zero : A) : EndsForGood (VSum.poll add zero) := by
  refine endsForGood_of ?_
  intro w s s' h w'
  unfold VSum.poll at h
  repeat' split at h
  all_goals first
    | (cases h; done)
    | skip
  rename_i stop v c i hp hr heq h1 h2
  subst h2
  cases h
  simp only [Bool.or_eq_true, not_or, Bool.not_eq_true] at h1
  simp [VSum.poll, inp_loop_dead w' _ _ (inp_loop_ends heq), h1]

theorem C92_len {A : Type} : EndsForGood (VLen.poll (α := A)) := by
  refine endsForGood_of ?_
  intro w s s' h w'
  unfold VLen.poll at h
  repeat' split at h
  all_goals first
    | (cases h; done)
    | skip
  rename_i stop v c i hp hr heq h1 h2
  subst h2
  cases h
  simp only [Bool.or_eq_true, not_or, Bool.not_eq_true] at h1
  simp [VLen.poll, inp_loop_dead w' _ _ (inp_loop_ends heq), h1]

theorem C92_is_empty {A : Type} : EndsForGood (VIsEmpty.poll (α := A)) := by
  refine endsForGood_of ?_
  intro w s s' h w'
  unfold VIsEmpty.poll at h
  repeat' split at h
  all_goals first
    | (cases h; done)
    | skip
  · simp only at h
    split at h <;> cases h
  · rename_i l heq
    cases h
    have := C92_len w s.len l heq [w']
    simp only [runOn] at this
    split at this
    · cases this
    · rename_i r l' h2
      simp only [List.length_singleton, List.replicate_one, Option.some.injEq, Prod.mk.injEq,
        List.cons.injEq, and_true] at this
      simp [VIsEmpty.poll, h2, this.1, this.2]

theorem C92_chain {A : Type} : EndsForGood (VChain.poll (α := A)) := by
  refine endsForGood_of ?_
  intro w s s' h w'
  have key : s'.pending = [] ∧ s'.left.alive = false ∧ s'.right.alive = false := by
    unfold VChain.poll at h
    repeat' split at h
    all_goals first
      | (cases h; done)
      | skip
    cases h
    simp_all
  obtain ⟨l, r, n, m, p⟩ := s'
  obtain ⟨h1, h2, h3⟩ := key
  simp only at h1 h2 h3
  subst h1
  simp [VChain.poll, VChain.processLeft, VChain.processRight, inp_poll_dead w' h2, inp_poll_dead w' h3,
    VChain.processRightChange, h2, h3]

theorem pollAllPending_ended {I B : Type} {w : Waker} {n : Nat} {p p' : List (VecDiff B)}
    {ss ss' : List (FState I B)} (h : pollAllPending w n p ss = some (true, p', ss')) :
    ∀ s ∈ ss', s.signalVec.alive = false := by
  induction ss generalizing n p ss' with
  | nil => cases h; simp
  | cons s ss ih =>
    unfold pollAllPending at h
    split at h
    · cases h
    · rename_i d q s1 h1
      split at h
      · cases h
      · rename_i d' q' ss1 h2
        simp only [Option.some.injEq, Prod.mk.injEq, Bool.and_eq_true] at h
        obtain ⟨⟨rfl, rfl⟩, rfl, rfl⟩ := h
        intro x hx
        rcases List.mem_cons.1 hx with rfl | hx
        · unfold FState.pollPending at h1
          split at h1
          · cases h1
          · cases h1
          · rename_i heq
            cases h1
            exact inp_loop_ends heq
          · cases h1
        · exact ih h2 x hx

theorem pollAllPending_dead {I B : Type} (w : Waker) (n : Nat) (p : List (VecDiff B))
    (ss : List (FState I B)) (h : ∀ s ∈ ss, s.signalVec.alive = false) :
    pollAllPending w n p ss = some (true, p, ss) := by
  induction ss generalizing n with
  | nil => rfl
  | cons s ss ih =>
    simp only [List.mem_cons, forall_eq_or_imp] at h
    simp [pollAllPending, FState.pollPending, inp_loop_dead w _ _ h.1, ih _ h.2]

theorem C92_vec_flatten {I B : Type} (g : I → List (Poll (Option (VecDiff B)))) :
    EndsForGood (VFlatten.poll g) := by
  refine endsForGood_of ?_
  intro w s s' h w'
  have key : s'.pending = [] ∧ s'.signal.alive = false ∧ ∀ x ∈ s'.inner, x.signalVec.alive = false := by
    unfold VFlatten.poll VFlatten.finish at h
    repeat' split at h
    all_goals first
      | (cases h; done)
      | skip
    · rename_i heq _ d ss hp hd
      cases h
      simp only [Bool.and_true] at hd
      subst hd
      exact ⟨rfl, inp_loop_ends heq, pollAllPending_ended hp⟩
    · simp_all
  obtain ⟨i, n, p⟩ := s'
  obtain ⟨h1, h2, h3⟩ := key
  simp only at h1 h2 h3
  subst h1
  simp [VFlatten.poll, VFlatten.finish, inp_loop_dead w' _ _ h2, pollAllPending_dead w' _ _ _ h3]

theorem pollSignals_ended {I B : Type} {w : Waker} {n : Nat} {p p' : List (VecDiff B)}
    {ss ss' : List (MState I B)} (h : pollSignals w n p ss = (false, p', ss')) (hp : p' = []) :
    p = [] ∧ ∀ s ∈ ss', s.sig.alive = false := by
  induction ss generalizing n p ss' with
  | nil => cases h; simp [hp]
  | cons s ss ih =>
    unfold pollSignals at h
    split at h
    · rename_i v i heq
      rcases hq : pollSignals w (n + 1) (p ++ [.updateAt n v]) ss with ⟨a, b, c⟩
      simp only [hq, Prod.mk.injEq] at h
      obtain ⟨rfl, rfl, rfl⟩ := h
      exact absurd (ih hq).1 (by simp)
    · rename_i heq
      rcases hq : pollSignals w (n + 1) p ss with ⟨a, b, c⟩
      simp only [hq, Prod.mk.injEq] at h
      obtain ⟨rfl, rfl, rfl⟩ := h
      obtain ⟨h1, h2⟩ := ih hq
      refine ⟨h1, ?_⟩
      simp only [List.mem_cons, forall_eq_or_imp]
      exact ⟨inp_poll_ends heq (.inr rfl), h2⟩
    · simp at h
    · rename_i heq
      rcases hq : pollSignals w (n + 1) p ss with ⟨a, b, c⟩
      simp only [hq, Prod.mk.injEq] at h
      obtain ⟨rfl, rfl, rfl⟩ := h
      obtain ⟨h1, h2⟩ := ih hq
      refine ⟨h1, ?_⟩
      simp only [List.mem_cons, forall_eq_or_imp]
      exact ⟨inp_poll_ends heq (.inl rfl), h2⟩

theorem pollSignals_dead {I B : Type} (w : Waker) (n : Nat) (p : List (VecDiff B))
    (ss : List (MState I B)) (h : ∀ s ∈ ss, s.sig.alive = false) :
    pollSignals w n p ss = (false, p, ss) := by
  induction ss generalizing n with
  | nil => rfl
  | cons s ss ih =>
    simp only [List.mem_cons, forall_eq_or_imp] at h
    simp [pollSignals, inp_poll_dead w h.1, ih _ h.2]

theorem C92_vec_map_signal {I B : Type} (g : I → List (Poll (Option B))) :
    EndsForGood (VMapSignal.poll g) := by
  refine endsForGood_of ?_
  intro w s s' h w'
  have key : s'.pending = [] ∧ s'.signal.alive = false ∧ ∀ x ∈ s'.signals, x.sig.alive = false := by
    unfold VMapSignal.poll VMapSignal.finish at h
    repeat' split at h
    all_goals first
      | (cases h; done)
      | skip
    all_goals simp only [Option.some.injEq] at h
    · rename_i heq _ d ss hp hd
      cases h
      simp only [Bool.true_and, Bool.not_eq_true', ] at hd
      subst hd
      exact ⟨rfl, inp_loop_ends heq, (pollSignals_ended hp rfl).2⟩
    · simp_all
  obtain ⟨i, n, p⟩ := s'
  obtain ⟨h1, h2, h3⟩ := key
  simp only at h1 h2 h3
  subst h1
  simp [VMapSignal.poll, VMapSignal.finish, inp_loop_dead w' _ _ h2, pollSignals_dead w' _ _ _ h3]

theorem drain_ended {A : Type} {w : Waker} {s s' : FCState A} (h : s.drain w = (false, s')) :
    s'.signal.alive = false := by
  unfold FCState.drain at h
  split at h
  · cases h
  · rename_i st b i hne heq
    cases h
    cases st with
    | ended => exact inp_loop_ends heq
    | pending => exact (hne rfl).elim
    | ret r => exact r.elim
    | panic =>
      exfalso
      have : ∀ (l : List (Poll (Option Bool))) hs b0, (pollLoop w
          (fun (_ : Bool) (b : Bool) => (Ctl.cont b : Ctl Bool Empty)) l hs b0).1 ≠ .panic := by
        intro l
        induction l with
        | nil => intro hs b0; simp [pollLoop]
        | cons p l ih =>
          intro hs b0
          cases p with
          | pending => simp [pollLoop]
          | ready o =>
            cases o with
            | none => simp [pollLoop]
            | some v => simp only [pollLoop]; exact ih _ _
      unfold Inp.loop at heq
      split at heq
      · have h2 := this s.signal.src.todo s.signal.src.hist s.isIn
        unfold Src.loop at heq
        split at heq
        · cases heq
        · rename_i h3
          cases heq
          rw [h3] at h2
          exact h2 rfl
      · cases heq

theorem drainSignals_ended {A : Type} {w : Waker} {n : Nat} {p p' : List (VecDiff A)}
    {ss ss' : List (FCState A)} (h : drainSignals w n p ss = (false, p', ss')) :
    ∀ s ∈ ss', s.signal.alive = false := by
  induction ss generalizing n p ss' p' with
  | nil => cases h; simp
  | cons s ss ih =>
    simp only [drainSignals, Prod.mk.injEq, Bool.or_eq_false_iff] at h
    obtain ⟨⟨h1, h2⟩, h3, rfl⟩ := h
    simp only [List.mem_cons, forall_eq_or_imp]
    refine ⟨drain_ended (w := w) (s := s) (by rw [← h1]), ?_⟩
    exact ih (p' := p') (Prod.ext h2 (Prod.ext h3 rfl))

theorem drainSignals_dead {A : Type} (w : Waker) (n : Nat) (p : List (VecDiff A))
    (ss : List (FCState A)) (h : ∀ s ∈ ss, s.signal.alive = false) :
    drainSignals w n p ss = (false, p, ss) := by
  induction ss generalizing n with
  | nil => rfl
  | cons s ss ih =>
    simp only [List.mem_cons, forall_eq_or_imp] at h
    simp [drainSignals, FCState.drain, inp_loop_dead w _ _ h.1, ih _ h.2]

theorem C92_vec_filter_signal {A : Type} (g : A → List (Poll (Option Bool))) :
    EndsForGood (VFilterSignal.poll g) := by
  refine endsForGood_of ?_
  intro w s s' h w'
  have key : s'.pending = [] ∧ s'.signal.alive = false ∧ ∀ x ∈ s'.signals, x.signal.alive = false := by
    unfold VFilterSignal.poll VFilterSignal.finish at h
    repeat' split at h
    all_goals first
      | (cases h; done)
      | skip
    all_goals simp only [Option.some.injEq] at h
    · rename_i heq _ d ss hp hd
      cases h
      simp only [Bool.true_and, Bool.not_eq_true'] at hd
      subst hd
      exact ⟨rfl, inp_loop_ends heq, drainSignals_ended hp⟩
    · simp_all
  obtain ⟨i, n, p⟩ := s'
  obtain ⟨h1, h2, h3⟩ := key
  simp only at h1 h2 h3
  subst h1
  simp [VFilterSignal.poll, VFilterSignal.finish, inp_loop_dead w' _ _ h2, drainSignals_dead w' _ _ _ h3]

theorem removeAll_none {A : Type} {v v' : DVars A} {is : List Nat} (h : v.removeAll is = some v')
    (hp : v'.newPending = []) : is = [] := by
  have mono : ∀ (is : List Nat) (v v' : DVars A), v.removeAll is = some v' → v.newPending ≠ [] →
      v'.newPending ≠ [] := by
    intro is
    induction is with
    | nil => intro v v' h hn; cases h; exact hn
    | cons i is ih =>
      intro v v' h hn
      simp only [DVars.removeAll] at h
      split at h
      · rename_i v1 h1
        refine ih _ _ h ?_
        unfold DVars.removeIndex at h1
        repeat' split at h1
        all_goals first
          | (cases h1; done)
          | (cases h1; simp)
      · cases h
  cases is with
  | nil => rfl
  | cons i is =>
    simp only [DVars.removeAll] at h
    split at h
    · rename_i v1 h1
      refine absurd hp (mono _ _ _ h ?_)
      unfold DVars.removeIndex at h1
      repeat' split at h1
      all_goals first
        | (cases h1; done)
        | (cases h1; simp)
    · cases h

theorem pollRemoving_ended {A : Type} {w : Waker} {n : Nat} {ss : List (DState A)}
    {l : List (DState A × Bool)} (h : pollRemoving w ss = (l, false)) (hi : indexesOf n l = []) :
    ∀ x ∈ l.map (·.1), x.isRemoving = false := by
  induction ss generalizing n l with
  | nil => cases h; simp
  | cons s ss ih =>
    simp only [pollRemoving] at h
    rcases hq : pollRemoving w ss with ⟨l1, p1⟩
    rw [hq] at h
    split at h
    · split at h
      · cases h; simp [indexesOf] at hi
      · cases h
    · rename_i hs
      cases h
      simp only [List.map_cons, List.mem_cons, forall_eq_or_imp]
      refine ⟨by simpa using hs, ih hq (n := n + 1) (by simpa [indexesOf] using hi)⟩

theorem pollRemoving_dead {A : Type} (w : Waker) (ss : List (DState A))
    (h : ∀ s ∈ ss, s.isRemoving = false) : pollRemoving w ss = (ss.map (·, false), false) := by
  induction ss with
  | nil => rfl
  | cons s ss ih =>
    simp only [List.mem_cons, forall_eq_or_imp] at h
    simp [pollRemoving, ih h.2, h.1]

theorem indexesOf_none {A : Type} (n : Nat) (ss : List (DState A)) :
    indexesOf n (ss.map (·, false)) = [] := by
  induction ss generalizing n with
  | nil => rfl
  | cons s ss ih => simp [indexesOf, ih]

theorem C92_delay_remove {A : Type} (g : A → List (Poll Unit)) : EndsForGood (VDelay.poll g) := by
  refine endsForGood_of ?_
  intro w s s' h w'
  have key : s'.pending = [] ∧ s'.signal.alive = false ∧ ∀ x ∈ s'.futures, x.isRemoving = false := by
    have fin : ∀ (d : Bool) (i : Inp (Option (VecDiff A))) v, (d = true → i.alive = false) →
        VDelay.finish w d i v = some (.ready none, s') →
        s'.pending = [] ∧ s'.signal.alive = false ∧ ∀ x ∈ s'.futures, x.isRemoving = false := by
      intro d i v hd hf
      unfold VDelay.finish at hf
      rcases hq : pollRemoving w v.futures with ⟨l, pr⟩
      simp only [hq] at hf
      split at hf
      · cases hf
      · rename_i v2 h2
        split at hf
        · cases hf
        · rename_i hnp
          split at hf
          · rename_i hc
            cases hf
            simp only [Bool.and_eq_true, Bool.not_eq_true'] at hc
            obtain ⟨rfl, rfl⟩ := hc
            refine ⟨rfl, hd rfl, ?_⟩
            have he := removeAll_none h2 hnp
            rw [he] at h2
            cases h2
            exact pollRemoving_ended hq (n := 0) (by simpa using he)
          · cases hf
    unfold VDelay.poll at h
    split at h
    · cases h
    · split at h
      · rename_i heq
        exact fin _ _ _ (fun _ => inp_loop_ends heq) h
      · exact fin _ _ _ (fun h => by cases h) h
      · cases h
  obtain ⟨i, n, p, o⟩ := s'
  obtain ⟨h1, h2, h3⟩ := key
  simp only at h1 h2 h3
  subst h1
  simp [VDelay.poll, VDelay.finish, inp_loop_dead w' _ _ h2, pollRemoving_dead w' _ h3, indexesOf_none,
    DVars.removeAll]
  exact List.map_id' n

theorem C92_switch_signal_vec {T A : Type} (g : T → List (Poll (Option (VecDiff A)))) :
    EndsForGood (VSwitch.poll g) := by
  refine endsForGood_of ?_
  intro w s s' h w'
  have key : s'.signal.alive = false ∧ s'.inner.alive = false := by
    have fin : ∀ (d : Bool) v (i : Inp (Option T)), (d = true → i.alive = false) →
        VSwitch.finish g w d v i s = some (.ready none, s') →
        s'.signal.alive = false ∧ s'.inner.alive = false := by
      intro d v i hd hf
      unfold VSwitch.finish newSignalVec at hf
      repeat' split at hf
      all_goals first
        | (cases hf; done)
        | skip
      · rename_i hn
        cases hf
        split at hn <;> cases hn
      · rename_i o inner hne1 hne2 heq hdt
        cases hf
        refine ⟨hd hdt, inp_poll_ends heq ?_⟩
        rcases o with _ | ((_ | x) | _)
        · exact .inl rfl
        · exact .inr rfl
        · exact (hne2 _ rfl).elim
        · exact (hne1 rfl).elim
      · rename_i hn
        cases hf
        split at hn <;> cases hn
      · rename_i o inner hne1 hne2 heq hdt
        cases hf
        refine ⟨hd hdt, inp_poll_ends heq ?_⟩
        rcases o with _ | ((_ | x) | _)
        · exact .inl rfl
        · exact .inr rfl
        · exact (hne2 _ rfl).elim
        · exact (hne1 rfl).elim
    unfold VSwitch.poll at h
    split at h
    · rename_i heq
      exact fin _ _ _ (fun _ => inp_loop_ends heq) h
    · exact fin _ _ _ (fun h => by cases h) h
    · cases h
  obtain ⟨i, n, p, o⟩ := s'
  obtain ⟨h2, h3⟩ := key
  simp only at h2 h3
  simp [VSwitch.poll, VSwitch.finish, inp_loop_dead w' _ _ h2, inp_poll_dead w' h3]

theorem pollEntries_ended {K V B : Type} [LinearOrder K] {w : Waker} {p p' : List (MapDiff K B)}
    {ss ss' : List (K × MState V B)} (h : pollEntries w p ss = (false, p', ss')) (hp : p' = []) :
    p = [] ∧ ∀ s ∈ ss', s.2.sig.alive = false := by
  induction ss generalizing p ss' with
  | nil => cases h; simp [hp]
  | cons s ss ih =>
    unfold pollEntries at h
    split at h
    · rename_i v i heq
      rcases hq : pollEntries w (p ++ [.update s.1 v]) ss with ⟨a, b, c⟩
      simp only [hq, Prod.mk.injEq] at h
      obtain ⟨rfl, rfl, rfl⟩ := h
      exact absurd (ih hq).1 (by simp)
    · rename_i heq
      rcases hq : pollEntries w p ss with ⟨a, b, c⟩
      simp only [hq, Prod.mk.injEq] at h
      obtain ⟨rfl, rfl, rfl⟩ := h
      obtain ⟨h1, h2⟩ := ih hq
      refine ⟨h1, ?_⟩
      simp only [List.mem_cons, forall_eq_or_imp]
      exact ⟨inp_poll_ends heq (.inr rfl), h2⟩
    · simp at h
    · rename_i heq
      rcases hq : pollEntries w p ss with ⟨a, b, c⟩
      simp only [hq, Prod.mk.injEq] at h
      obtain ⟨rfl, rfl, rfl⟩ := h
      obtain ⟨h1, h2⟩ := ih hq
      refine ⟨h1, ?_⟩
      simp only [List.mem_cons, forall_eq_or_imp]
      exact ⟨inp_poll_ends heq (.inl rfl), h2⟩

theorem pollEntries_dead {K V B : Type} [LinearOrder K] (w : Waker) (p : List (MapDiff K B))
    (ss : List (K × MState V B)) (h : ∀ s ∈ ss, s.2.sig.alive = false) :
    pollEntries w p ss = (false, p, ss) := by
  induction ss with
  | nil => rfl
  | cons s ss ih =>
    simp only [List.mem_cons, forall_eq_or_imp] at h
    simp [pollEntries, inp_poll_dead w h.1, ih h.2]

theorem C92_map_value_signal {K V B : Type} [LinearOrder K] (g : V → List (Poll (Option B))) :
    EndsForGood (MMapSignal.poll (K := K) g) := by
  refine endsForGood_of ?_
  intro w s s' h w'
  have key : s'.pending = [] ∧ s'.signal.alive = false ∧ ∀ x ∈ s'.signals, x.2.sig.alive = false := by
    unfold MMapSignal.poll MMapSignal.finish at h
    repeat' split at h
    all_goals first
      | (cases h; done)
      | skip
    all_goals simp only [Option.some.injEq] at h
    · rename_i heq _ d ss hp hd
      cases h
      simp only [Bool.true_and, Bool.not_eq_true'] at hd
      subst hd
      exact ⟨rfl, inp_loop_ends heq, (pollEntries_ended hp rfl).2⟩
    · simp_all
  obtain ⟨i, n, p⟩ := s'
  obtain ⟨h1, h2, h3⟩ := key
  simp only at h1 h2 h3
  subst h1
  simp [MMapSignal.poll, MMapSignal.finish, inp_loop_dead w' _ _ h2, pollEntries_dead w' _ _ h3]

theorem C92_map_always {K V : Type} : EndsForGood (MAlways.poll (K := K) (V := V)) := by
  refine endsForGood_of ?_
  intro w s s' h w'
  unfold MAlways.poll at h
  split at h <;> cases h
  rfl

/-! ## Lists and maps that ask their input again -/

theorem C92_vec_from_stream {A : Type} :
    EndsAsLongAs (VFromStream.poll (α := A)) (·.stream) (fun _ => ()) := by
  refine endsAsLongAs_of ?_
  intro w s s' _ w' r hr
  simp only [VFromStream.poll, src_poll_ended w' hr]
  exact ⟨_, rfl, rfl, trivial⟩

theorem C92_vec_map {A B κ : Type} (f : κ → A → B × κ) : EndsAsLongAs (VMap.poll f) (·.signal) (·.st) := by
  refine endsAsLongAs_of ?_
  intro w s s' _ w' r hr
  simp only [VMap.poll, src_poll_ended w' hr]
  exact ⟨_, rfl, rfl, rfl⟩

theorem C92_vec_filter_map {A B κ : Type} (f : κ → A → Option B × κ) :
    EndsAsLongAs (VFilterMap.poll f) (·.signal) (fun s => (s.indexes, s.st)) := by
  refine endsAsLongAs_of ?_
  intro w s s' _ w' r hr
  simp only [VFilterMap.poll, src_loop_ended w' _ _ hr]
  exact ⟨_, rfl, rfl, rfl⟩

theorem C92_vec_filter {A κ : Type} (f : κ → A → Bool × κ) :
    EndsAsLongAs (VFilter.poll f) (·.signal) (fun s => (s.indexes, s.st)) := C92_vec_filter_map _

theorem C92_enumerate {A : Type} :
    EndsAsLongAs (VEnumerate.poll (α := A)) (·.signal) (fun s => (s.mutables, s.cells)) := by
  refine endsAsLongAs_of ?_
  intro w s s' _ w' r hr
  simp only [VEnumerate.poll, src_poll_ended w' hr]
  exact ⟨_, rfl, rfl, rfl⟩

theorem C92_sort_by {A : Type} (S : SliceFns) (cmp : A → A → Ordering) :
    EndsAsLongAs (VSort.poll S cmp) (·.signal) (fun s => (s.pending, s.values, s.indexes)) := by
  refine endsAsLongAs_of ?_
  intro w s s' h w' r hr
  have hp : s'.pending = none := by
    unfold VSort.poll at h
    repeat' split at h
    all_goals first
      | (cases h; done)
      | (cases h; rfl)
  simp only [VSort.poll, hp, src_loop_ended w' _ _ hr]
  exact ⟨_, rfl, rfl, by simp⟩

theorem C92_to_signal_vec {A : Type} :
    EndsAsLongAs (VToVec.poll (α := A)) (·.signal) (fun _ => ()) := by
  refine endsAsLongAs_of ?_
  intro w s s' _ w' r hr
  simp only [VToVec.poll, src_poll_ended w' hr]
  exact ⟨_, rfl, rfl, trivial⟩

theorem C92_map_value {K V W κ : Type} (f : κ → V → W × κ) :
    EndsAsLongAs (MMapValue.poll (K := K) f) (·.signal) (·.st) := by
  refine endsAsLongAs_of ?_
  intro w s s' _ w' r hr
  simp only [MMapValue.poll, src_poll_ended w' hr]
  exact ⟨_, rfl, rfl, rfl⟩

theorem C92_key_cloned {K V : Type} [DecidableEq K] :
    EndsAsLongAs (MWatch.poll (K := K) (V := V)) (·.signal) (fun s => (s.watchKey, s.first)) := by
  refine endsAsLongAs_of ?_
  intro w s s' h w' r hr
  have hf : s'.first = false := by
    unfold MWatch.poll MWatch.finish at h
    repeat' split at h
    all_goals first
      | (cases h; done)
      | (cases h; simp_all)
  simp only [MWatch.poll, src_loop_ended w' _ _ hr, MWatch.finish, hf]
  exact ⟨_, rfl, rfl, by simp⟩

theorem C92_map_keys {K V : Type} [LinearOrder K] (bs : List K → K → Except Nat Nat) :
    EndsAsLongAs (MKeys.poll (V := V) bs) (·.signal) (·.keys) := by
  refine endsAsLongAs_of ?_
  intro w s s' _ w' r hr
  simp only [MKeys.poll, src_loop_ended w' _ _ hr]
  exact ⟨_, rfl, rfl, rfl⟩

theorem C92_map_entries {K V : Type} [LinearOrder K] (bs : List K → K → Except Nat Nat) :
    EndsAsLongAs (MEntries.poll (V := V) bs) (·.signal) (·.keys) := by
  refine endsAsLongAs_of ?_
  intro w s s' _ w' r hr
  simp only [MEntries.poll, src_poll_ended w' hr]
  exact ⟨_, rfl, rfl, rfl⟩

/-! ## What does not hold -/

/-- A future made by `to_future` that has completed panics when it is polled again. -/
theorem C92_to_future {A : Type} (w w' : Waker) (s s' : SToFuture A) (v : A)
    (r : List (Poll (Option A))) (h : SToFuture.poll w s = some (.ready v, s'))
    (hr : s'.signal.todo = .ready none :: r) : SToFuture.poll w' s' = none := by
  have hv : s'.value = none := by
    unfold SToFuture.poll at h
    repeat' split at h
    all_goals first
      | (cases h; done)
      | (cases h; rfl)
  simp only [SToFuture.poll, src_loop_ended w' _ _ hr, hv]

/-- `map` passes on what its input gives after its end. -/
theorem C92_not_for_good_map {A B κ : Type} (f : κ → A → B × κ) (k : κ) (a : A) :
    ¬ EndsForGood (SMap.poll f) := by
  intro h
  have := h 0 (SMap.init k [.ready none, .ready (some a)]) _ rfl [0]
  simp [runOn, SMap.poll, SMap.init, Src.mk', Src.poll] at this

/-- So does `map` of lists. -/
theorem C92_not_for_good_vec_map {A B κ : Type} (f : κ → A → B × κ) (k : κ) (a : A) :
    ¬ EndsForGood (VMap.poll f) := by
  intro h
  have := h 0 (VMap.init k [.ready none, .ready (some (.push a))]) _ rfl [0]
  simp [runOn, VMap.poll, VMap.init, Src.mk', Src.poll] at this

/-- `key_cloned` comes back to life. -/
theorem C92_not_for_good_key_cloned {K V : Type} [DecidableEq K] (k : K) (v : V) :
    ¬ EndsForGood (MWatch.poll (K := K) (V := V)) := by
  intro h
  have := h 0 ⟨Src.mk' [.ready none, .ready (some (.insert k v)), .pending], k, false⟩ _ rfl [0]
  simp [runOn, MWatch.poll, Src.mk', Src.loop, pollLoop, watchBody, MWatch.finish] at this

/-! ## The hypotheses are met: each of them reaches its end after doing something -/

section Demo

/-- It reaches its end. -/
def ReachesEnd {σ β : Type} (poll : Waker → σ → Option (Poll (Option β) × σ)) (s : σ) : Prop :=
  ∃ ws rs s', runOn poll ws s = some (rs ++ [.ready none], s') ∧ rs ≠ []

def endSig : List (Poll (Option Nat)) :=
  [.ready (some 1), .pending, .ready (some 2), .ready none, .ready none, .ready none]

def endVec : List (Poll (Option (VecDiff Nat))) :=
  [.ready (some (.replace [1, 2])), .pending, .ready (some .pop), .ready none, .ready none]

def endMap : List (Poll (Option (MapDiff Nat Nat))) :=
  [.ready (some (.replace [(1, 2)])), .pending, .ready (some (.remove 1)), .ready none, .ready none]

def endFns : SliceFns := ⟨fun _ l => l, fun _ _ => .ok 1⟩

example : ReachesEnd (SStopIf.poll (fun (_ : Unit) x => (x == 2, ()))) (SStopIf.init () endSig) := ⟨[0, 0, 0, 0], [_, _, _], _, rfl, by simp⟩
example : ReachesEnd (SFirst.poll) (SFirst.init endSig) := ⟨[0, 0], [_], _, rfl, by simp⟩
example : ReachesEnd (SFromFuture.poll) (SFromFuture.init [.pending, .ready 1]) := ⟨[0, 0, 0], [_, _], _, rfl, by simp⟩
example : ReachesEnd (SFromStream.poll) (SFromStream.init endSig) := ⟨[0, 0, 0], [_, _], _, rfl, by simp⟩
example : ReachesEnd (SAlways.poll) ((⟨some 1⟩ : SAlways Nat)) := ⟨[0, 0], [_], _, rfl, by simp⟩
example : ReachesEnd (SFlatten.poll fun _ : Nat => endSig) ((SFlatten.init endSig : SFlatten Nat Nat)) := ⟨[0, 0, 0, 0, 0, 0, 0], [_, _, _, _, _, _], _, rfl, by simp⟩
example : ReachesEnd (SMapFuture.poll fun n : Nat => [.pending, .ready n]) ((SMapFuture.init endSig : SMapFuture Nat Nat)) := ⟨[0, 0, 0, 0], [_, _, _], _, rfl, by simp⟩
example : ReachesEnd (SThrottle.poll fun _ => [.pending, .ready ()]) (SThrottle.init endSig) := ⟨[0, 0, 0, 0, 0], [_, _, _, _], _, rfl, by simp⟩
example : ReachesEnd (SMapRef.poll List.sum) (SMapRef.init [endSig, endSig]) := ⟨[0, 0, 0, 0], [_, _, _], _, rfl, by simp⟩
example : ReachesEnd (VAlways.poll) ((⟨some [1]⟩ : VAlways Nat)) := ⟨[0, 0], [_], _, rfl, by simp⟩
example : ReachesEnd (VToSignal.poll id) (VToSignal.init endVec) := ⟨[0, 0, 0], [_, _], _, rfl, by simp⟩
example : ReachesEnd (VSum.poll (· + ·) 0) (VToSignal.init endVec) := ⟨[0, 0, 0], [_, _], _, rfl, by simp⟩
example : ReachesEnd (VLen.poll) (VLen.init endVec) := ⟨[0, 0, 0], [_, _], _, rfl, by simp⟩
example : ReachesEnd (VIsEmpty.poll) (VIsEmpty.init endVec) := ⟨[0, 0, 0], [_, _], _, rfl, by simp⟩
example : ReachesEnd (VChain.poll) (VChain.init endVec endVec) := ⟨[0, 0, 0, 0, 0, 0, 0, 0, 0], [_, _, _, _, _, _, _, _], _, rfl, by simp⟩
example : ReachesEnd (VFlatten.poll fun _ : Nat => endVec) ((VFlatten.init endVec : VFlatten Nat Nat)) := ⟨[0, 0, 0, 0, 0, 0, 0], [_, _, _, _, _, _], _, rfl, by simp⟩
example : ReachesEnd (VMapSignal.poll fun _ : Nat => endSig) ((VMapSignal.init endVec : VMapSignal Nat Nat)) := ⟨[0, 0, 0, 0, 0, 0, 0], [_, _, _, _, _, _], _, rfl, by simp⟩
example : ReachesEnd (VFilterSignal.poll fun _ : Nat => [.ready (some true), .ready none]) (VFilterSignal.init endVec) := ⟨[0, 0, 0], [_, _], _, rfl, by simp⟩
example : ReachesEnd (VDelay.poll fun _ : Nat => [.pending, .ready ()]) (VDelay.init endVec) := ⟨[0, 0, 0, 0], [_, _, _], _, rfl, by simp⟩
example : ReachesEnd (VSwitch.poll fun _ : Nat => endVec) ((VSwitch.init endSig : VSwitch Nat Nat)) := ⟨[0, 0, 0, 0, 0, 0], [_, _, _, _, _], _, rfl, by simp⟩
example : ReachesEnd (MMapSignal.poll fun _ : Nat => endSig) ((MMapSignal.init endMap : MMapSignal Nat Nat Nat)) := ⟨[0, 0, 0, 0, 0], [_, _, _, _], _, rfl, by simp⟩
example : ReachesEnd (MAlways.poll) ((⟨some [(1, 1)]⟩ : MAlways Nat Nat)) := ⟨[0, 0], [_], _, rfl, by simp⟩
example : ReachesEnd (SMap.poll (fun (k : Nat) (x : Nat) => (x, k + 1))) (SMap.init 0 endSig) := ⟨[0, 0, 0, 0], [_, _, _], _, rfl, by simp⟩
example : ReachesEnd SOption.poll (SOption.init (some endSig)) := ⟨[0, 0, 0, 0], [_, _, _], _, rfl, by simp⟩
example : ReachesEnd SOption.poll (SOption.init (none : Option (List (Poll (Option Nat))))) :=
  ⟨[0, 0], [_], _, rfl, by simp⟩
example : ReachesEnd (SEq.poll) (SEq.init 2 endSig) := ⟨[0, 0, 0, 0], [_, _, _], _, rfl, by simp⟩
example : ReachesEnd (SDedupe.poll) (SDedupe.init () endSig) := ⟨[0, 0, 0, 0], [_, _, _], _, rfl, by simp⟩
example : ReachesEnd (SFilterMap.poll (fun (_ : Unit) (x : Nat) => (some x, ()))) (SFilterMap.init () endSig) := ⟨[0, 0, 0, 0], [_, _, _], _, rfl, by simp⟩
example : ReachesEnd (SWaitFor.poll) (SWaitFor.init 3 endSig) := ⟨[0, 0], [_], _, rfl, by simp⟩
example : ReachesEnd (SSample.poll) (SSample.init endSig endSig) := ⟨[0, 0, 0, 0], [_, _, _], _, rfl, by simp⟩
example : ReachesEnd (VFromStream.poll) ((⟨Src.mk' endSig⟩ : VFromStream Nat)) := ⟨[0, 0, 0, 0], [_, _, _], _, rfl, by simp⟩
example : ReachesEnd (VMap.poll (fun (k : Nat) (x : Nat) => (x, k + 1))) (VMap.init 0 endVec) := ⟨[0, 0, 0, 0], [_, _, _], _, rfl, by simp⟩
example : ReachesEnd (VFilterMap.poll (fun (_ : Unit) (x : Nat) => (some x, ()))) (VFilterMap.init () endVec) := ⟨[0, 0, 0, 0], [_, _, _], _, rfl, by simp⟩
example : ReachesEnd (VEnumerate.poll) (VEnumerate.init endVec) := ⟨[0, 0, 0, 0], [_, _, _], _, rfl, by simp⟩
example : ReachesEnd (VSort.poll endFns compare) (VSort.init endVec) := ⟨[0, 0, 0, 0], [_, _, _], _, rfl, by simp⟩
example : ReachesEnd (VToVec.poll) ((⟨Src.mk' [.ready (some [1]), .ready none]⟩ : VToVec Nat)) := ⟨[0, 0], [_], _, rfl, by simp⟩
example : ReachesEnd (MMapValue.poll (fun (k : Nat) (x : Nat) => (x, k + 1))) ((MMapValue.init 0 endMap : MMapValue Nat Nat Nat)) := ⟨[0, 0, 0, 0], [_, _, _], _, rfl, by simp⟩
example : ReachesEnd (MWatch.poll) ((MWatch.init 1 endMap : MWatch Nat Nat)) := ⟨[0, 0, 0], [_, _], _, rfl, by simp⟩
example : ReachesEnd (MKeys.poll fun _ _ => .ok 0) ((MKeys.init endMap : MKeys Nat Nat)) := ⟨[0, 0, 0, 0], [_, _, _], _, rfl, by simp⟩
example : ReachesEnd (MEntries.poll fun _ _ => .ok 0) ((MKeys.init endMap : MKeys Nat Nat)) := ⟨[0, 0, 0, 0], [_, _, _], _, rfl, by simp⟩

example : ∃ s', SToFuture.poll 0 (SToFuture.init [.ready (some 1), .ready none, .ready none]) = some (.ready 1, s') ∧
    s'.signal.todo = [.ready none] := ⟨_, rfl, rfl⟩

end Demo

end Verif
