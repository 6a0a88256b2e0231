import Verif.BroadcasterPanic
import Verif.Props.Broadcaster

/-!
# Panics of user code under the lock of a `Broadcaster` (property C76)

`runE (PWorld.step f) (PWorld.new script) es = some (os, p)`: the history `es`, in which the input and
the callbacks may panic, is possible, and its events end as `os` says.  `due`, `values`, `seen` and
`ended` are in `Verif/BroadcasterSpec.lean`.
-/

namespace Verif.Bc

variable {α β : Type}

/-- The event without its panic. -/
def PEv.calm : PEv → Ev
  | .call e => e
  | .callbackPanics i w => .poll i w
  | .inputPanics i w _ _ => .poll i w

/-- The event polls a subscriber. -/
def PEv.IsPoll (e : PEv) : Prop := ∃ i w, e.calm = .poll i w

/-- An event ended as one whose outcome was `o'`; or it is a poll with a callback that panics, it did,
and without the panic it would have produced a value. -/
def PEv.Agrees (e : PEv) (o : Outcome α β) (o' : Out α β) : Prop :=
  o = .done o' ∨
    (o = .panicked ∧ (∃ i w, e = .callbackPanics i w) ∧ ∃ b, o'.answer = some (.ready (some b)))

/-! ## Lemmas -/

theorem loopPanics_done {m m' : World α} {self ch ch' : Bool} {n : Nat} {sc : List (Step α)}
    (h : m.loopPanics self ch n sc = (false, ch', m')) : m.loop ch sc = (ch', m') := by
  induction n generalizing m ch sc with
  | zero => simp [World.loopPanics] at h
  | succ n ih =>
    cases sc with
    | nil => simpa [World.loopPanics, World.loop] using h
    | cons x rest =>
      obtain ⟨s, r⟩ := x
      cases r with
      | pending => simpa [World.loopPanics, World.loop] using h
      | ready r =>
        cases r with
        | none => simpa [World.loopPanics, World.loop] using h
        | some a =>
          simp only [World.loopPanics] at h
          simp only [World.loop]
          exact ih h

theorem finish_eq {m : World α} {i : Nat} {w : Waker} {f : α → β} {o : Outcome α β} {p' : PWorld α}
    (h : PWorld.finish m i w f = some (o, p')) :
    ∃ r, m.decide i w f = some (r, p'.m) ∧ o = .done ⟨some r, p'.m.hist, p'.m.woken⟩ ∧
      p'.poisoned = false := by
  unfold PWorld.finish at h
  split at h
  · cases h
  · rename_i r m' hd
    cases h
    exact ⟨r, hd, rfl, rfl⟩

theorem finishPanics_eq {m : World α} {c : Bool} {i : Nat} {w : Waker} {f : α → β} {o : Outcome α β}
    {p' : PWorld α} (h : PWorld.finishPanics m c i w f = some (o, p')) :
    ∃ r, m.decide i w f = some (r, p'.m) ∧
      ((o = .done ⟨some r, p'.m.hist, p'.m.woken⟩ ∧ p'.poisoned = false) ∨
        (o = .panicked ∧ p'.poisoned = c ∧ ∃ b, r = .ready (some b))) := by
  unfold PWorld.finishPanics at h
  split at h
  · cases h
  · rename_i b m' hd
    cases h
    exact ⟨_, hd, .inr ⟨rfl, rfl, b, rfl⟩⟩
  · rename_i r m' _ hd
    cases h
    exact ⟨r, hd, .inl ⟨rfl, rfl⟩⟩

/-- A step on a lock that is not poisoned. -/
theorem pstep_sound {f : Nat → α → β} {p p' : PWorld α} {e : PEv} {o : Outcome α β}
    (hp : p.poisoned = false) (h : p.step f e = some (o, p')) :
    (p'.poisoned = false → ∃ o', p.m.step f e.calm = some (o', p'.m) ∧ e.Agrees o o') ∧
    (o = .panicked → e.IsPoll ∧ p'.poisoned = p.m.isChanged) ∧
    ((∃ o', o = .done o') → p'.poisoned = false) := by
  cases e with
  | call e =>
    have key : ∀ o1 m1, p.m.step f e = some (o1, m1) → o = .done o1 → p' = ⟨m1, false⟩ →
        (p'.poisoned = false → ∃ o', p.m.step f (PEv.call e).calm = some (o', p'.m) ∧
          (PEv.call e).Agrees o o') ∧
        (o = .panicked → (PEv.call e).IsPoll ∧ p'.poisoned = p.m.isChanged) ∧
        ((∃ o', o = .done o') → p'.poisoned = false) := by
      rintro o1 m1 hs rfl rfl
      exact ⟨fun _ => ⟨o1, hs, .inl rfl⟩, fun k => (by cases k), fun _ => rfl⟩
    cases e with
    | poll i w =>
      simp only [PWorld.step, hp, Bool.false_eq_true, if_false] at h
      split at h
      · cases h
      · rename_i o1 m1 hs
        cases h
        exact key _ _ hs rfl rfl
    | wake =>
      simp only [PWorld.step] at h
      split at h
      · cases h
      · rename_i o1 m1 hs
        cases h
        exact key _ _ hs rfl (by rw [hp])
    | subscribe =>
      simp only [PWorld.step] at h
      split at h
      · cases h
      · rename_i o1 m1 hs
        cases h
        exact key _ _ hs rfl (by rw [hp])
    | dropSub i =>
      simp only [PWorld.step] at h
      split at h
      · cases h
      · rename_i o1 m1 hs
        cases h
        exact key _ _ hs rfl (by rw [hp])
  | callbackPanics i w =>
    simp only [PWorld.step, hp, Bool.false_eq_true, if_false] at h
    split at h
    · rename_i hi
      split at h
      · rename_i hc
        obtain ⟨r, hd, ho⟩ := finishPanics_eq h
        have hs : p.m.step f (.poll i w) = some (⟨some r, p'.m.hist, p'.m.woken⟩, p'.m) := by
          simp only [World.step, hi, and_self, if_true, World.pollChange]
          rw [if_pos (by exact hc), hd]
        rcases ho with ⟨rfl, h2⟩ | ⟨rfl, h2, b, rfl⟩
        · exact ⟨fun _ => ⟨_, hs, .inl rfl⟩, fun k => (by cases k), fun _ => h2⟩
        · refine ⟨fun k => ?_, fun _ => ⟨⟨i, w, rfl⟩, h2.trans hc.symm⟩, fun ⟨_, k⟩ => (by cases k)⟩
          rw [h2] at k; cases k
      · rename_i hc
        have hc' : p.m.isChanged = false := by simpa using hc
        obtain ⟨r, hd, ho⟩ := finishPanics_eq h
        have hs : p.m.step f (.poll i w) = some (⟨some r, p'.m.hist, p'.m.woken⟩, p'.m) := by
          simp only [World.step, hi, and_self, if_true, World.pollChange]
          rw [if_neg (by exact hc), hd]
        rcases ho with ⟨rfl, h2⟩ | ⟨rfl, h2, b, rfl⟩
        · exact ⟨fun _ => ⟨_, hs, .inl rfl⟩, fun k => (by cases k), fun _ => h2⟩
        · exact ⟨fun _ => ⟨_, hs, .inr ⟨rfl, ⟨i, w, rfl⟩, b, rfl⟩⟩,
            fun _ => ⟨⟨i, w, rfl⟩, h2.trans hc'.symm⟩, fun ⟨_, k⟩ => (by cases k)⟩
    · cases h
  | inputPanics i w n self =>
    simp only [PWorld.step, hp, Bool.false_eq_true, if_false] at h
    split at h
    · rename_i hi
      have key : ∀ m1 : World α, (∀ r m2, m1.decide i w (f i) = some (r, m2) →
            World.pollChange { p.m with woken := [] } i w (f i) = some (r, m2)) →
          PWorld.finish m1 i w (f i) = some (o, p') →
          (p'.poisoned = false → ∃ o', p.m.step f (PEv.inputPanics i w n self).calm = some (o', p'.m) ∧
            (PEv.inputPanics i w n self).Agrees o o') ∧
          (o = .panicked → (PEv.inputPanics i w n self).IsPoll ∧ p'.poisoned = p.m.isChanged) ∧
          ((∃ o', o = .done o') → p'.poisoned = false) := by
        intro m1 hm hf
        obtain ⟨r, hd, rfl, h2⟩ := finish_eq hf
        have hs : p.m.step f (.poll i w) = some (⟨some r, p'.m.hist, p'.m.woken⟩, p'.m) := by
          simp only [World.step, hi, and_self, if_true]
          rw [hm _ _ hd]
        exact ⟨fun _ => ⟨_, hs, .inl rfl⟩, fun k => (by cases k), fun _ => h2⟩
      unfold PWorld.pollInputPanics at h
      split at h
      · rename_i hc
        have hc' : p.m.isChanged = true := hc
        simp only at h
        split at h
        · rename_i hal
          have hal' : p.m.alive = true := hal
          split at h
          · rename_i ch m' hl
            cases h
            exact ⟨fun k => (by cases k), fun _ => ⟨⟨i, w, rfl⟩, hc'.symm⟩, fun ⟨_, k⟩ => (by cases k)⟩
          · rename_i m' hl
            refine key _ (fun r m2 hd => ?_) h
            have := loopPanics_done hl
            simp only [World.pollChange, hc', if_true, World.pollSignal, hal']
            simp only [hc', hal'] at this
            simp only [this]
            exact hd
          · rename_i m' hl
            refine key _ (fun r m2 hd => ?_) h
            have := loopPanics_done hl
            simp only [World.pollChange, hc', if_true, World.pollSignal, hal']
            simp only [hc', hal'] at this
            simp only [this]
            exact hd
        · rename_i hal
          have hal' : p.m.alive = false := by simpa using hal
          refine key _ (fun r m2 hd => ?_) h
          simp only [World.pollChange, hc', if_true, World.pollSignal, hal', Bool.false_eq_true, if_false]
          simp only [hal', hc'] at hd
          exact hd
      · rename_i hc
        refine key _ (fun r m2 hd => ?_) h
        simp only [World.pollChange]
        rw [if_neg hc]
        exact hd
    · cases h

/-- A step on a poisoned lock. -/
theorem pstep_poisoned {f : Nat → α → β} {p p' : PWorld α} {e : PEv} {o : Outcome α β}
    (hp : p.poisoned = true) (h : p.step f e = some (o, p')) :
    p'.poisoned = true ∧ (e.IsPoll → o = .panicked ∧ p'.m.woken = []) ∧
      (¬ e.IsPoll → ∃ o', o = .done o') := by
  have key : ∀ i, (p.pollPoisoned i : Option (Outcome α β × PWorld α)) = some (o, p') →
      p'.poisoned = true ∧ o = .panicked ∧ p'.m.woken = [] := by
    intro i hk
    unfold PWorld.pollPoisoned at hk
    split at hk
    · cases hk; exact ⟨hp, rfl, rfl⟩
    · cases hk
  cases e with
  | call e =>
    cases e with
    | poll i w =>
      simp only [PWorld.step, hp, if_true] at h
      have := key i h
      exact ⟨this.1, fun _ => this.2, fun k => absurd ⟨i, w, rfl⟩ k⟩
    | wake =>
      simp only [PWorld.step] at h
      split at h <;> cases h
      exact ⟨hp, (by rintro ⟨i, w, k⟩; cases k), fun _ => ⟨_, rfl⟩⟩
    | subscribe =>
      simp only [PWorld.step] at h
      split at h <;> cases h
      exact ⟨hp, (by rintro ⟨i, w, k⟩; cases k), fun _ => ⟨_, rfl⟩⟩
    | dropSub i =>
      simp only [PWorld.step] at h
      split at h <;> cases h
      exact ⟨hp, (by rintro ⟨i, w, k⟩; cases k), fun _ => ⟨_, rfl⟩⟩
  | callbackPanics i w =>
    simp only [PWorld.step, hp, if_true] at h
    have := key i h
    exact ⟨this.1, fun _ => this.2, fun k => absurd ⟨i, w, rfl⟩ k⟩
  | inputPanics i w n self =>
    simp only [PWorld.step, hp, if_true] at h
    have := key i h
    exact ⟨this.1, fun _ => this.2, fun k => absurd ⟨i, w, rfl⟩ k⟩

theorem notify_todo (m : World α) : m.notify.todo = m.todo := by
  obtain ⟨c, wk, h, -⟩ := notify_spec m
  rw [h]

theorem loop_quiet {L : List (Step α)} (sc : List (Step α)) (m : World α) (ch : Bool)
    (hL : ∀ s ∈ sc, s ∈ L) :
    (∀ s ∈ (m.loop ch sc).2.todo, s ∈ L) ∧
      ((∀ s ∈ L, s.1 = false) → (m.loop ch sc).2.woken = m.woken) := by
  induction sc generalizing m ch with
  | nil => exact ⟨fun s k => (by cases k), fun _ => rfl⟩
  | cons x rest ih =>
    obtain ⟨s, r⟩ := x
    have hrest : ∀ y ∈ rest, y ∈ L := fun y hy => hL y (List.mem_cons_of_mem _ hy)
    have htd : ∀ m1 : World α, m1.todo = rest →
        (if s = true then m1.notify else m1).todo = rest := by
      intro m1 h1
      split
      · rw [notify_todo, h1]
      · exact h1
    have hwk : (∀ y ∈ L, y.1 = false) → s = false := fun hq => hq (s, r) (hL _ (List.mem_cons_self))
    cases r with
    | pending =>
      simp only [World.loop]
      refine ⟨?_, fun hq => ?_⟩
      · rw [htd _ rfl]; exact hrest
      · rw [hwk hq]; rfl
    | ready r =>
      cases r with
      | none =>
        simp only [World.loop]
        refine ⟨?_, fun hq => ?_⟩
        · rw [htd _ rfl]; exact hrest
        · rw [hwk hq]; rfl
      | some a =>
        simp only [World.loop]
        obtain ⟨h1, h2⟩ := ih { (if s = true then World.notify { m with todo := rest, hist := m.hist ++ [(s, .ready (some a))] } else { m with todo := rest, hist := m.hist ++ [(s, .ready (some a))] }) with value := some a } true hrest
        refine ⟨h1, fun hq => ?_⟩
        rw [h2 hq, hwk hq]; rfl

theorem loopPanics_quiet {L : List (Step α)} (n : Nat) (sc : List (Step α)) (m : World α)
    (self ch : Bool) (hL : ∀ s ∈ sc, s ∈ L) (hm : ∀ s ∈ m.todo, s ∈ L) :
    (∀ s ∈ (m.loopPanics self ch n sc).2.2.todo, s ∈ L) ∧
      ((∀ s ∈ L, s.1 = false) → self = false → (m.loopPanics self ch n sc).2.2.woken = m.woken) := by
  induction n generalizing m ch sc with
  | zero =>
    simp only [World.loopPanics]
    refine ⟨?_, fun _ hs => by rw [hs]; rfl⟩
    split
    · rw [notify_todo]; exact hm
    · exact hm
  | succ n ih =>
    cases sc with
    | nil => exact ⟨fun s k => (by cases k), fun _ _ => rfl⟩
    | cons x rest =>
      obtain ⟨s, r⟩ := x
      have hrest : ∀ y ∈ rest, y ∈ L := fun y hy => hL y (List.mem_cons_of_mem _ hy)
      have htd : ∀ m1 : World α, m1.todo = rest →
          (if s = true then m1.notify else m1).todo = rest := by
        intro m1 h1
        split
        · rw [notify_todo, h1]
        · exact h1
      have hwk : (∀ y ∈ L, y.1 = false) → s = false := fun hq => hq (s, r) (hL _ (List.mem_cons_self))
      cases r with
      | pending =>
        simp only [World.loopPanics]
        refine ⟨?_, fun hq _ => ?_⟩
        · rw [htd _ rfl]; exact hrest
        · rw [hwk hq]; rfl
      | ready r =>
        cases r with
        | none =>
          simp only [World.loopPanics]
          refine ⟨?_, fun hq _ => ?_⟩
          · rw [htd _ rfl]; exact hrest
          · rw [hwk hq]; rfl
        | some a =>
          simp only [World.loopPanics]
          obtain ⟨h1, h2⟩ := ih rest { (if s = true then World.notify { m with todo := rest, hist := m.hist ++ [(s, .ready (some a))] } else { m with todo := rest, hist := m.hist ++ [(s, .ready (some a))] }) with value := some a } true hrest (by
            show ∀ y ∈ World.todo (if s = true then _ else _), y ∈ L
            rw [htd _ rfl]; exact hrest)
          refine ⟨h1, fun hq hs => ?_⟩
          rw [h2 hq hs, hwk hq]; rfl

theorem pollSignal_quiet {L : List (Step α)} (m : World α) (hm : ∀ s ∈ m.todo, s ∈ L) :
    (∀ s ∈ m.pollSignal.todo, s ∈ L) ∧ ((∀ s ∈ L, s.1 = false) → m.pollSignal.woken = m.woken) := by
  unfold World.pollSignal
  split
  · have := loop_quiet m.todo m false hm
    split <;> rename_i m' hl <;> rw [hl] at this <;> exact this
  · exact ⟨hm, fun _ => rfl⟩

theorem decide_quiet {m m' : World α} {i : Nat} {w : Waker} {f : α → β} {r : Poll (Option β)}
    (h : m.decide i w f = some (r, m')) : m'.todo = m.todo ∧ m'.woken = m.woken := by
  unfold World.decide at h
  split at h
  · split at h <;> cases h <;> exact ⟨rfl, rfl⟩
  · split at h <;> cases h
    exact ⟨rfl, rfl⟩

/-- What is left of the script, and who is woken by a poll. -/
theorem pstep_todo {L : List (Step α)} {f : Nat → α → β} {p p' : PWorld α} {e : PEv} {o : Outcome α β}
    (hm : ∀ s ∈ p.m.todo, s ∈ L) (h : p.step f e = some (o, p')) :
    (∀ s ∈ p'.m.todo, s ∈ L) ∧ ((∀ s ∈ L, s.1 = false) → e.IsPoll →
      (∀ i w n, e ≠ .inputPanics i w n true) → p'.m.woken = []) := by
  have hpo : ∀ i, (p.pollPoisoned i : Option (Outcome α β × PWorld α)) = some (o, p') →
      (∀ s ∈ p'.m.todo, s ∈ L) ∧ p'.m.woken = [] := by
    intro i hk
    unfold PWorld.pollPoisoned at hk
    split at hk <;> cases hk
    exact ⟨hm, rfl⟩
  have hpoll : ∀ i w f (r : Poll (Option β)) m', World.pollChange { p.m with woken := [] } i w f = some (r, m') →
      (∀ s ∈ m'.todo, s ∈ L) ∧ ((∀ s ∈ L, s.1 = false) → m'.woken = []) := by
    intro i w f r m' hk
    unfold World.pollChange at hk
    split at hk
    · obtain ⟨h1, h2⟩ := decide_quiet hk
      obtain ⟨h3, h4⟩ := pollSignal_quiet (L := L) { p.m with isChanged := false, woken := [] } hm
      rw [h1, h2]
      exact ⟨h3, h4⟩
    · obtain ⟨h1, h2⟩ := decide_quiet hk
      rw [h1, h2]
      exact ⟨hm, fun _ => rfl⟩
  have hsub : ∀ e o' m', (∀ i w, e ≠ .poll i w) → p.m.step f e = some (o', m') → m'.todo = p.m.todo := by
    intro e o' m' he hk
    cases e with
    | poll i w => exact absurd rfl (he i w)
    | wake => simp only [World.step] at hk; cases hk; exact notify_todo _
    | subscribe => simp only [World.step] at hk; cases hk; rfl
    | dropSub i => simp only [World.step] at hk; split at hk <;> cases hk; rfl
  cases e with
  | call e =>
    cases e with
    | poll i w =>
      simp only [PWorld.step] at h
      split at h
      · exact ⟨(hpo i h).1, fun _ _ _ => (hpo i h).2⟩
      · split at h <;> cases h
        rename_i hs
        simp only [World.step] at hs
        split at hs
        · split at hs <;> cases hs
          rename_i hk
          exact ⟨(hpoll _ _ _ _ _ hk).1, fun hq _ _ => (hpoll _ _ _ _ _ hk).2 hq⟩
        · cases hs
    | wake =>
      simp only [PWorld.step] at h
      split at h <;> cases h
      rename_i hs
      refine ⟨?_, (by rintro - ⟨i, w, k⟩; cases k)⟩
      show ∀ s ∈ World.todo _, s ∈ L
      rw [hsub _ _ _ (by simp) hs]; exact hm
    | subscribe =>
      simp only [PWorld.step] at h
      split at h <;> cases h
      rename_i hs
      refine ⟨?_, (by rintro - ⟨i, w, k⟩; cases k)⟩
      show ∀ s ∈ World.todo _, s ∈ L
      rw [hsub _ _ _ (by simp) hs]; exact hm
    | dropSub i =>
      simp only [PWorld.step] at h
      split at h <;> cases h
      rename_i hs
      refine ⟨?_, (by rintro - ⟨i, w, k⟩; cases k)⟩
      show ∀ s ∈ World.todo _, s ∈ L
      rw [hsub _ _ _ (by simp) hs]; exact hm
  | callbackPanics i w =>
    simp only [PWorld.step] at h
    split at h
    · exact ⟨(hpo i h).1, fun _ _ _ => (hpo i h).2⟩
    · split at h
      · split at h
        · obtain ⟨r, hd, -⟩ := finishPanics_eq h
          obtain ⟨h1, h2⟩ := decide_quiet hd
          obtain ⟨h3, h4⟩ := pollSignal_quiet (L := L) { p.m with isChanged := false, woken := [] } hm
          rw [h1, h2]
          exact ⟨h3, fun hq _ _ => h4 hq⟩
        · obtain ⟨r, hd, -⟩ := finishPanics_eq h
          obtain ⟨h1, h2⟩ := decide_quiet hd
          rw [h1, h2]
          exact ⟨hm, fun _ _ _ => rfl⟩
      · cases h
  | inputPanics i w n self =>
    simp only [PWorld.step] at h
    split at h
    · exact ⟨(hpo i h).1, fun _ _ _ => (hpo i h).2⟩
    · split at h
      · unfold PWorld.pollInputPanics at h
        have key : ∀ m1 : World α, PWorld.finish m1 i w (f i) = some (o, p') →
            (∀ s ∈ m1.todo, s ∈ L) → ((∀ s ∈ L, s.1 = false) → self = false → m1.woken = []) →
            (∀ s ∈ p'.m.todo, s ∈ L) ∧ ((∀ s ∈ L, s.1 = false) → self = false → p'.m.woken = []) := by
          intro m1 hf h1 h2
          obtain ⟨r, hd, -⟩ := finish_eq hf
          obtain ⟨g1, g2⟩ := decide_quiet hd
          rw [g1, g2]; exact ⟨h1, h2⟩
        have main : (∀ s ∈ p'.m.todo, s ∈ L) ∧
            ((∀ s ∈ L, s.1 = false) → self = false → p'.m.woken = []) := by
          split at h
          · simp only at h
            split at h
            · have hl := loopPanics_quiet n p.m.todo { p.m with isChanged := false, woken := [] } self
                false hm hm
              split at h
              · rename_i hl'
                rw [hl'] at hl
                cases h
                exact hl
              · rename_i hl'
                rw [hl'] at hl
                exact key _ h hl.1 hl.2
              · rename_i hl'
                rw [hl'] at hl
                exact key _ h hl.1 hl.2
            · exact key _ h hm fun _ _ => rfl
          · exact key _ h hm fun _ _ => rfl
        refine ⟨main.1, fun hq _ hs => main.2 hq ?_⟩
        cases self with
        | false => rfl
        | true => exact absurd rfl (hs i w n)
      · cases h

/-! ## Theorems -/

/-- **C76**, as long as the lock is not poisoned: the history in which nobody panics is possible too,
polls the input, wakes and leaves the state in the same way, and answers the same, except where a
callback panicked in place of the value it was called for.  So all that is proved about such histories
(C43, C44, C63) holds for the other subscribers. -/
theorem C76_contained (script : List (Step α)) (f : Nat → α → β) (es : List PEv)
    (os : List (Outcome α β)) (p : PWorld α)
    (hr : runE (PWorld.step f) (PWorld.new script) es = some (os, p)) (hp : p.poisoned = false) :
    ∃ os', runE (World.step f) (World.new script) (es.map PEv.calm) = some (os', p.m) ∧
      os'.length = os.length ∧ ∀ (k : Nat) (e : PEv) (o : Outcome α β) (o' : Out α β), es[k]? = some e →
        os[k]? = some o → os'[k]? = some o' → e.Agrees o o' := by
  refine runE_inv (Inv := fun es (os : List (Outcome α β)) (p : PWorld α) => p.poisoned = false →
    ∃ os', runE (World.step f) (World.new script) (es.map PEv.calm) = some (os', p.m) ∧
      os'.length = os.length ∧ ∀ (k : Nat) (e : PEv) (o : Outcome α β) (o' : Out α β), es[k]? = some e →
        os[k]? = some o → os'[k]? = some o' → e.Agrees o o')
    (fun _ => ⟨[], rfl, rfl, by simp⟩) ?_ hr hp
  intro es os s e o s' hinv hs hp'
  have hp : s.poisoned = false := by
    cases hk : s.poisoned with
    | false => rfl
    | true => rw [(pstep_poisoned hk hs).1] at hp'; cases hp'
  obtain ⟨os', h1, h2, h3⟩ := hinv hp
  obtain ⟨o', h4, h5⟩ := (pstep_sound hp hs).1 hp'
  refine ⟨os' ++ [o'], ?_, by simp [h2], ?_⟩
  · rw [List.map_append]
    exact runE_snoc_of h1 h4
  · have hl' := runE_length h1
    simp only [List.length_map] at hl'
    intro k x y y' hx hy hy'
    by_cases hk : k < es.length
    · rw [List.getElem?_append_left hk] at hx
      rw [List.getElem?_append_left (by omega)] at hy hy'
      exact h3 k x y y' hx hy hy'
    · have hk' : k = es.length := by
        have := (List.getElem?_eq_some_iff.1 hx).1
        simp at this; omega
      subst hk'
      simp only [List.getElem?_concat_length, Option.some.injEq] at hx
      rw [← hl', h2, List.getElem?_concat_length] at hy
      rw [← hl', List.getElem?_concat_length] at hy'
      cases hx; cases hy; cases hy'
      exact h5

/-- **C76**, which panics break the broadcaster: a panic that is the first to do so happens in a poll,
and it does iff the input was due, that is, it was never polled or woke its waker since. -/
theorem C76_breaks (script : List (Step α)) (f : Nat → α → β) (es : List PEv) (e : PEv)
    (os : List (Outcome α β)) (o : Outcome α β) (p p' : PWorld α)
    (hr : runE (PWorld.step f) (PWorld.new script) es = some (os, p)) (hp : p.poisoned = false)
    (hs : p.step f e = some (o, p')) :
    (p'.poisoned = true → o = .panicked) ∧
    (o = .panicked → e.IsPoll ∧ ∃ os', runE (World.step f) (World.new script) (es.map PEv.calm) =
      some (os', p.m) ∧ p'.poisoned = (due ((es.map PEv.calm).zip os')).1) := by
  obtain ⟨-, h2, h3⟩ := pstep_sound hp hs
  refine ⟨fun k => ?_, fun k => ?_⟩
  · cases o with
    | panicked => rfl
    | done o' => rw [h3 ⟨o', rfl⟩] at k; cases k
  · obtain ⟨g1, g2⟩ := h2 k
    obtain ⟨os', h4, -, -⟩ := C76_contained script f es os p hr hp
    exact ⟨g1, os', h4, by rw [(inv_run h4).due]; exact g2⟩

/-- **C76**, a broken broadcaster: after a panic of the input, or of the callback of one subscriber, in
a poll for which the input was due, every later poll of every subscriber panics, and wakes nobody.  The
input can still wake its waker, and subscribers can still be made and dropped. -/
theorem C76_broken (f : Nat → α → β) (p p' : PWorld α) (es : List PEv)
    (os : List (Outcome α β)) (hp : p.poisoned = true)
    (hr : runE (PWorld.step f) p es = some (os, p')) :
    p'.poisoned = true ∧ ∀ (k : Nat) (e : PEv) (o : Outcome α β), es[k]? = some e → os[k]? = some o →
      (e.IsPoll → o = .panicked) ∧ (¬ e.IsPoll → ∃ o', o = .done o') := by
  induction es generalizing p os with
  | nil => cases hr; exact ⟨hp, by simp⟩
  | cons x es ih =>
    simp only [runE] at hr
    split at hr
    · cases hr
    · rename_i o1 p1 hs
      split at hr
      · cases hr
      · rename_i os1 p2 hr1
        cases hr
        obtain ⟨g1, g2, g3⟩ := pstep_poisoned hp hs
        obtain ⟨h1, h2⟩ := ih p1 os1 g1 hr1
        refine ⟨h1, fun k e o he ho => ?_⟩
        cases k with
        | zero =>
          simp only [List.getElem?_cons_zero, Option.some.injEq] at he ho
          subst he; subst ho
          exact ⟨fun k => (g2 k).1, g3⟩
        | succ k =>
          simp only [List.getElem?_cons_succ] at he ho
          exact h2 k e o he ho

/-- **C76**, nobody is told: if the input does not wake its waker while it is polled, an event that
panics wakes nobody, and a later poll does not either.  So a subscriber that waits stays asleep, unless
the input wakes its waker again. -/
theorem C76_silent (script : List (Step α)) (f : Nat → α → β) (es : List PEv) (e : PEv)
    (os : List (Outcome α β)) (o : Outcome α β) (p p' : PWorld α)
    (hq : ∀ s ∈ script, s.1 = false) (hr : runE (PWorld.step f) (PWorld.new script) es = some (os, p))
    (hs : p.step f e = some (o, p')) (he : e.IsPoll) (hself : ∀ i w n, e ≠ .inputPanics i w n true) :
    p'.m.woken = [] := by
  have hinv : ∀ s ∈ p.m.todo, s ∈ script :=
    runE_inv (Inv := fun _ (_ : List (Outcome α β)) (p : PWorld α) => ∀ s ∈ p.m.todo, s ∈ script)
      (fun s k => k) (fun _ _ _ _ _ _ hi hs => (pstep_todo hi hs).1) hr
  exact (pstep_todo hinv hs).2 hq he hself

/-- **C76**, the subscriber whose callback panicked: if this did not break the broadcaster the value is
lost for it.  Polled again before anything else happens it answers `Pending` or its end. -/
theorem C76_skips (script : List (Step α)) (f : Nat → α → β) (es : List PEv) (i : Nat) (w w' : Waker)
    (os : List (Outcome α β)) (o : Outcome α β) (p p' p'' : PWorld α)
    (hr : runE (PWorld.step f) (PWorld.new script) es = some (os, p)) (hp : p.poisoned = false)
    (hs : p.step f (.callbackPanics i w) = some (.panicked, p')) (hp' : p'.poisoned = false)
    (hs' : p'.step f (.call (.poll i w')) = some (o, p'')) :
    ∃ r, o = .done r ∧ (r.answer = some .pending ∨ r.answer = some (.ready none)) := by
  obtain ⟨os', h1, -, -⟩ := C76_contained script f es os p hr hp
  obtain ⟨o1, h2, h3⟩ := (pstep_sound hp hs).1 hp'
  have hch : p.m.isChanged = false := by
    rw [← ((pstep_sound hp hs).2.1 rfl).2]; exact hp'
  have hp'' : p''.poisoned = false := by
    simp only [PWorld.step, hp', Bool.false_eq_true, if_false] at hs'
    split at hs' <;> cases hs'
    rfl
  obtain ⟨o2, h4, h5⟩ := (pstep_sound hp' hs').1 hp''
  rcases h5 with rfl | ⟨-, ⟨i, w, k⟩, -⟩
  · refine ⟨o2, rfl, ?_⟩
    rcases h3 with h3 | ⟨-, -, b, h3⟩
    · cases h3
    simp only [PEv.calm, World.step] at h2 h4
    split at h2
    · rename_i hi
      simp only [World.pollChange, hch, Bool.false_eq_true, if_false] at h2
      split at h2
      · cases h2
      · rename_i r m1 hd
        simp only [Option.some.injEq, Prod.mk.injEq] at h2
        obtain ⟨rfl, hm⟩ := h2
        simp only [Option.some.injEq] at h3
        subst h3
        simp only [World.decide] at hd
        split at hd
        · split at hd <;> cases hd
        · split at hd
          · cases hd
          · cases hd
            rw [← hm] at h4
            rw [if_pos (by exact hi)] at h4
            · simp only [World.pollChange, hch, Bool.false_eq_true, if_false, World.decide, if_true] at h4
              split at h4
              · cases h4
              · rename_i r2 m2 hd2
                simp only [Option.some.injEq, Prod.mk.injEq] at h4
                rw [← h4.1]
                split at hd2 <;> cases hd2
                · exact .inr rfl
                · exact .inl rfl
    · cases h2
  · cases k

/-- The loop reaches poll number `n` iff all answers before it are values. -/
theorem loopPanics_iff (n : Nat) (sc : List (Step α)) (m : World α) (self ch : Bool) :
    (m.loopPanics self ch n sc).1 = true ↔
      n ≤ sc.length ∧ ∀ s ∈ sc.take n, ∃ a, s.2 = .ready (some a) := by
  induction n generalizing sc m ch with
  | zero => simp [World.loopPanics]
  | succ n ih =>
    cases sc with
    | nil => simp [World.loopPanics]
    | cons s sc =>
      rcases s with ⟨b, r⟩
      cases r with
      | pending => simp [World.loopPanics]
      | ready o =>
        cases o with
        | none => simp [World.loopPanics]
        | some a => simp [World.loopPanics, ih]

/-- **C76**, when the input panics: a poll during which poll number `n` of the input would panic does panic iff the
input is due and answers with a value `n` times before; if not, the poll is as if the input could not panic. -/
theorem C76_input_panics (f : Nat → α → β) (p p' : PWorld α) (i : Nat) (w : Waker) (n : Nat) (self : Bool)
    (o : Outcome α β) (hp : p.poisoned = false) (hs : p.step f (.inputPanics i w n self) = some (o, p')) :
    (o = .panicked ↔ p.m.isChanged = true ∧ p.m.alive = true ∧ n ≤ p.m.todo.length ∧
      ∀ s ∈ p.m.todo.take n, ∃ a, s.2 = .ready (some a)) ∧
    (o ≠ .panicked → p.step f (.call (.poll i w)) = some (o, p')) := by
  have fin : ∀ (m : World α) (q : PWorld α), PWorld.finish m i w (f i) = some (.panicked, q) → False := by
    intro m q h
    simp only [PWorld.finish] at h
    split at h <;> cases h
  have hc : o ≠ .panicked → p.step f (.call (.poll i w)) = some (o, p') := by
    intro ho
    cases o with
    | panicked => exact absurd rfl ho
    | done o =>
      have h3 := (pstep_sound hp hs).2.2 ⟨o, rfl⟩
      obtain ⟨o', h4, h5⟩ := (pstep_sound hp hs).1 h3
      rcases h5 with h5 | ⟨h5, -⟩
      · cases h5
        simp only [PEv.calm] at h4
        simp only [PWorld.step, hp, Bool.false_eq_true, if_false, h4]
        rcases p' with ⟨m', q⟩
        simp only at h3
        subst h3
        rfl
      · cases h5
  refine ⟨?_, hc⟩
  simp only [PWorld.step, hp, Bool.false_eq_true, if_false] at hs
  split at hs
  · simp only [PWorld.pollInputPanics] at hs
    split at hs
    · rename_i hch
      split at hs
      · rename_i hal
        have key := loopPanics_iff n p.m.todo { p.m with woken := [], isChanged := false } self false
        simp only [hch, true_and]
        have hal' : p.m.alive = true := hal
        simp only [hal', true_and]
        rw [← key]
        split at hs
        · rename_i heq
          cases hs
          have : World.loopPanics { p.m with woken := [], isChanged := false } self false n p.m.todo = _ := heq
          simp [this]
        · rename_i heq
          have : World.loopPanics { p.m with woken := [], isChanged := false } self false n p.m.todo = _ := heq
          rw [this]
          simp only [Bool.false_eq_true, iff_false]
          rintro rfl
          exact fin _ _ hs
        · rename_i heq
          have : World.loopPanics { p.m with woken := [], isChanged := false } self false n p.m.todo = _ := heq
          rw [this]
          simp only [Bool.false_eq_true, iff_false]
          rintro rfl
          exact fin _ _ hs
      · rename_i hal
        have hal' : ¬ p.m.alive = true := hal
        refine ⟨fun ho => ?_, fun h => absurd h.2.1 hal'⟩
        subst ho
        exact (fin _ _ hs).elim
    · rename_i hch
      have hch' : ¬ p.m.isChanged = true := hch
      refine ⟨fun ho => ?_, fun h => absurd h.1 hch'⟩
      subst ho
      exact (fin _ _ hs).elim
  · cases hs

/-! ## Cases -/

/-- Two subscribers; the input produces 1, and 2 after a wake-up. -/
def panicScript : List (Step Nat) :=
  [(false, .ready (some 1)), (false, .pending), (false, .ready (some 2)), (false, .pending)]

/-- Both have the value 1 and wait; the input wakes; the callback of subscriber 1 panics, after
subscriber 0 has polled the input, or (`first`) before. -/
def panicEvs (first : Bool) : List PEv :=
  [.call .subscribe, .call .subscribe, .call (.poll 0 5), .call (.poll 1 6), .call (.poll 0 5),
   .call (.poll 1 6), .call .wake] ++
  if first then [.callbackPanics 1 6, .call (.poll 0 5), .call (.poll 1 6)]
  else [.call (.poll 0 5), .callbackPanics 1 6, .call (.poll 0 5), .call (.poll 1 6)]

/-- The answer of an event, or its panic. -/
def Outcome.show : Outcome α β → Option (Option (Poll (Option β)))
  | .done o => some o.answer
  | .panicked => none

/-- The panic is contained. -/
example : ∃ os p, runE (PWorld.step fun _ a => a) (PWorld.new panicScript) (panicEvs false) =
      some (os, p) ∧ p.poisoned = false ∧ (os.drop 7).map Outcome.show =
      [some (some (.ready (some 2))), none, some (some .pending), some (some .pending)] :=
  ⟨_, _, rfl, rfl, rfl⟩

/-- The panic breaks the broadcaster: subscriber 0 had done nothing, and panics. -/
example : ∃ os p, runE (PWorld.step fun _ a => a) (PWorld.new panicScript) (panicEvs true) =
      some (os, p) ∧ p.poisoned = true ∧ (os.drop 7).map Outcome.show = [none, none, none] :=
  ⟨_, _, rfl, rfl, rfl⟩

/-- A panic of the input at its second poll, after it gave the value 2: it breaks the broadcaster, and
wakes nobody. -/
example : ∃ os p, runE (PWorld.step fun _ a => a) (PWorld.new panicScript)
      ((panicEvs true).take 7 ++ [.inputPanics 0 5 1 false, .call (.poll 1 6)]) = some (os, p) ∧
      p.poisoned = true ∧ (os.drop 7).map Outcome.show = [none, none] ∧ p.m.value = some 2 ∧
      p.m.epoch = 1 :=
  ⟨_, _, rfl, rfl, rfl, rfl, rfl⟩

/-- The input answers `Pending` before the poll for which it would panic, so nothing happens. -/
example : ∃ os p, runE (PWorld.step fun _ a => a) (PWorld.new panicScript)
      ((panicEvs true).take 7 ++ [.inputPanics 0 5 2 false, .call (.poll 1 6)]) = some (os, p) ∧
      p.poisoned = false ∧
      (os.drop 7).map Outcome.show = [some (some (.ready (some 2))), some (some (.ready (some 2)))] :=
  ⟨_, _, rfl, rfl, rfl⟩

/-- The claim that a panic of a callback concerns only its subscriber. -/
def OnlyItself (script : List (Step α)) (f : Nat → α → β) : Prop :=
  ∀ es os p i j w w' o o' p' p'', runE (PWorld.step f) (PWorld.new script) es = some (os, p) →
    (∀ e ∈ es, ∃ e', e = .call e') → p.step f (.callbackPanics i w) = some (o, p') → i ≠ j →
    p'.step f (.call (.poll j w')) = some (o', p'') → o' ≠ .panicked

/-- **C76.**  It does not. -/
theorem C76_not_only_itself : ¬ OnlyItself panicScript (fun _ a => a) := by
  intro h
  refine h ((panicEvs true).take 7) _ _ 1 0 6 5 _ _ _ _ rfl ?_ rfl (by decide) rfl rfl
  intro e he
  simp [panicEvs] at he
  rcases he with rfl | rfl | rfl | rfl | rfl | rfl | rfl <;> exact ⟨_, rfl⟩

end Verif.Bc
