import Verif.Props.MutableConc

/-!
# C36: the handles and the end of a `Mutable`, every interleaving
-/

namespace Verif.MutConc

variable {α : Type}

/-- The handles made by a schedule, with the first. -/
def handlesMade : List (Ev α) → Nat
  | [] => 1
  | .clone :: es => handlesMade es + 1
  | _ :: es => handlesMade es

/-- The handles dropped by a schedule. -/
def handlesDropped : List (Ev α) → Nat
  | [] => 0
  | .drop :: es => handlesDropped es + 1
  | _ :: es => handlesDropped es

def Ev.clones : Ev α → Nat
  | .clone => 1
  | _ => 0

def Ev.drops : Ev α → Nat
  | .drop => 1
  | _ => 0

theorem handlesMade_snoc (es : List (Ev α)) (e : Ev α) :
    handlesMade (es ++ [e]) = handlesMade es + e.clones := by
  induction es with
  | nil => cases e <;> rfl
  | cons x es ih => cases x <;> simp only [List.cons_append, handlesMade, ih] <;> omega

theorem handlesDropped_snoc (es : List (Ev α)) (e : Ev α) :
    handlesDropped (es ++ [e]) = handlesDropped es + e.drops := by
  induction es with
  | nil => cases e <;> rfl
  | cons x es ih => cases x <;> simp only [List.cons_append, handlesDropped, ih] <;> omega

theorem sstep_senders {m m' : World α} {i : Nat} (h : m.sstep i = some m') : m'.senders = m.senders := by
  simp only [World.sstep] at h
  split at h <;> (try split at h) <;> cases h <;> rfl

theorem wstep_senders (m : World α) (wr : Writer) : (m.wstep wr).senders = m.senders := by
  unfold World.wstep
  split <;> (try split) <;> rfl

/-- What a step does to the number of handles. -/
theorem step_senders {m m' : World α} {e : Ev α} {o : Unit} (h : m.step e = some (o, m')) :
    m'.senders + e.drops = m.senders + e.clones ∧
      (m.senders = 0 → m'.senders = 0) := by
  cases e with
  | write a =>
    simp only [World.step] at h
    split at h
    · cases h
    · split at h <;> cases h
      exact ⟨rfl, id⟩
  | wstep =>
    simp only [World.step] at h
    split at h <;> cases h
    rw [wstep_senders]
    exact ⟨rfl, id⟩
  | clone =>
    simp only [World.step] at h
    split at h <;> cases h
    rename_i h0
    exact ⟨rfl, fun h => absurd h h0⟩
  | drop =>
    simp only [World.step] at h
    split at h
    · cases h
      simp only [Ev.drops, Ev.clones]
      omega
    · split at h <;> cases h
      rename_i h1
      exact ⟨by simp [h1.1, Ev.drops, Ev.clones], fun _ => rfl⟩
  | endLock =>
    simp only [World.step] at h
    split at h
    · cases h
    · split at h <;> cases h
      exact ⟨rfl, id⟩
  | subscribe => cases h; exact ⟨rfl, id⟩
  | poll i w =>
    simp only [World.step] at h
    split at h <;> cases h
    exact ⟨rfl, id⟩
  | sstep i =>
    simp only [World.step] at h
    split at h <;> cases h
    rename_i hs
    rw [sstep_senders hs]
    exact ⟨rfl, id⟩

/-- The handles are counted rightly: in every interleaving `senders` is the number of handles that were made and not
dropped. -/
theorem C36_handles (a : α) (es : List (Ev α)) (m : World α) (hr : (World.init a).runs es = some m) :
    m.senders + handlesDropped es = handlesMade es := by
  obtain ⟨os, h⟩ := runs_runE hr
  refine runE_inv (Inv := fun es (_ : List Unit) (m : World α) => m.senders + handlesDropped es = handlesMade es)
    rfl ?_ h
  intro es os s e o s' hi hs
  have := (step_senders hs).1
  rw [handlesMade_snoc, handlesDropped_snoc]
  omega

/-- What a step of the threads does to the signals: who answers `Pending` has found a handle, and who answers the end
has found none. -/
theorem step_answers {m m' : World α} {e : Ev α} {o : Unit} (h : m.step e = some (o, m')) (i : Nat)
    (hi : e = .subscribe → i ≠ m.made) :
    (∃ new, (m'.sigs i).answers = (m.sigs i).answers ++ new ∧
      ∀ b ∈ new, (b.answer = .pending → ∃ w c, (m.sigs i).pc = .setWaker w c) ∧
        (b.answer = .ready none → m.senders = 0)) ∧
    ∀ w c, (m'.sigs i).pc = .setWaker w c → (∃ w c, (m.sigs i).pc = .setWaker w c) ∨ m.senders ≠ 0 := by
  have same : ∀ {n : World α}, (n.sigs i).answers = (m.sigs i).answers → (n.sigs i).pc = (m.sigs i).pc →
      (∃ new, (n.sigs i).answers = (m.sigs i).answers ++ new ∧
        ∀ b ∈ new, (b.answer = .pending → ∃ w c, (m.sigs i).pc = .setWaker w c) ∧
          (b.answer = .ready none → m.senders = 0)) ∧
      ∀ w c, (n.sigs i).pc = .setWaker w c → (∃ w c, (m.sigs i).pc = .setWaker w c) ∨ m.senders ≠ 0 := by
    intro n h1 h2
    exact ⟨⟨[], by simp [h1], by simp⟩, fun w c h => .inl ⟨w, c, by rw [← h2]; exact h⟩⟩
  cases e with
  | write a =>
    simp only [World.step] at h
    split at h
    · cases h
    · split at h <;> cases h
      exact same rfl rfl
  | wstep =>
    simp only [World.step] at h
    split at h <;> cases h
    rename_i wr _
    unfold World.wstep
    split
    · split
      · exact same rfl rfl
      · rename_i j rest _
        by_cases hj : i = j
        · subst hj
          exact same (by simp [World.upd]) (by simp [World.upd])
        · exact same (by simp [World.upd, hj]) (by simp [World.upd, hj])
    · rename_i j _
      split
      · by_cases hj : i = j
        · subst hj
          exact same (by simp [World.upd]) (by simp [World.upd])
        · exact same (by simp [World.upd, hj]) (by simp [World.upd, hj])
      · exact same rfl rfl
    · rename_i j w _
      by_cases hj : i = j
      · subst hj
        exact same (by simp [World.upd]) (by simp [World.upd])
      · exact same (by simp [World.upd, hj]) (by simp [World.upd, hj])
  | clone =>
    simp only [World.step] at h
    split at h <;> cases h
    exact same rfl rfl
  | drop =>
    simp only [World.step] at h
    split at h
    · cases h; exact same rfl rfl
    · split at h <;> cases h
      exact same rfl rfl
  | endLock =>
    simp only [World.step] at h
    split at h
    · cases h
    · split at h <;> cases h
      exact same rfl rfl
  | subscribe =>
    cases h
    have hj := hi rfl
    exact same (by simp [World.upd, hj]) (by simp [World.upd, hj])
  | poll j w =>
    simp only [World.step] at h
    split at h <;> cases h
    by_cases hj : i = j
    · subst hj
      refine ⟨⟨[], by simp [World.upd], by simp⟩, fun w c hp => ?_⟩
      simp [World.upd] at hp
    · exact same (by simp [World.upd, hj]) (by simp [World.upd, hj])
  | sstep j =>
    simp only [World.step] at h
    split at h <;> cases h
    rename_i hs
    by_cases hj : i = j
    · subst hj
      simp only [World.sstep] at hs
      split at hs
      · cases hs
      · cases hs
      · cases hs
        refine ⟨⟨[], by simp [World.upd], by simp⟩, fun w c hp => ?_⟩
        simp only [World.upd, if_true] at hp
        split at hp <;> cases hp
      · split at hs <;> cases hs
        refine ⟨⟨[], by simp [World.upd], by simp⟩, fun w c hp => ?_⟩
        simp [World.upd] at hp
      · split at hs <;> cases hs
        · refine ⟨⟨[], by simp [World.upd], by simp⟩, fun w c hp => ?_⟩
          simp [World.upd] at hp
        · refine ⟨⟨[], by simp [World.upd], by simp⟩, fun w c hp => ?_⟩
          simp [World.upd] at hp
      · split at hs <;> cases hs
        refine ⟨⟨[_], by simp only [World.upd, if_true]; rfl, by simp⟩, fun w c hp => ?_⟩
        simp [World.upd] at hp
      · split at hs
        · rename_i h0
          cases hs
          refine ⟨⟨[_], by simp only [World.upd, if_true]; rfl, by simp [h0]⟩, fun w c hp => ?_⟩
          simp [World.upd] at hp
        · rename_i h0
          cases hs
          exact ⟨⟨[], by simp [World.upd], by simp⟩, fun w c hp => .inr h0⟩
      · rename_i w c hpc
        split at hs <;> cases hs
        refine ⟨⟨[_], by simp only [World.upd, if_true]; rfl, ?_⟩, fun w c hp => ?_⟩
        · simp only [List.mem_singleton]
          rintro b rfl
          exact ⟨fun _ => ⟨w, c, hpc⟩, fun h => by cases h⟩
        · simp [World.upd] at hp
    · have h1 : (m'.sigs i) = m.sigs i := by
        simp only [World.sstep] at hs
        split at hs <;> (try split at hs) <;> cases hs <;> simp [World.upd, hj]
      exact same (by rw [h1]) (by rw [h1])

theorem step_made {m m' : World α} {e : Ev α} {o : Unit} (h : m.step e = some (o, m')) : m.made ≤ m'.made := by
  cases e with
  | subscribe => cases h; simp
  | sstep j =>
    simp only [World.step] at h
    split at h <;> cases h
    rename_i hs
    have h2 : m'.made = m.made := by
      simp only [World.sstep] at hs
      split at hs <;> (try split at hs) <;> cases hs <;> rfl
    omega
  | wstep =>
    simp only [World.step] at h
    split at h <;> cases h
    unfold World.wstep
    split <;> (try split) <;> exact Nat.le_refl _
  | _ =>
    simp only [World.step] at h
    (repeat' split at h) <;> cases h <;> exact Nat.le_refl _

/-- A signal that does not exist yet has not started. -/
theorem unborn_step {m m' : World α} {e : Ev α} {o : Unit} (h : m.step e = some (o, m'))
    (hu : ∀ i, m.made ≤ i → (m.sigs i).pc = .unborn) : ∀ i, m'.made ≤ i → (m'.sigs i).pc = .unborn := by
  intro i hi
  cases e with
  | write a =>
    simp only [World.step] at h
    split at h
    · cases h
    · split at h <;> cases h
      exact hu i hi
  | wstep =>
    simp only [World.step] at h
    split at h <;> cases h
    unfold World.wstep at hi ⊢
    split at hi <;> (try split at hi) <;> simp only [World.upd] at hi ⊢ <;>
      first
        | exact hu i hi
        | (split
           · rename_i hj; subst hj; exact hu _ hi
           · exact hu i hi)
  | clone =>
    simp only [World.step] at h
    split at h <;> cases h
    exact hu i hi
  | drop =>
    simp only [World.step] at h
    split at h
    · cases h; exact hu i hi
    · split at h <;> cases h
      exact hu i hi
  | endLock =>
    simp only [World.step] at h
    split at h
    · cases h
    · split at h <;> cases h
      exact hu i hi
  | subscribe =>
    cases h
    simp only [World.upd] at hi ⊢
    rw [if_neg (by omega)]
    exact hu i (by omega)
  | poll j w =>
    simp only [World.step] at h
    split at h <;> cases h
    rename_i hj
    simp only [World.upd] at hi ⊢
    split
    · rename_i he
      subst he
      rw [hu _ hi] at hj
      cases hj
    · exact hu i hi
  | sstep j =>
    simp only [World.step] at h
    split at h <;> cases h
    rename_i hs
    have h2 : m'.made = m.made := by
      simp only [World.sstep] at hs
      split at hs <;> (try split at hs) <;> cases hs <;> rfl
    rw [h2] at hi
    by_cases hj : i = j
    · subst hj
      simp only [World.sstep, hu i hi] at hs
      cases hs
    · have h1 : (m'.sigs i) = m.sigs i := by
        simp only [World.sstep] at hs
        split at hs <;> (try split at hs) <;> cases hs <;> simp [World.upd, hj]
      rw [h1]
      exact hu i hi

theorem unborn_runs {m m' : World α} {es : List (Ev α)} (h : m.runs es = some m')
    (hu : ∀ i, m.made ≤ i → (m.sigs i).pc = .unborn) : ∀ i, m'.made ≤ i → (m'.sigs i).pc = .unborn := by
  obtain ⟨os, h⟩ := runs_runE h
  exact runE_inv (Inv := fun _ (_ : List Unit) (m : World α) => ∀ i, m.made ≤ i → (m.sigs i).pc = .unborn) hu
    (fun _ _ _ _ _ _ hi hs => unborn_step hs hi) h

/-- **C36**, no end too early, in any interleaving: a signal answers the end only if every handle has been dropped. -/
theorem C36_not_too_early (a : α) (es : List (Ev α)) (m : World α) (hr : (World.init a).runs es = some m)
    (i : Nat) (b : Answer α) (hb : b ∈ (m.sigs i).answers) (hn : b.answer = .ready none) :
    handlesDropped es = handlesMade es := by
  have h0 : m.senders = 0 := by
    obtain ⟨os, h⟩ := runs_runE hr
    have key := runE_inv (Inv := fun _ (_ : List Unit) (m : World α) =>
      ∀ b ∈ (m.sigs i).answers, b.answer = .ready none → m.senders = 0)
      (m := World.init a) (by simp [World.init, Sig.unborn]) ?_ h
    · exact key b hb hn
    · intro es os s e o s' hi hs b hb hn
      refine (step_senders hs).2 ?_
      by_cases he : e = .subscribe ∧ i = s.made
      · obtain ⟨rfl, rfl⟩ := he
        cases hs
        simp [World.upd] at hb
      · obtain ⟨⟨new, h1, h2⟩, -⟩ := step_answers hs i (fun h1 h2 => he ⟨h1, h2⟩)
        rw [h1] at hb
        rcases List.mem_append.1 hb with hb | hb
        · exact hi b hb hn
        · exact (h2 b hb).2 hn
  have := C36_handles a es m hr
  omega

/-- **C36**, the end comes in every interleaving: once every handle has been dropped, a signal that is not being polled
then answers no later poll with `Pending`. -/
theorem C36_ends (a : α) (es es' : List (Ev α)) (m m' : World α) (hr : (World.init a).runs es = some m)
    (hd : handlesDropped es = handlesMade es) (hr' : m.runs es' = some m') (i : Nat) (hi : (m.sigs i).pc = .idle) :
    ∃ new, (m'.sigs i).answers = (m.sigs i).answers ++ new ∧ ∀ b ∈ new, b.answer ≠ .pending := by
  have h0 : m.senders = 0 := by
    have := C36_handles a es m hr
    omega
  have hmade : i < m.made := by
    rcases Nat.lt_or_ge i m.made with h | h
    · exact h
    · rw [unborn_runs hr (by simp [World.init, Sig.unborn]) i h] at hi
      cases hi
  obtain ⟨os, h⟩ := runs_runE hr'
  have key := runE_inv (Inv := fun _ (_ : List Unit) (n : World α) =>
      n.senders = 0 ∧ i < n.made ∧ (∀ w c, (n.sigs i).pc ≠ .setWaker w c) ∧
      ∃ new, (n.sigs i).answers = (m.sigs i).answers ++ new ∧ ∀ b ∈ new, b.answer ≠ .pending)
      (m := m) ⟨h0, hmade, by simp [hi], [], by simp, by simp⟩ ?_ h
  · exact key.2.2.2
  · intro es os s e o s' ⟨k1, k2, k3, new, k4, k5⟩ hs
    obtain ⟨⟨new', h1, h2⟩, h3⟩ := step_answers hs i (fun _ => by omega)
    refine ⟨(step_senders hs).2 k1, Nat.lt_of_lt_of_le k2 (step_made hs), fun w c hp => ?_, new ++ new', by rw [h1, k4, List.append_assoc], ?_⟩
    · rcases h3 w c hp with ⟨w, c, h⟩ | h
      · exact k3 w c h
      · exact h k1
    · intro b hb
      rcases List.mem_append.1 hb with hb | hb
      · exact k5 b hb
      · intro hp
        obtain ⟨w, c, h⟩ := (h2 b hb).1 hp
        exact k3 w c h

/-- Two handles; the second is dropped while a poll is on its way: `quiet` goes on to its end. -/
example : ∃ m m', (World.init 0).runs ([.clone, .subscribe, .sstep 0, .sstep 0, .drop, .drop] : List (Ev Nat)) = some m ∧
    (m.sigs 0).pc = .idle ∧
    m.runs [.poll 0 4, .sstep 0, .sstep 0, .endLock, .poll 0 5, .sstep 0, .sstep 0] = some m' ∧
    (m'.sigs 0).answers.map (·.answer) = [.ready (some 0), .ready none] ∧
    handlesDropped ([.clone, .subscribe, .sstep 0, .sstep 0, .drop, .drop] : List (Ev Nat)) = 2 ∧
    handlesMade ([.clone, .subscribe, .sstep 0, .sstep 0, .drop, .drop] : List (Ev Nat)) = 2 :=
  ⟨_, _, rfl, rfl, rfl, rfl, rfl, rfl⟩

end Verif.MutConc
