import Verif.CancelableConc

/-!
# C47: cancellation while the future is polled on another thread
-/

namespace Verif.CancelableConc

/-- Nothing is running: the polling thread is not in a call and `discard` has returned. -/
def AtRest (m : World) : Prop := m.p = .idle ∧ m.d = .done

/-- The claim of C47 for the schedule `es`. -/
def Woken (es : List Ev) : Prop :=
  ∀ m w, World.init.runs es = some m → AtRest m → m.answers.getLast? = some (w, true) → w ∈ m.woken

/-- The schedule in which the discard falls between the check of `is_cancelled` and the storing of
the waker. -/
def lostCancel : List Ev := [.poll 1, .pLoad, .dLock, .dStore, .dTake, .pInner true, .pLock, .pStore]

/-- **C47 is false.**  In this schedule both calls have returned, the poll answered `Pending`, and
nobody was woken: the task sleeps for ever (as far as the cancellation is concerned). -/
theorem C47_lost_cancellation : ¬ Woken lostCancel := by
  intro h
  have := h ⟨true, false, some 1, .idle, .done, [(1, true)], []⟩ 1 rfl ⟨rfl, rfl⟩ rfl
  simp at this

/-- What holds in every interleaving. -/
structure Inv (m : World) : Prop where
  lock : m.locked = true ↔ (∃ w, m.p = .store w) ∨ m.d = .store ∨ m.d = .take
  excl : ¬ ((∃ w, m.p = .store w) ∧ (m.d = .store ∨ m.d = .take))
  cancelled : m.isCancelled = false ↔ m.d = .idle ∨ m.d = .store
  waker : m.d = .idle ∨ m.d = .store ∨ m.d = .take → ∀ w, m.answers.getLast? = some (w, true) → m.waker = some w
  only : m.p ≠ .idle → ∀ a ∈ m.answers, a.2 = true

theorem inv_step {m m' : World} {e : Ev} (h : Inv m) (hs : m.step e = some ((), m')) : Inv m' := by
  obtain ⟨c, l, wk, p, d, an, wo⟩ := m
  obtain ⟨h1, h2, h3, h4, h5⟩ := h
  simp only at h1 h2 h3 h4 h5
  cases e <;> simp only [World.step] at hs
  · split at hs <;> cases hs
    rename_i hc
    obtain ⟨rfl, hc⟩ := hc
    exact ⟨by simpa using h1, by simp, h3, h4, fun _ => hc⟩
  · split at hs
    · rename_i w
      split at hs <;> cases hs
      · exact ⟨by simpa using h1, by simp, h3, by simp, by simp⟩
      · exact ⟨by simpa using h1, by simp, h3, h4, by simpa using h5⟩
    · cases hs
  · split at hs
    · rename_i w
      split at hs <;> cases hs
      · exact ⟨by simpa using h1, by simp, h3, h4, by simpa using h5⟩
      · exact ⟨by simpa using h1, by simp, h3, by simp, by simp⟩
    · cases hs
  · split at hs
    · rename_i w
      split at hs <;> cases hs
      rename_i hl
      refine ⟨by simp, ?_, h3, h4, by simpa using h5⟩
      rintro ⟨_, k⟩
      exact hl (h1.2 (.inr k))
    · cases hs
  · split at hs
    · rename_i w
      cases hs
      have hd : ¬ (d = .store ∨ d = .take) := fun k => h2 ⟨⟨w, rfl⟩, k⟩
      refine ⟨by simpa using hd, by simp, h3, ?_, by simp⟩
      intro _ w' hw
      simpa using hw
    · cases hs
  · split at hs
    · rename_i hd
      subst hd
      split at hs <;> cases hs
      rename_i hl
      refine ⟨by simp, ?_, by simpa using h3, fun _ => h4 (.inl rfl), h5⟩
      rintro ⟨k, _⟩
      exact hl (h1.2 (.inl k))
    · cases hs
  · split at hs <;> cases hs
    rename_i hd
    subst hd
    exact ⟨by simpa using h1, by simpa using h2, by simp, fun _ => h4 (.inr (.inl rfl)), h5⟩
  · split at hs
    · rename_i hd
      subst hd
      have hnp : ¬ ∃ w, p = .store w := fun k => h2 ⟨k, .inr rfl⟩
      split at hs <;> cases hs
      · exact ⟨by simpa using hnp, by simp, by simpa using h3, by simp, h5⟩
      · exact ⟨by simpa using hnp, by simp, by simpa using h3, by simp, h5⟩
    · cases hs
  · split at hs <;> cases hs
    rename_i w
    exact ⟨by simpa using h1, by simp, by simpa using h3, by simp, h5⟩

theorem inv_init : Inv World.init :=
  ⟨by simp [World.init], by simp [World.init], by simp [World.init], by simp [World.init], by simp [World.init]⟩

theorem runs_runE {m m' : World} {es : List Ev} (h : m.runs es = some m') :
    ∃ os, runE World.step m es = some (os, m') := by
  simp only [World.runs, Option.map_eq_some_iff] at h
  obtain ⟨⟨os, m1⟩, h, rfl⟩ := h
  exact ⟨os, h⟩

theorem runs_of_runE {m m' : World} {es : List Ev} {os : List Unit} (h : runE World.step m es = some (os, m')) :
    m.runs es = some m' := by simp [World.runs, h]

/-- No discard stores `is_cancelled` while a poll is between its check of `is_cancelled` and the
storing of its waker. -/
def NoRace (es : List Ev) : Prop :=
  ∀ i m1, es[i]? = some .dStore → World.init.runs (es.take i) = some m1 →
    m1.p = .idle ∨ ∃ w, m1.p = .start w

/-- **C47 (partial).**  The claim holds in every schedule without that race.  Missing: the race, for
which the claim is false (`C47_lost_cancellation`). -/
theorem C47_no_race_partial (es : List Ev) (h : NoRace es) : Woken es := by
  intro m w hr hrest hl
  obtain ⟨os, hr⟩ := runs_runE hr
  have key : Inv m ∧ (NoRace es → (m.d = .take ∨ (∃ w, m.d = .wake w) ∨ m.d = .done →
      m.p = .idle ∨ ∃ w, m.p = .start w) ∧
      ((∃ w, m.d = .wake w) ∨ m.d = .done → ∀ w, m.answers.getLast? = some (w, true) →
        m.d = .wake w ∨ w ∈ m.woken)) := by
    refine (runE_inv (step := World.step) (Inv := fun es os m => runE World.step World.init es = some (os, m) ∧
      Inv m ∧ (NoRace es → (m.d = .take ∨ (∃ w, m.d = .wake w) ∨ m.d = .done →
      m.p = .idle ∨ ∃ w, m.p = .start w) ∧
      ((∃ w, m.d = .wake w) ∨ m.d = .done → ∀ w, m.answers.getLast? = some (w, true) →
        m.d = .wake w ∨ w ∈ m.woken))) ⟨rfl, inv_init, ?_⟩ ?_ hr).2
    · intro _; simp [World.init]
    · rintro es os m e ⟨⟩ m' ⟨hrun, hi, ih⟩ hs
      refine ⟨runE_snoc_of hrun hs, inv_step hi hs, ?_⟩
      intro hnr
      have hnr' : NoRace es := by
        intro i m1 he hr1
        obtain ⟨hlt, -⟩ := List.getElem?_eq_some_iff.1 he
        refine hnr i m1 (by rw [List.getElem?_append_left hlt]; exact he) ?_
        rw [List.take_append_of_le_length (by omega)]; exact hr1
      obtain ⟨ih1, ih2⟩ := ih hnr'
      have hst : e = .dStore → m.p = .idle ∨ ∃ w, m.p = .start w := by
        rintro rfl
        exact hnr es.length m (by simp) (by simpa using runs_of_runE hrun)
      have h3 := hi.cancelled
      have h4 := hi.waker
      obtain ⟨c, l, wk, p, d, an, wo⟩ := m
      simp only at ih1 ih2 hst h3 h4
      cases e <;> simp only [World.step] at hs
      · split at hs <;> cases hs
        exact ⟨fun _ => .inr ⟨_, rfl⟩, ih2⟩
      · split at hs
        · rename_i w
          split at hs <;> cases hs
          · exact ⟨fun _ => .inl rfl, by simp⟩
          · rename_i hc
            have := h3.1 (by simpa using hc)
            refine ⟨?_, ?_⟩ <;> intro k
            · rcases this with rfl | rfl <;> simp at k
            · rcases this with rfl | rfl <;> simp at k
        · cases hs
      · split at hs
        · rename_i w
          split at hs <;> cases hs
          · refine ⟨?_, ih2⟩
            intro k
            simpa using ih1 k
          · exact ⟨fun _ => .inl rfl, by simp⟩
        · cases hs
      · split at hs
        · rename_i w
          split at hs <;> cases hs
          refine ⟨?_, ih2⟩
          intro k
          simpa using ih1 k
        · cases hs
      · split at hs
        · rename_i w
          cases hs
          refine ⟨fun _ => .inl rfl, ?_⟩
          intro k
          simpa using ih1 (.inr k)
        · cases hs
      · split at hs
        · split at hs <;> cases hs
          exact ⟨by simp, by simp⟩
        · cases hs
      · split at hs <;> cases hs
        exact ⟨fun _ => hst rfl, by simp⟩
      · split at hs
        · rename_i hd
          subst hd
          split at hs <;> cases hs
          · rename_i w0
            refine ⟨fun _ => ih1 (.inl rfl), ?_⟩
            intro _ w hw
            have := h4 (.inr (.inr rfl)) w hw
            cases this
            exact .inl rfl
          · refine ⟨fun _ => ih1 (.inl rfl), ?_⟩
            intro _ w hw
            have := h4 (.inr (.inr rfl)) w hw
            cases this
        · cases hs
      · split at hs <;> cases hs
        rename_i w0
        refine ⟨fun _ => ih1 (.inr (.inl ⟨_, rfl⟩)), ?_⟩
        intro _ w hw
        right
        rcases ih2 (.inl ⟨_, rfl⟩) w hw with k | k
        · cases k; simp
        · simp [k]
  have := (key.2 h).2 (.inr hrest.2) w hl
  rw [hrest.2] at this
  simpa using this

/-- **C47 (partial).**  If all polls use the same waker, and one of them answered `Pending` before the
discard took the lock, then that waker is woken, even with the race.  (So what the race loses is the
cancellation during the first pending poll, or during a poll with a new waker.) -/
theorem C47_same_waker_partial (w0 : Waker) (es1 es2 : List Ev)
    (hw : ∀ w, .poll w ∈ es1 ++ .dLock :: es2 → w = w0) (m1 : World) (h1 : World.init.runs es1 = some m1)
    (hp : (w0, true) ∈ m1.answers) (m : World) (h : World.init.runs (es1 ++ .dLock :: es2) = some m)
    (hr : AtRest m) : w0 ∈ m.woken := by
  have pcw : ∀ m es os, (∀ w, Ev.poll w ∈ es → w = w0) → runE World.step World.init es = some (os, m) →
      (m.p = .idle ∨ m.p = .start w0 ∨ m.p = .inner w0 ∨ m.p = .lock w0 ∨ m.p = .store w0) ∧
      (m.waker = none ∨ m.waker = some w0) ∧
      (m.d = .idle → (w0, true) ∈ m.answers → m.waker = some w0) := by
    intro m es os hw hr
    refine runE_inv (step := World.step) (Inv := fun es _ m => (∀ w, Ev.poll w ∈ es → w = w0) → 
      (m.p = .idle ∨ m.p = .start w0 ∨ m.p = .inner w0 ∨ m.p = .lock w0 ∨ m.p = .store w0) ∧
      (m.waker = none ∨ m.waker = some w0) ∧
      (m.d = .idle → (w0, true) ∈ m.answers → m.waker = some w0)) ?_ ?_ hr hw
    · intro _; simp [World.init]
    · rintro es os m e ⟨⟩ m' ih hs hw
      obtain ⟨i1, i2, i3⟩ := ih fun w k => hw w (by simp [k])
      obtain ⟨c, l, wk, p, d, an, wo⟩ := m
      simp only at i1 i2 i3
      cases e <;> simp only [World.step] at hs
      case poll w =>
        split at hs <;> cases hs
        have := hw w (by simp)
        subst this
        exact ⟨by simp, i2, i3⟩
      case pLoad =>
        split at hs
        · rename_i w
          split at hs <;> cases hs
          · exact ⟨by simp, i2, by simpa using i3⟩
          · exact ⟨by simpa using i1, i2, i3⟩
        · cases hs
      case pInner b =>
        split at hs
        · rename_i w
          split at hs <;> cases hs
          · exact ⟨by simpa using i1, i2, i3⟩
          · exact ⟨by simp, i2, by simpa using i3⟩
        · cases hs
      case pLock =>
        split at hs
        · rename_i w
          split at hs <;> cases hs
          exact ⟨by simpa using i1, i2, i3⟩
        · cases hs
      case pStore =>
        split at hs
        · rename_i w
          cases hs
          simp only [reduceCtorEq, PPc.store.injEq, false_or] at i1
          subst i1
          exact ⟨by simp, by simp, by simp⟩
        · cases hs
      case dLock =>
        split at hs
        · split at hs <;> cases hs
          exact ⟨i1, i2, by simp⟩
        · cases hs
      case dStore =>
        split at hs <;> cases hs
        exact ⟨i1, i2, by simp⟩
      case dTake =>
        split at hs
        · split at hs <;> cases hs
          · exact ⟨i1, by simp, by simp⟩
          · exact ⟨i1, i2, by simp⟩
        · cases hs
      case dWake =>
        split at hs <;> cases hs
        exact ⟨i1, i2, by simp⟩
  obtain ⟨os1, h1⟩ := runs_runE h1
  obtain ⟨os, h⟩ := runs_runE h
  obtain ⟨osa, osb, ma, g1, g2, rfl⟩ := runE_append h
  rw [h1] at g1
  cases g1
  rw [show Ev.dLock :: es2 = [] ++ [.dLock] ++ es2 by simp] at g2
  obtain ⟨osc, osd, mc, g3, g4, rfl⟩ := runE_append g2
  -- from the moment of `dLock` on
  have hi1 : Inv m1 := runE_inv (step := World.step) (Inv := fun _ _ m => Inv m) inv_init
    (fun _ _ _ _ o _ h hs => inv_step h (by cases o; exact hs)) h1
  have hc : (mc.d = .store ∧ mc.waker = some w0) ∧ Inv mc := by
    have g3' : m1.step .dLock = some ((), mc) := by
      obtain ⟨o1, o2, m2, k1, k2, _⟩ := runE_snoc g3
      cases k1
      exact k2
    have hi := inv_step hi1 g3'
    refine ⟨?_, hi⟩
    simp only [World.step] at g3'
    split at g3'
    · rename_i hd
      split at g3' <;> cases g3'
      exact ⟨rfl, (pcw m1 es1 os1 (fun w k => hw w (by simp [k])) h1).2.2 hd hp⟩
    · cases g3'
  have final : Inv m ∧ (((m.d = .store ∨ m.d = .take) ∧ m.waker = some w0) ∨ m.d = .wake w0 ∨
      (m.d = .done ∧ w0 ∈ m.woken)) := by
    refine runE_inv (step := World.step) (Inv := fun _ _ m => Inv m ∧ (((m.d = .store ∨ m.d = .take) ∧ m.waker = some w0) ∨
      m.d = .wake w0 ∨ (m.d = .done ∧ w0 ∈ m.woken))) ⟨hc.2, .inl ⟨.inl hc.1.1, hc.1.2⟩⟩ ?_ g4
    rintro es os m e ⟨⟩ m' ⟨hi, ih⟩ hs
    refine ⟨inv_step hi hs, ?_⟩
    have h2 := hi.excl
    obtain ⟨c, l, wk, p, d, an, wo⟩ := m
    simp only at ih h2
    cases e <;> simp only [World.step] at hs
    case poll w => split at hs <;> cases hs; exact ih
    case pLoad =>
      split at hs
      · split at hs <;> cases hs <;> exact ih
      · cases hs
    case pInner b =>
      split at hs
      · split at hs <;> cases hs <;> exact ih
      · cases hs
    case pLock =>
      split at hs
      · split at hs <;> cases hs
        exact ih
      · cases hs
    case pStore =>
      split at hs
      · rename_i w
        cases hs
        rcases ih with ⟨k, _⟩ | k | k
        · exact absurd ⟨⟨w, rfl⟩, k⟩ h2
        · exact .inr (.inl k)
        · exact .inr (.inr k)
      · cases hs
    case dLock =>
      split at hs
      · rename_i hd
        subst hd
        simp at ih
      · cases hs
    case dStore =>
      split at hs <;> cases hs
      rename_i hd
      subst hd
      simp only [true_and, reduceCtorEq, false_and, or_false] at ih
      exact .inl ⟨.inr rfl, ih⟩
    case dTake =>
      split at hs
      · rename_i hd
        subst hd
        simp only [or_true, true_and, reduceCtorEq, false_and, or_false] at ih
        subst ih
        cases hs
        exact .inr (.inl rfl)
      · cases hs
    case dWake =>
      split at hs <;> cases hs
      rename_i w1
      simp only [reduceCtorEq, or_self, false_and, DPc.wake.injEq, false_or, or_false] at ih
      subst ih
      exact .inr (.inr ⟨rfl, by simp⟩)
  rcases final.2 with ⟨k, _⟩ | k | k
  · rw [hr.2] at k; simp at k
  · rw [hr.2] at k; cases k
  · exact k.2

/-- **C47 (partial).**  In every interleaving: once `discard` has stored the flag (in particular once
it has returned), every poll that starts later answers `Ready`. -/
theorem C47_later_polls_partial (es1 es2 : List Ev) (m1 m : World) (h1 : World.init.runs es1 = some m1)
    (hd : m1.p = .idle) (hs : .dStore ∈ es1) (h : m1.runs es2 = some m) :
    ∃ as, m.answers = m1.answers ++ as ∧ ∀ a ∈ as, a.2 = false := by
  obtain ⟨os1, h1⟩ := runs_runE h1
  obtain ⟨os, h⟩ := runs_runE h
  have hc : m1.isCancelled = true := by
    refine runE_inv (step := World.step) (Inv := fun es _ m => .dStore ∈ es → m.isCancelled = true) (by simp) ?_ h1 hs
    rintro es os m e ⟨⟩ m' ih hs
    have keep : .dStore ∈ es → m'.isCancelled = true := by
      intro k
      have ih := ih k
      obtain ⟨c, l, wk, p, d, an, wo⟩ := m
      simp only at ih
      subst ih
      cases e <;> simp only [World.step] at hs <;> (repeat split at hs) <;> cases hs <;> rfl
    rw [List.mem_append, List.mem_singleton]
    rintro (k | rfl)
    · exact keep k
    · simp only [World.step] at hs
      split at hs <;> cases hs
      rfl
  refine (runE_inv (step := World.step) (Inv := fun _ _ m => (m.isCancelled = true ∧ (m.p = .idle ∨ ∃ w, m.p = .start w)) ∧
    ∃ as, m.answers = m1.answers ++ as ∧ ∀ a ∈ as, a.2 = false) ⟨⟨hc, .inl hd⟩, [], by simp, by simp⟩ ?_ h).2
  rintro es os m e ⟨⟩ m' ⟨⟨i1, i2⟩, as, i3, i4⟩ hs
  obtain ⟨c, l, wk, p, d, an, wo⟩ := m
  simp only at i1 i2 i3
  subst i1
  cases e <;> simp only [World.step] at hs
  case poll w => split at hs <;> cases hs; exact ⟨⟨rfl, .inr ⟨_, rfl⟩⟩, as, i3, i4⟩
  case pLoad =>
    split at hs
    · rename_i w
      simp only [if_true] at hs
      cases hs
      refine ⟨⟨rfl, .inl rfl⟩, as ++ [(w, false)], by simp [i3], ?_⟩
      intro a ha
      rw [List.mem_append, List.mem_singleton] at ha
      rcases ha with ha | rfl
      · exact i4 a ha
      · rfl
    · cases hs
  case pInner b =>
    split at hs
    · simp at i2
    · cases hs
  case pLock =>
    split at hs
    · simp at i2
    · cases hs
  case pStore =>
    split at hs
    · simp at i2
    · cases hs
  all_goals
    (repeat split at hs) <;> cases hs <;> exact ⟨⟨rfl, i2⟩, as, i3, i4⟩

/-- A schedule without the race in which the discard runs in the middle of a later poll. -/
def goodCancel : List Ev :=
  [.poll 1, .pLoad, .pInner true, .pLock, .pStore, .dLock, .poll 1, .dStore, .pLoad, .dTake, .dWake]

example : (World.init.runs goodCancel).map (fun m => (m.answers, m.woken, m.p, m.d)) =
    some ([(1, true), (1, false)], [1], .idle, .done) := rfl

example : NoRace goodCancel := by
  intro i m1 h hr
  have hi : i = 7 := by
    match i, h with
    | 7, _ => rfl
    | 0, h | 1, h | 2, h | 3, h | 4, h | 5, h | 6, h | 8, h | 9, h | 10, h => cases h
    | n + 11, h => cases h
  subst hi
  cases hr
  exact .inr ⟨1, rfl⟩

/-- A schedule with the race, same waker: woken. -/
example : (World.init.runs [.poll 1, .pLoad, .pInner true, .pLock, .pStore, .poll 1, .pLoad, .dLock, .dStore,
      .dTake, .pInner true, .pLock, .pStore, .dWake]).map (fun m => (m.answers, m.woken, m.p, m.d)) =
    some ([(1, true), (1, true)], [1], .idle, .done) := rfl

end Verif.CancelableConc
