import Verif.BroadcasterConcProofs

/-!
# `Broadcaster` under concurrency: C45
-/

namespace Verif.BcConc

variable {α : Type}

/-- **C45, safety.**  Under every schedule a subscriber only produces values which the input has
produced, and a poll never panics for lack of a value (`state.value.as_ref().unwrap()`). -/
theorem C45_values (script : List (Poll (Option α))) (es : List Ev) (m : World α)
    (hr : (World.init script).runs es = some m) (i : Nat) (w : Waker) :
    (∀ a, (w, .ready (some a)) ∈ (m.subs i).answers → a ∈ m.values) ∧
    (m.epoch ≠ (m.subs i).epoch → ∃ a, m.value = some a ∧ m.values.getLast? = some a) := by
  have h := inv_runs hr
  refine ⟨fun a => h.val i w a, fun hne => ?_⟩
  have hep : m.epoch ≠ 0 := by
    have := (h.sub i).1
    omega
  have hv : m.values ≠ [] := fun k => hep (h.epoch.2 k)
  refine ⟨m.values.getLast hv, ?_, List.getLast?_eq_some_getLast hv⟩
  rw [h.value, List.getLast?_eq_some_getLast hv]

/-- **C45, safety.**  Under every schedule, when a poll of subscriber `i` answers with a value, that is
the latest value the input has produced, and one it has produced since `i` last got one; when a poll of
`i` answers the end, the input has ended and `i` has got its latest value. -/
theorem C45_latest (script : List (Poll (Option α))) (es : List Ev) (m m' : World α)
    (hr : (World.init script).runs es = some m) (i : Nat) (hs : m.step (.sstep i) = some ((), m'))
    (w : Waker) (r : Option α) (ha : (m'.subs i).answers = (m.subs i).answers ++ [(w, .ready r)]) :
    (∀ a, r = some a → m.values.getLast? = some a ∧ (m.subs i).got < m.values.length ∧
      (m'.subs i).got = m.values.length) ∧
    (r = none → m.alive = false ∧ (m.subs i).got = m.values.length) := by
  have h := inv_runs hr
  have hne : ∀ (l : List (Waker × Poll (Option α))) x, l ≠ l ++ [x] := by
    intro l x k
    have := congrArg List.length k
    simp at this
  have dec : ∀ w', (m.decideSub i w').answers = (m.subs i).answers ++ [(w, .ready r)] →
      (∀ a, r = some a → m.values.getLast? = some a ∧ (m.subs i).got < m.values.length ∧
        (m.decideSub i w').got = m.values.length) ∧
      (r = none → m.alive = false ∧ (m.subs i).got = m.values.length) := by
    intro w' ha
    obtain ⟨h1, h2, h3⟩ := h.sub i
    by_cases hep : m.epoch = (m.subs i).epoch
    · by_cases hal : m.alive = false
      · simp [World.decideSub, hep, hal] at ha
        obtain ⟨-, rfl⟩ := ha
        exact ⟨fun a k => (by cases k), fun _ => ⟨hal, h3.1 hep.symm⟩⟩
      · simp [World.decideSub, hep, hal] at ha
    · obtain ⟨a, k1, k2⟩ := (C45_values script es m hr i w').2 hep
      have hlt : (m.subs i).got < m.values.length := by
        have : (m.subs i).got ≠ m.values.length := fun k => hep (h3.2 k).symm
        omega
      simp [World.decideSub, hep, k1] at ha
      obtain ⟨-, rfl⟩ := ha
      refine ⟨fun b k => ?_, fun k => (by cases k)⟩
      cases k
      exact ⟨k2, hlt, by simp [World.decideSub, hep]⟩
  simp only [World.step] at hs
  split at hs <;> cases hs
  rename_i hk
  simp only [World.sstep] at hk
  split at hk
  · cases hk
  · cases hk
  · split at hk <;> cases hk
    exact absurd (by simp only [World.upd, if_true] at ha; exact ha) (hne (m.subs i).answers (w, .ready r))
  · split at hk <;> cases hk
    · exact absurd (by simp only [World.upd, if_true] at ha; exact ha) (hne (m.subs i).answers (w, .ready r))
    · exact absurd (by simp only [World.upd, if_true] at ha; exact ha) (hne (m.subs i).answers (w, .ready r))
  · split at hk <;> cases hk
    exact absurd (by simp only [World.upd, if_true] at ha; exact ha) (hne (m.subs i).answers (w, .ready r))
  · cases hk
    simp only [World.upd, if_true] at ha ⊢
    exact dec _ ha
  · split at hk <;> cases hk
    simp only [World.upd, if_true] at ha ⊢
    exact dec _ ha

/-- The last step of a first poll, and of a poll after the end. -/
example : ∃ m m' : World Nat,
    (World.init [.ready (some 7), .ready none]).runs [.subscribe, .sstep 0, .poll 0 5, .sstep 0, .sstep 0] =
      some m ∧ m.step (.sstep 0) = some ((), m') ∧
      (m'.subs 0).answers = (m.subs 0).answers ++ [(5, .ready (some 7))] ∧ m'.alive = false ∧
    ∃ m1 m2 : World Nat, m'.runs [.poll 0 5, .sstep 0] = some m1 ∧ m1.step (.sstep 0) = some ((), m2) ∧
      (m2.subs 0).answers = (m1.subs 0).answers ++ [(5, .ready none)] :=
  ⟨_, _, rfl, rfl, rfl, rfl, _, _, rfl, rfl, rfl⟩

/-- A subscriber that has not been made has no poll running. -/
theorem unborn_runs {script : List (Poll (Option α))} {es : List Ev} {m : World α}
    (hr : (World.init script).runs es = some m) : ∀ j, m.made ≤ j → (m.subs j).pc = .unborn := by
  obtain ⟨os, h⟩ := runs_runE hr
  refine runE_inv (Inv := fun _ _ (m : World α) => ∀ j, m.made ≤ j → (m.subs j).pc = .unborn)
    (fun j _ => rfl) ?_ h
  intro es os m e o m' ih hs
  have key : ∀ i (s : Sub α), (m.subs i).pc ≠ .unborn → ∀ j, m.made ≤ j →
      ((m.upd i s).subs j).pc = .unborn := by
    intro i s hne j hj
    have : j ≠ i := by rintro rfl; exact hne (ih j hj)
    simpa [World.upd, this] using ih j hj
  cases e with
  | wake =>
    simp only [World.step] at hs
    split at hs <;> cases hs
    exact ih
  | nstep =>
    simp only [World.step] at hs
    split at hs <;> cases hs
    have same : ∀ i (s : Sub α), s.pc = (m.subs i).pc → ∀ j, m.made ≤ j →
        ((m.upd i s).subs j).pc = .unborn := by
      intro i s he j hj
      by_cases hji : j = i
      · subst hji; simp [World.upd, he, ih j hj]
      · simpa [World.upd, hji] using ih j hj
    unfold World.nstep
    split
    · exact same _ _ rfl
    · split
      · exact ih
      · split
        · exact ih
        · exact same _ _ rfl
  | subscribe =>
    cases hs
    intro j hj
    have hj' : m.made + 1 ≤ j := hj
    have : j ≠ m.made := by omega
    simpa [World.upd, this] using ih j (by omega)
  | poll i w =>
    simp only [World.step] at hs
    split at hs <;> cases hs
    rename_i hpc
    exact key i _ (by simp [hpc])
  | sstep i =>
    simp only [World.step] at hs
    split at hs <;> cases hs
    rename_i hk
    simp only [World.sstep] at hk
    split at hk
    · cases hk
    · cases hk
    · rename_i hpc
      split at hk <;> cases hk
      exact key i _ (by simp [hpc])
    · rename_i hpc
      split at hk <;> cases hk
      · exact key i _ (by simp [hpc])
      · exact key i _ (by simp [hpc])
    · rename_i w hpc
      split at hk <;> cases hk
      have e1 : m.pollSignal.made = m.made := by unfold World.pollSignal; split <;> rfl
      intro j hj
      have := key i { m.subs i with pc := .decide w } (by simp [hpc]) j (by rw [← e1]; exact hj)
      simpa [World.upd, (pollSignal_fields m).1] using this
    · rename_i hpc
      cases hk
      exact key i _ (by simp [hpc])
    · rename_i hpc
      split at hk <;> cases hk
      exact key i _ (by simp [hpc])

/-- The input has been polled since it had `n` answers left, if it could be. -/
def Polled (n : Nat) (m : World α) : Prop := m.alive = false ∨ n = 0 ∨ m.todo.length < n

/-- A poll is going to poll the input. -/
def Going (n : Nat) (m : World α) : Prop := Polled n m ∨ ∃ j w, (m.subs j).pc = .wantWrite w

theorem burst_length (l : List (Poll (Option α))) (h : l ≠ []) : (burst l).2.2.length < l.length := by
  induction l with
  | nil => exact absurd rfl h
  | cons r rest ih =>
    rcases r with (- | a) | -
    · simp [burst]
    · cases rest with
      | nil => simp [burst]
      | cons r' rest' =>
        have h1 := ih (by simp)
        have h2 : (burst (.ready (some a) :: r' :: rest')).2.2 = (burst (r' :: rest')).2.2 := rfl
        rw [h2]
        exact Nat.lt_succ_of_lt h1
    · simp [burst]

theorem pollSignal_polled {n : Nat} {m : World α} (h : m.todo.length ≤ n) : Polled n m.pollSignal := by
  unfold World.pollSignal
  by_cases ha : m.alive = true
  · simp only [ha, if_true]
    by_cases ht : m.todo = []
    · by_cases hn : n = 0
      · exact .inr (.inl hn)
      · exact .inr (.inr (by simp [ht, burst]; omega))
    · have := burst_length m.todo ht
      exact .inr (.inr (Nat.lt_of_lt_of_le this h))
  · exact .inl (by simpa [ha] using ha)

theorem pollSignal_todo (m : World α) : m.pollSignal.todo.length ≤ m.todo.length ∧
    (m.alive = false → m.pollSignal.alive = false) := by
  unfold World.pollSignal
  by_cases ha : m.alive = true
  · simp only [ha, if_true]
    refine ⟨?_, fun k => (by cases k)⟩
    by_cases ht : m.todo = []
    · simp [ht, burst]
    · exact Nat.le_of_lt (burst_length m.todo ht)
  · simp [ha]

theorem nstep_same (m : World α) (nt : Notifier) : (m.nstep nt).todo = m.todo ∧
    (m.nstep nt).alive = m.alive ∧ (m.nstep nt).isChanged = m.isChanged ∧
    ∀ j, ((m.nstep nt).subs j).pc = (m.subs j).pc := by
  unfold World.nstep
  split
  · rename_i i w _
    refine ⟨rfl, rfl, rfl, fun j => ?_⟩
    show (if j = i then _ else m.subs j).pc = _
    split
    · rename_i k; subst k; rfl
    · rfl
  · split
    · exact ⟨rfl, rfl, rfl, fun j => rfl⟩
    · rename_i i rest _
      split
      · exact ⟨rfl, rfl, rfl, fun j => rfl⟩
      · refine ⟨rfl, rfl, rfl, fun j => ?_⟩
        show (if j = i then _ else m.subs j).pc = _
        split
        · rename_i k; subst k; rfl
        · rfl

theorem decideSub_idle (m : World α) (i : Nat) (w : Waker) : (m.decideSub i w).pc = .idle := by
  simp only [World.decideSub]
  split
  · split <;> rfl
  · rfl

theorem Going.congr {n : Nat} {m m' : World α} (h : Going n m) (ha : m'.alive = m.alive)
    (ht : m'.todo = m.todo) (hp : ∀ j w, (m.subs j).pc = .wantWrite w → (m'.subs j).pc = .wantWrite w) :
    Going n m' := by
  rcases h with h | ⟨j, w, h⟩
  · left
    unfold Polled
    rw [ha, ht]
    exact h
  · exact .inr ⟨j, w, hp j w h⟩

/-- What a step does to the above. -/
theorem going_step {n : Nat} {m m' : World α} {e : Ev} (hle : m.todo.length ≤ n)
    (hf : ∀ j, m.made ≤ j → (m.subs j).pc = .unborn)
    (hs : m.step e = some ((), m')) :
    m'.todo.length ≤ n ∧ (Going n m → Going n m') ∧
    (m.isChanged = true → m'.isChanged = true ∨ Going n m') ∧
    (∀ i w, (m.subs i).pc = .swap w → (m'.subs i).pc = .swap w ∨
      ((m.isChanged = true ∨ Going n m) → Going n m')) := by
  cases e with
  | wake =>
    simp only [World.step] at hs
    split at hs <;> cases hs
    exact ⟨hle, fun h => h.congr rfl rfl fun _ _ k => k, fun _ => .inl rfl, fun i w k => .inl k⟩
  | nstep =>
    simp only [World.step] at hs
    split at hs <;> cases hs
    rename_i nt _
    obtain ⟨h1, h2, h3, h4⟩ := nstep_same m nt
    refine ⟨by rw [h1]; exact hle, fun h => h.congr h2 h1 fun j w k => by rw [h4]; exact k,
      fun k => .inl (by rw [h3]; exact k), fun i w k => .inl (by rw [h4]; exact k)⟩
  | subscribe =>
    simp only [World.step] at hs
    cases hs
    have hne : ∀ j, (m.subs j).pc ≠ .unborn → j ≠ m.made := by
      rintro j hj rfl
      exact hj (hf _ (Nat.le_refl _))
    refine ⟨hle, fun h => h.congr rfl rfl fun j w k => ?_, fun k => .inl k, fun i w k => .inl ?_⟩
    · have := hne j (by simp [k])
      simpa [World.upd, this] using k
    · have := hne i (by simp [k])
      simpa [World.upd, this] using k
  | poll i w =>
    simp only [World.step] at hs
    split at hs <;> cases hs
    rename_i hpc
    have hne : ∀ j, (m.subs j).pc ≠ .idle → j ≠ i := by
      rintro j hj rfl
      exact hj hpc
    refine ⟨hle, fun h => h.congr rfl rfl fun j w k => ?_, fun k => .inl k, fun j w k => .inl ?_⟩
    · have := hne j (by simp [k])
      simpa [World.upd, this] using k
    · have := hne j (by simp [k])
      simpa [World.upd, this] using k
  | sstep i =>
    simp only [World.step] at hs
    split at hs <;> cases hs
    rename_i hk
    simp only [World.sstep] at hk
    have other : ∀ {q : Pc} (s : Sub α) j, (m.subs i).pc ≠ q → (m.subs j).pc = q →
        (if j = i then s else m.subs j).pc = q := by
      intro q s j h1 h2
      have : j ≠ i := by rintro rfl; exact h1 h2
      simpa [this] using h2
    split at hk
    · cases hk
    · cases hk
    · rename_i hpc
      split at hk <;> cases hk
      exact ⟨hle, fun h => h.congr rfl rfl fun j w k => other _ j (by simp [hpc]) k, fun k => .inl k,
        fun j w k => .inl (other _ j (by simp [hpc]) k)⟩
    · rename_i w hpc
      split at hk
      · rename_i hc
        cases hk
        have hg : Going n { m.upd i { m.subs i with pc := .wantWrite w } with isChanged := false } :=
          .inr ⟨i, w, by simp [World.upd]⟩
        exact ⟨hle, fun _ => hg, fun _ => .inr hg, fun j w' k => .inr fun _ => hg⟩
      · rename_i hc
        cases hk
        have hcg : Going n m → Going n (m.upd i { m.subs i with pc := .wantRead w }) := fun h =>
          h.congr rfl rfl fun j w k => other _ j (by simp [hpc]) k
        refine ⟨hle, hcg, fun k => absurd k hc, fun j w' k => ?_⟩
        by_cases hji : j = i
        · exact .inr fun h => hcg (h.resolve_left hc)
        · exact .inl (by simpa [World.upd, hji] using k)
    · rename_i w hpc
      split at hk <;> cases hk
      have hpo : Polled n { m.pollSignal.upd i { m.subs i with pc := .decide w } with lock := some i } :=
        pollSignal_polled hle
      refine ⟨Nat.le_trans (pollSignal_todo m).1 hle, fun _ => .inl hpo, fun _ => .inr (.inl hpo),
        fun j w' k => .inr fun _ => .inl hpo⟩
    · rename_i w hpc
      cases hk
      exact ⟨hle, fun h => h.congr rfl rfl fun j w k => other _ j (by simp [hpc]) k, fun k => .inl k,
        fun j w k => .inl (other _ j (by simp [hpc]) k)⟩
    · rename_i w hpc
      split at hk <;> cases hk
      exact ⟨hle, fun h => h.congr rfl rfl fun j w k => other _ j (by simp [hpc]) k, fun k => .inl k,
        fun j w k => .inl (other _ j (by simp [hpc]) k)⟩

/-- **C45, wake-ups reach the input.**  Under every schedule: once the input has woken the broadcaster,
any poll of any subscriber that starts later makes the input be polled again, by this or another poll,
before all calls have returned; unless the input has ended or has nothing more to say. -/
theorem C45_wake_polls (script : List (Poll (Option α))) (es1 es2 es3 : List Ev) (i : Nat) (w : Waker)
    (m1 m : World α) (hr1 : (World.init script).runs es1 = some m1)
    (hr : (World.init script).runs (es1 ++ .wake :: es2 ++ .poll i w :: es3) = some m) (hrest : AtRest m) :
    m.alive = false ∨ m1.todo = [] ∨ m.todo.length < m1.todo.length := by
  have hz : m1.todo.length = 0 ↔ m1.todo = [] := List.length_eq_zero_iff
  suffices hp : Polled m1.todo.length m by
    rcases hp with k | k | k
    · exact .inl k
    · exact .inr (.inl (hz.1 k))
    · exact .inr (.inr k)
  obtain ⟨os, h⟩ := runs_runE hr
  obtain ⟨osA, osB, m3, hA, hB, -⟩ := runE_append h
  obtain ⟨osC, osD, m1', hC, hD, -⟩ := runE_append hA
  have : m1' = m1 := by
    have := (runs_of_runE hC).symm.trans hr1
    cases this; rfl
  subst this
  -- up to the poll
  have hP : m3.todo.length ≤ m1'.todo.length ∧ (m3.isChanged = true ∨ Going m1'.todo.length m3) := by
    simp only [runE] at hD
    split at hD
    · cases hD
    · rename_i o m2 hs
      split at hD <;> cases hD
      rename_i hD
      have hr2 : (World.init script).runs (es1 ++ [.wake]) = some m2 :=
        runs_of_runE (runE_snoc_of hC hs)
      have h0 : m2.todo.length ≤ m1'.todo.length ∧ m2.isChanged = true := by
        simp only [World.step] at hs
        split at hs <;> cases hs
        exact ⟨Nat.le_refl _, rfl⟩
      have := runE_inv (Inv := fun es _ (m : World α) =>
        (∃ os', runE World.step (World.init script) (es1 ++ [.wake] ++ es) = some (os', m)) ∧
        m.todo.length ≤ m1'.todo.length ∧ (m.isChanged = true ∨ Going m1'.todo.length m))
        ⟨by simpa using runs_runE hr2, h0.1, .inl h0.2⟩ ?_ hD
      · exact this.2
      · rintro es os s e o s' ⟨⟨os', hr'⟩, hle, hg⟩ hs
        obtain ⟨k1, k2, k3, -⟩ := going_step hle (unborn_runs (runs_of_runE hr')) hs
        refine ⟨⟨os' ++ [o], ?_⟩, k1, ?_⟩
        · rw [← List.append_assoc]; exact runE_snoc_of hr' hs
        · rcases hg with hg | hg
          · exact k3 hg
          · exact .inr (k2 hg)
  -- from the poll on
  have hQ : Going m1'.todo.length m := by
    simp only [runE] at hB
    split at hB
    · cases hB
    · rename_i o m4 hs
      split at hB <;> cases hB
      rename_i hB
      obtain ⟨k1, k2, k3, -⟩ := going_step hP.1 (unborn_runs (runs_of_runE hA)) hs
      have hsw : (m4.subs i).pc = .swap w := by
        simp only [World.step] at hs
        split at hs <;> cases hs
        simp [World.upd]
      have hP4 : m4.isChanged = true ∨ Going m1'.todo.length m4 := by
        rcases hP.2 with hg | hg
        · exact k3 hg
        · exact .inr (k2 hg)
      have := runE_inv (Inv := fun es _ (m : World α) =>
        (∃ os', runE World.step (World.init script) (es1 ++ .wake :: es2 ++ [.poll i w] ++ es) =
          some (os', m)) ∧ m.todo.length ≤ m1'.todo.length ∧
        (((m.subs i).pc = .swap w ∧ m.isChanged = true) ∨ Going m1'.todo.length m))
        ⟨⟨_, by simpa using runE_snoc_of hA hs⟩, k1, hP4.imp (fun k => ⟨hsw, k⟩) id⟩ ?_ hB
      · rcases this.2.2 with ⟨k, -⟩ | k
        · rcases hrest.2 i with k' | k' <;> rw [k'] at k <;> cases k
        · exact k
      · rintro es os s e o s' ⟨⟨os', hr'⟩, hle, hg⟩ hs
        obtain ⟨k1, k2, k3, k4⟩ := going_step hle (unborn_runs (runs_of_runE hr')) hs
        refine ⟨⟨os' ++ [o], ?_⟩, k1, ?_⟩
        · rw [← List.append_assoc]; exact runE_snoc_of hr' hs
        · rcases hg with ⟨hg, hg'⟩ | hg
          · rcases k4 i w hg with k | k
            · rcases k3 hg' with k' | k'
              · exact .inl ⟨k, k'⟩
              · exact .inr k'
            · exact .inr (k (.inl hg'))
          · exact .inr (k2 hg)
  rcases hQ with k | ⟨j, w', k⟩
  · exact k
  · rcases hrest.2 j with k' | k' <;> rw [k'] at k <;> cases k

/-- The input has answered `Pending`, wakes the broadcaster, and a poll gets its value. -/
example : ∃ m1 m : World Nat,
    (World.init [.pending, .ready (some 7)]).runs [.subscribe, .sstep 0, .poll 0 5, .sstep 0, .sstep 0, .sstep 0] =
      some m1 ∧
    (World.init [.pending, .ready (some 7)]).runs
      ([.subscribe, .sstep 0, .poll 0 5, .sstep 0, .sstep 0, .sstep 0] ++ .wake :: [.nstep, .nstep, .nstep] ++
        .poll 0 6 :: [.sstep 0, .sstep 0, .sstep 0]) = some m ∧ AtRest m ∧
    m1.todo = [.ready (some 7)] ∧ m.todo = [] ∧ m.alive = true := by
  refine ⟨_, _, rfl, rfl, ⟨rfl, fun i => ?_⟩, rfl, rfl, rfl⟩
  cases i with
  | zero => exact .inl rfl
  | succ i => exact .inr rfl

/-- The claim of C45 for a schedule: at rest, a subscriber whose last poll answered `Pending` has been
woken since, or it has got the latest value the input has produced, the input has not ended, and the
input has not woken the broadcaster without being polled afterwards. -/
def UpToDate (script : List (Poll (Option α))) (es : List Ev) : Prop :=
  ∀ m i w, (World.init script).runs es = some m → AtRest m →
    (m.subs i).answers.getLast? = some (w, .pending) →
    w ∈ (m.subs i).woken.drop (m.subs i).regAt ∨
      ((m.subs i).got = m.values.length ∧ m.alive = true ∧ m.isChanged = false)

/-- Two subscribers.  Subscriber 0 finds `is_changed` set and clears it.  Before it gets the write lock,
subscriber 1 finds `is_changed` clear, sees the old epoch, stores its waker and answers `Pending`.  Then
subscriber 0 polls the input, which produces 7. -/
def stale : List Ev :=
  [.subscribe, .sstep 0, .subscribe, .sstep 1, .poll 0 5, .sstep 0,
   .poll 1 6, .sstep 1, .sstep 1, .sstep 0, .sstep 0]

theorem atRest_two {m : World α} (h1 : m.notifier = none) (h2 : (m.subs 0).pc = .idle)
    (h3 : (m.subs 1).pc = .idle) (h4 : ∀ i, (m.subs (i + 2)).pc = .unborn) : AtRest m := by
  refine ⟨h1, fun i => ?_⟩
  match i with
  | 0 => exact .inl h2
  | 1 => exact .inl h3
  | i + 2 => exact .inr (h4 i)

/-- **C45 is false.**  Subscriber 1 waits, was never woken, and has not got the value 7. -/
theorem C45_stale : ¬ UpToDate [.ready (some 7)] stale := by
  intro h
  rcases h _ 1 6 rfl (atRest_two rfl rfl rfl fun _ => rfl) rfl with k | ⟨k, -⟩
  · cases k
  · cases k

/-- One subscriber.  Its poll finds the input pending; before it stores its waker the input wakes the
broadcaster, which finds no waker. -/
def lostWake : List Ev :=
  [.subscribe, .sstep 0, .poll 0 5, .sstep 0, .sstep 0, .wake, .nstep, .nstep, .sstep 0]

/-- **C45 is false**, with a single subscriber: it waits and was never woken, though the input has woken
the broadcaster and has a value ready. -/
theorem C45_lost_wake : ¬ UpToDate [.pending, .ready (some 7)] lostWake := by
  intro h
  have hrest : ∀ m : World Nat, m.notifier = none → (m.subs 0).pc = .idle →
      (∀ i, (m.subs (i + 1)).pc = .unborn) → AtRest m := by
    intro m h1 h2 h3
    refine ⟨h1, fun i => ?_⟩
    cases i with
    | zero => exact .inl h2
    | succ i => exact .inr (h3 i)
  rcases h _ 0 5 rfl (hrest _ rfl rfl fun _ => rfl) rfl with k | ⟨-, -, k⟩
  · cases k
  · cases k

/-- **C45 (partial).**  With any input, any number of subscribers and wake-ups, in every schedule in
which no poll swaps `is_changed` while another one that has found it set has not ended, and no
subscriber's waker is taken between the swap of its poll and the end of that poll: at rest, a subscriber
whose last poll answered `Pending` has been woken since or has the latest value.  Missing: the other
schedules, for which this is false. -/
theorem C45_no_race_partial (script : List (Poll (Option α))) (es : List Ev)
    (ho : NoOverlap script es) (hw : NoWindow script es) : UpToDate script es := by
  intro m i w hr hrest hl
  have hinv := inv_runs hr
  have hwk := wk_runs ho hw hr i
  obtain ⟨hn, hpc⟩ := hrest
  have hnt : ¬ m.nt i := by
    rintro ⟨n, k, -⟩; rw [hn] at k; cases k
  have hidle : (m.subs i).pc = .idle := by
    rcases hpc i with k | k
    · exact k
    · have := hinv.fresh i (by simp [k, Pc.live])
      rw [this] at hl; cases hl
  rcases hwk.pend w hidle hl with ⟨-, k⟩ | ⟨n, k, -⟩ | k
  · refine .inr ⟨?_, ?_, ?_⟩
    · refine (hinv.sub i).2.2.1 (Classical.byContradiction fun hne => hnt (k (.inr (.inl hne))))
    · cases hal : m.alive
      · exact absurd (k (.inr (.inr hal))) hnt
      · rfl
    · cases hic : m.isChanged
      · rfl
      · exact absurd (k (.inl (.inl hic))) hnt
  · rw [hn] at k; cases k
  · exact .inl k

/-- A check of `NoOverlap` for concrete schedules with two subscribers. -/
def noOverlapCheck (n : Nat) (script : List (Poll (Option α))) (es : List Ev) : Bool :=
  (List.range es.length).all fun k =>
    match es[k]? with
    | some (.sstep i) =>
      ((World.init script).runs (es.take k)).all fun m =>
        match (m.subs i).pc with
        | .swap _ => decide (m.made ≤ n) && (List.range n).all fun j => !(m.subs j).pc.busy
        | _ => true
    | _ => true

/-- A check of `NoWindow` for concrete schedules. -/
def noWindowCheck (script : List (Poll (Option α))) (es : List Ev) : Bool :=
  (List.range es.length).all fun k =>
    match es[k]? with
    | some .nstep =>
      ((World.init script).runs (es.take k)).all fun m =>
        match m.notifier with
        | some ⟨i :: _, none⟩ => !(m.subs i).pc.inside
        | _ => true
    | _ => true

theorem noOverlap_of_check {script : List (Poll (Option α))} {es : List Ev} {n : Nat}
    (h : noOverlapCheck n script es = true) : NoOverlap script es := by
  intro k m i w he hr hpc j
  have hk : k < es.length := (List.getElem?_eq_some_iff.1 he).1
  have := List.all_eq_true.1 h k (List.mem_range.2 hk)
  simp only [he, hr, Option.all_some, hpc, Bool.and_eq_true, decide_eq_true_eq] at this
  by_cases hj : j < n
  · simpa using List.all_eq_true.1 this.2 j (List.mem_range.2 hj)
  · rw [unborn_runs hr j (by omega)]; rfl

theorem noWindow_of_check {script : List (Poll (Option α))} {es : List Ev}
    (h : noWindowCheck script es = true) : NoWindow script es := by
  intro k m i rest he hr hn
  have hk : k < es.length := (List.getElem?_eq_some_iff.1 he).1
  have := List.all_eq_true.1 h k (List.mem_range.2 hk)
  simpa [he, hr, hn] using this

/-- Two subscribers, the input produces 7; both get it; both wait; a poll of 1 has started when the
input wakes the broadcaster; the wake of 0 happens while that poll runs. -/
def fair : List Ev :=
  [.subscribe, .sstep 0, .subscribe, .sstep 1, .poll 0 5, .sstep 0, .sstep 0, .sstep 0,
   .poll 1 6, .sstep 1, .sstep 1, .poll 0 5, .sstep 0, .sstep 0, .poll 1 6, .sstep 1, .sstep 1,
   .poll 1 8, .wake, .nstep, .sstep 1, .sstep 1, .sstep 1, .nstep, .nstep, .nstep, .nstep]

example : NoOverlap [.ready (some 7), .pending, .ready (some 8)] fair ∧
    NoWindow [.ready (some 7), .pending, .ready (some 8)] fair ∧
    ∃ m, (World.init [.ready (some 7), .pending, .ready (some 8)]).runs fair = some m ∧ AtRest m ∧
      (m.subs 0).answers = [(5, .ready (some 7)), (5, .pending)] ∧ (m.subs 0).woken = [5] ∧
      (m.subs 1).answers = [(6, .ready (some 7)), (6, .pending), (8, .ready (some 8))] ∧
      (m.subs 1).woken = [6] :=
  ⟨noOverlap_of_check (n := 2) rfl, noWindow_of_check rfl, _, rfl,
    atRest_two rfl rfl rfl (fun _ => rfl), rfl, rfl, rfl, rfl⟩

end Verif.BcConc
