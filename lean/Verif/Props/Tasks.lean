import Verif.TaskSettle

/-!
# C88: tasks that keep `Mutable`s up to date

Any number of tasks `signal.for_each(move |value| { target.set(value); ready(()) })` over shared `Mutable`s,
with an executor.  The signals are networks of C66, so a task may depend on the targets of other tasks.
-/

namespace Verif.Net

variable {α : Type} {n : Nat} {T : Fin n → Task α}

/-- **C88.**  Whenever the executor has nothing to do for a task, its callback was called last on the
present value of its expression; whatever happened before, and also if tasks depend on each other in a
cycle. -/
theorem C88_called {S0 S : Sys T} {h : List (TaskAct n α)} (h0 : S0.Start) (hs : S0.Steps h S) {i : Fin n}
    (hi : S.done i = true ∨ ¬ S.ready i) : S.lastCall i = some ((T i).net.den S.env.values) :=
  called (sysInv_steps (sysInv_start h0) hs) hi

/-- **C88**, equations: if each `Mutable` is the target of at most one task, and nobody else changes the
targets, then whenever the executor has nothing to do for a task, its target has the present value of its
expression. -/
theorem C88_equations {S0 S : Sys T} {h : List (TaskAct n α)}
    (h1 : ∀ i j, (T i).target = (T j).target → i = j) (h2 : ∀ i, (T i).Lawful) (h0 : S0.Start)
    (hu : Untouched T h) (hs : S0.Steps h S) {i : Fin n} (hi : S.done i = true ∨ ¬ S.ready i) :
    (S.env (T i).target).value = (T i).net.den S.env.values :=
  kept_steps (sysInv_start h0) h1 h2 hu (kept_start h0) hs i _ (C88_called h0 hs hi)

/-- **C88**, settling: without cycles, every run of the executor has less than `2 ^ n` polls, whatever the
order; and as long as there is something to do, a next poll returns.  So the executor gets to a state with
nothing to do. -/
theorem C88_settles {S0 S : Sys T} {h : List (TaskAct n α)} (hT : Acyclic T) (h0 : S0.Start) (hp : Private h)
    (hs : S0.Steps h S) :
    (∀ r S', S.Runs r S' → r.length < 2 ^ n) ∧
    (∀ r S', S.Runs r S' → S'.Quiet ∨ ∃ a S'', S.Runs (r ++ [a]) S'') ∧ ∃ r S', S.Runs r S' ∧ S'.Quiet := by
  classical
  have hi := sysInv_steps (sysInv_start h0) hs
  have hr := sysReg_steps (sysInv_start h0) (sysReg_start h0) hp hs
  refine ⟨fun r S' h => Nat.lt_of_le_of_lt (runs_short hT hi hr h) (code_lt n _), fun r S' h => ?_,
    quiet_runs hT hi hr⟩
  by_cases hq : S'.Quiet
  · exact .inl hq
  · obtain ⟨i, hq⟩ := not_forall.1 hq
    obtain ⟨h1, h2⟩ := not_or.1 hq
    obtain ⟨d, S'', h3⟩ := step_possible (fun i h => Nat.lt_irrefl _ (hT i i h))
      (sysInv_steps hi (runs_steps h)) (i := i) (by simpa using h1)
    exact .inr ⟨(i, d), S'', runs_append.2 ⟨S', h, Decidable.not_not.1 h2, S'', h3, rfl⟩⟩

/-- **C88**, in order: if the executor always takes the first task that has something to do, it polls each
task at most once. -/
theorem C88_in_order {S0 S S' : Sys T} {h : List (TaskAct n α)} (hT : Acyclic T) (h0 : S0.Start)
    (hp : Private h) (hs : S0.Steps h S) {r : List (Fin n × Poll Unit)} (hr : S.Runs r S')
    (ho : ∀ r1 i d r2 S1, r = r1 ++ (i, d) :: r2 → S.Runs r1 S1 → ∀ j, j < i → S1.done j = true ∨ ¬ S1.ready j) :
    (r.map Prod.fst).Pairwise (· < ·) := by
  have hi := sysInv_steps (sysInv_start h0) hs
  have hg := sysReg_steps (sysInv_start h0) (sysReg_start h0) hp hs
  clear hs hp h0
  have key : ∀ (r : List (Fin n × Poll Unit)) (S : Sys T) (b : Nat), SysInv S → Reg (MayWake T) S.env →
      S.Runs r S' → (∀ r1 i d r2 S1, r = r1 ++ (i, d) :: r2 → S.Runs r1 S1 →
        ∀ j, j < i → S1.done j = true ∨ ¬ S1.ready j) →
      (∀ j : Fin n, j.1 < b → S.done j = true ∨ ¬ S.ready j) →
      (r.map Prod.fst).Pairwise (· < ·) ∧ ∀ i ∈ r.map Prod.fst, b ≤ i.1 := by
    intro r
    induction r with
    | nil => intros; simp
    | cons a r ih =>
      intro S b hi hg hr ho hb
      obtain ⟨i, d⟩ := a
      obtain ⟨h0, S1, h1, h2⟩ := hr
      have hbi : b ≤ i.1 := by
        refine Nat.le_of_not_lt fun hlt => ?_
        rcases hb i hlt with h | h
        · rw [h1.1] at h; cases h
        · exact h h0
      obtain ⟨k1, k2⟩ := ih S1 (i.1 + 1) (sysInv_step hi h1) (sysReg_step hi hg (by simp) h1) h2
        (fun r1 j d' r2 S2 e hr1 => ho ((i, d) :: r1) j d' r2 S2 (by rw [e]; rfl) ⟨h0, S1, h1, hr1⟩)
        fun j hj => by
          by_cases hq : S1.ready j
          · refine .inl ?_
            rcases poll_ready hT hi hg h1 hq with ⟨h3, h4⟩ | h3
            · rcases ho [] i d r S rfl rfl j (by
                have : j.1 ≠ i.1 := fun h => h3 (Fin.ext h)
                show j.1 < i.1
                omega) with h5 | h5
              · exact (h1.2.2.1 j h3).2.trans h5
              · exact absurd h4 h5
            · exact absurd (show i.1 < j.1 from h3) (by omega)
          · exact .inr hq
      refine ⟨List.pairwise_cons.2 ⟨fun j hj => k2 j hj, k1⟩, fun j hj => ?_⟩
      rcases List.mem_cons.1 hj with rfl | hj
      · exact hbi
      · have := k2 j hj; omega
  exact (key r S 0 hi hg hr ho fun j hj => absurd hj (Nat.not_lt_zero _)).1

/-- **C88**, in order: one poll of each task that has something to do, in the order of the tasks, is
enough. -/
theorem C88_one_pass {S0 S : Sys T} {h : List (TaskAct n α)} (hT : Acyclic T) (h0 : S0.Start)
    (hp : Private h) (hs : S0.Steps h S) :
    ∃ r S', S.Runs r S' ∧ S'.Quiet ∧ (r.map Prod.fst).Pairwise (· < ·) := by
  have key : ∀ (k b : Nat) (S : Sys T), n = b + k → SysInv S → Reg (MayWake T) S.env →
      (∀ j : Fin n, j.1 < b → S.done j = true ∨ ¬ S.ready j) →
      ∃ r S', S.Runs r S' ∧ S'.Quiet ∧ (r.map Prod.fst).Pairwise (· < ·) ∧ ∀ i ∈ r.map Prod.fst, b ≤ i.1 := by
    intro k
    induction k with
    | zero => exact fun b S e _ _ hb => ⟨[], S, rfl, fun j => hb j (by have := j.2; omega), by simp, by simp⟩
    | succ k ih =>
      intro b S e hi hg hb
      have hbn : b < n := by omega
      by_cases hq : S.done ⟨b, hbn⟩ = true ∨ ¬ S.ready ⟨b, hbn⟩
      · obtain ⟨r, S', h1, h2, h3, h4⟩ := ih (b + 1) S (by omega) hi hg fun j hj => by
          rcases Nat.lt_succ_iff_lt_or_eq.1 hj with h | h
          · exact hb j h
          · have : j = ⟨b, hbn⟩ := Fin.ext h
            rw [this]; exact hq
        exact ⟨r, S', h1, h2, h3, fun i hi => by have := h4 i hi; omega⟩
      · obtain ⟨hd, hr⟩ := not_or.1 hq
        obtain ⟨d, S1, h1⟩ := step_possible (fun i h => Nat.lt_irrefl _ (hT i i h)) hi (i := ⟨b, hbn⟩)
          (by simpa using hd)
        obtain ⟨r, S', h2, h3, h4, h5⟩ := ih (b + 1) S1 (by omega) (sysInv_step hi h1)
          (sysReg_step hi hg (by simp) h1) fun j hj => by
            by_cases hj' : S1.ready j
            · refine .inl ?_
              rcases poll_ready hT hi hg h1 hj' with ⟨h6, h7⟩ | h6
              · rcases hb j (by have : j.1 ≠ b := fun h => h6 (Fin.ext h); omega) with h8 | h8
                · exact (h1.2.2.1 j h6).2.trans h8
                · exact absurd h7 h8
              · exact absurd (show b < j.1 from h6) (by omega)
            · exact .inr hj'
        refine ⟨(⟨b, hbn⟩, d) :: r, S', ⟨Classical.not_not.1 hr, S1, h1, h2⟩, h3,
          List.pairwise_cons.2 ⟨fun j hj => h5 j hj, h4⟩, fun j hj => ?_⟩
        rcases List.mem_cons.1 hj with rfl | hj
        · exact Nat.le_refl b
        · have := h5 j hj; omega
  obtain ⟨r, S', h1, h2, h3, -⟩ := key n 0 S (by omega) (sysInv_steps (sysInv_start h0) hs)
    (sysReg_steps (sysInv_start h0) (sysReg_start h0) hp hs) fun j hj => absurd hj (Nat.not_lt_zero _)
  exact ⟨r, S', h1, h2, h3⟩

/-- **C88**, one result: without cycles, if the executor runs until it has nothing to do, the values of all
`Mutable`s then do not depend on the order of the polls.  The targets solve the equations, and no other
values do. -/
theorem C88_confluent {S0 S S1 S2 : Sys T} {h : List (TaskAct n α)} {r1 r2 : List (Fin n × Poll Unit)}
    (hT : Acyclic T) (h1 : ∀ i j, (T i).target = (T j).target → i = j) (h2 : ∀ i, (T i).Lawful)
    (h0 : S0.Start) (hu : Untouched T h) (hs : S0.Steps h S) (hr1 : S.Runs r1 S1) (hq1 : S1.Quiet)
    (hr2 : S.Runs r2 S2) (hq2 : S2.Quiet) :
    S1.env.values = S2.env.values ∧
    ∀ v : Nat → α, (∀ i, v (T i).target = (T i).net.den v) →
      (∀ m, (∀ i, (T i).target ≠ m) → v m = (S.env m).value) → S1.env.values = v := by
  have hi := sysInv_steps (sysInv_start h0) hs
  have hk := kept_steps (sysInv_start h0) h1 h2 hu (kept_start h0) hs
  have eqs : ∀ {S' : Sys T} {r : List (Fin n × Poll Unit)}, S.Runs r S' → S'.Quiet →
      ∀ i, S'.env.values (T i).target = (T i).net.den S'.env.values := fun {S' r} hr hq i =>
    kept_steps hi h1 h2 (h := r.map fun a => .poll a.1 a.2) (by intro m e hm; simp at hm) hk (runs_steps hr) i _
      (called (sysInv_steps hi (runs_steps hr)) (hq i))
  refine ⟨solutions hT (eqs hr1 hq1) (eqs hr2 hq2) fun m hm =>
    (runs_value hi hr1 hm).trans (runs_value hi hr2 hm).symm, fun v hv ho =>
    solutions hT (eqs hr1 hq1) hv fun m hm => (runs_value hi hr1 hm).trans (ho m hm).symm⟩

/-- **C88**, the end: without cycles, once only the tasks have handles of the `Mutable`s that are read, and
the executor has run until it has nothing to do, all tasks are complete. -/
theorem C88_end {S0 S S' : Sys T} {h : List (TaskAct n α)} {r : List (Fin n × Poll Unit)} (hT : Acyclic T)
    (h0 : S0.Start) (hs : S0.Steps h S) (hh : ∀ i m, (T i).net.Reads m → (S.env m).handles = holds T S.done m)
    (hr : S.Runs r S') (hq : S'.Quiet) (i : Fin n) : S'.done i = true :=
  have hi := sysInv_steps (sysInv_start h0) hs
  all_done hT (sysInv_steps hi (runs_steps hr)) hq (fun i m hm => alone_runs (c := 0) hi hr (hh i m hm)) i

/-- **C88**, cycles: if the equations have no solution, there is always something to do. -/
theorem C88_no_solution {S0 S : Sys T} {h : List (TaskAct n α)}
    (h1 : ∀ i j, (T i).target = (T j).target → i = j) (h2 : ∀ i, (T i).Lawful) (h0 : S0.Start)
    (hu : Untouched T h) (hs : S0.Steps h S)
    (hn : ¬ ∃ v : Nat → α, ∀ i, v (T i).target = (T i).net.den v) : ¬ S.Quiet :=
  fun hq => hn ⟨S.env.values, fun i => C88_equations h1 h2 h0 hu hs (hq i)⟩

/-! ## Examples -/

/-- `b` is to be `a + 1`, and `c` is to be `a + b`. -/
def demoSheet : Fin 2 → Task Nat
  | 0 => ⟨.map (· + 1) (.source 0), 1, none⟩
  | 1 => ⟨.mapRef (n := 1) (fun i => .source i) List.sum, 2, none⟩

theorem demoSheet_acyclic : Acyclic demoSheet := by
  intro i j h
  match i, j with
  | 0, 0 => simp [demoSheet, Net.Reads] at h
  | 0, 1 => simp [demoSheet, Net.Reads] at h
  | 1, 0 => decide
  | 1, 1 =>
    simp only [demoSheet, Net.Reads] at h
    obtain ⟨i, hi⟩ := h
    have := i.2
    omega

theorem demoSheet_targets (i j : Fin 2) (h : (demoSheet i).target = (demoSheet j).target) : i = j := by
  match i, j with
  | 0, 0 => rfl
  | 0, 1 => cases h
  | 1, 0 => cases h
  | 1, 1 => rfl

theorem demoSheet_lawful (i : Fin 2) : (demoSheet i).Lawful := by
  match i with
  | 0 => intro f hf; cases hf
  | 1 => intro f hf; cases hf

theorem demoSheet_start : ∃ S : Sys demoSheet, S.Start ∧ (∀ m, (S.env m).value = 7) ∧
    ∀ m, (S.env m).handles = 1 := by
  refine start_exists demoSheet (W0 := fun _ => Mut.World.new 7) (fun m => ⟨7, [], [], rfl, by simp⟩) fun m => ?_
  show _ ≤ 1
  simp only [holds, demoSheet, List.finRange_succ, List.finRange_zero, List.countP_cons, List.map_cons,
    List.map_nil, List.countP_nil]
  by_cases h1 : m = 1
  · subst h1; simp
  · by_cases h2 : m = 2
    · subst h2; simp
    · simp [Ne.symm h1, Ne.symm h2]

/-- The executor runs until `b` is 8 and `c` is 15. -/
example : ∃ (S0 S : Sys demoSheet) (r : List (Fin 2 × Poll Unit)), S0.Start ∧ S0.Runs r S ∧ S.Quiet ∧
    r.length < 4 ∧ (S.env 1).value = 8 ∧ (S.env 2).value = 15 := by
  obtain ⟨S0, h0, hv, -⟩ := demoSheet_start
  obtain ⟨h1, -, r, S, h2, h3⟩ := C88_settles demoSheet_acyclic h0 (h := []) (by intro m k w h; simp at h) rfl
  have e := fun i => C88_equations demoSheet_targets demoSheet_lawful h0
    (h := r.map fun a => .poll a.1 a.2) (by intro m e hm; simp at hm) (runs_steps h2) (h3 i)
  have e0 : (S.env 0).value = 7 := by
    rw [runs_value (sysInv_start h0) h2 (m := 0) fun i => by match i with | 0 => decide | 1 => decide]
    exact hv 0
  have e1 : (S.env 1).value = 8 := by
    have := e 0
    simpa [demoSheet, Net.den, Env.values, e0] using this
  refine ⟨S0, S, r, h0, h2, h3, h1 r S h2, e1, ?_⟩
  have := e 1
  simpa [demoSheet, Net.den, Env.values, e0, e1] using this

/-- The only handle of `a` is dropped: both tasks complete. -/
example : ∃ (S0 S S' : Sys demoSheet) (r : List (Fin 2 × Poll Unit)), S0.Start ∧
    S0.Steps [.env 0 .drop] S ∧ S.Runs r S' ∧ S'.Quiet ∧ S'.done 0 = true ∧ S'.done 1 = true := by
  obtain ⟨S0, h0, -, hh⟩ := demoSheet_start
  have hd : S0.done = fun _ => false := funext fun i => (h0.2.1 i).2.2
  have hold : ∀ m, m < 2 → holds demoSheet (fun _ => false) m = m := by
    intro m hm
    match m with
    | 0 => rfl
    | 1 => rfl
    | m + 2 => omega
  have hx : (S0.env 0).step .drop = some (.unit, (S0.env 0).drop) := if_neg (by rw [hh]; decide)
  let S : Sys demoSheet := ⟨S0.env.put 0 (S0.env 0).drop, S0.st,
    fun j => S0.ready j ∨ Woken S0.env (S0.env.put 0 (S0.env 0).drop) j, S0.done⟩
  have hs : S0.Steps [.env 0 .drop] S := by
    refine ⟨S, ⟨fun i => drop_foreign, ⟨_, _, hx, ?_, rfl⟩, rfl, rfl, fun j => Iff.rfl⟩, rfl⟩
    rw [hd, hold 0 (by decide)]; exact Nat.zero_le _
  have dropped : (S0.env 0).drop.handles = 0 := by
    obtain ⟨R, hR⟩ := (sysInv_start h0).ok 0
    have h1 := (hR.step hx).1.handles
    have h2 := hR.handles
    rw [hh] at h2
    rw [h1]
    show R.handles - 1 = 0
    omega
  have hall : ∀ m, m < 2 → (S.env m).handles = holds demoSheet S.done m := by
    intro m hm
    show (S0.env.put 0 (S0.env 0).drop m).handles = holds demoSheet S0.done m
    rw [hd, hold m hm]
    match m with
    | 0 => rw [put_same, dropped]
    | 1 => rw [put_other _ _ (by decide), hh]
    | m + 2 => omega
  obtain ⟨-, -, r, S', h2, h3⟩ := C88_settles demoSheet_acyclic h0 (h := [.env 0 .drop])
    (by intro m k w h; simp at h) hs
  have := C88_end demoSheet_acyclic h0 hs (fun i m hm => hall m ?_) h2 h3
  · exact ⟨S0, S, S', r, h0, hs, h2, h3, this 0, this 1⟩
  · match i with
    | 0 => have : m = 0 := hm; omega
    | 1 =>
      obtain ⟨k, hk⟩ := hm
      have : m = k.1 := hk
      omega

/-- `b` is to be `a + 1` and `a` is to be `b + 1`. -/
def demoGrow : Fin 2 → Task Nat
  | 0 => ⟨.map (· + 1) (.source 0), 1, none⟩
  | 1 => ⟨.map (· + 1) (.source 1), 0, none⟩

/-- There is always something to do. -/
example {S0 S : Sys demoGrow} {h : List (TaskAct 2 Nat)} (h0 : S0.Start) (hu : Untouched demoGrow h)
    (hs : S0.Steps h S) : ¬ S.Quiet := by
  refine C88_no_solution (fun i j h => ?_) (fun i => ?_) h0 hu hs ?_
  · match i, j with
    | 0, 0 => rfl
    | 0, 1 => cases h
    | 1, 0 => cases h
    | 1, 1 => rfl
  · match i with
    | 0 => intro f hf; cases hf
    | 1 => intro f hf; cases hf
  · rintro ⟨v, hv⟩
    have h1 : v 1 = v 0 + 1 := hv 0
    have h2 : v 0 = v 1 + 1 := hv 1
    omega

end Verif.Net
