import Verif.TaskBind

/-!
# C89: two-way bindings

Two tasks that keep `Mutable` 1 at `f` of `Mutable` 0, and `Mutable` 0 at `g` of `Mutable` 1.
-/

namespace Verif.Net

variable {α : Type}

/-- `a.signal().map(f).for_each(|x| b.set(x))` and `b.signal().map(g).for_each(|x| a.set(x))`; with a test,
`set_if`.  `/repo/src/signal/signal.rs:479-489`, `/repo/src/signal/mutable.rs:290-305`. -/
def twoWay (f g : α → α) (e : Option (α → α → Bool)) : Fin 2 → Task α
  | 0 => ⟨.map f (.source 0), 1, e⟩
  | 1 => ⟨.map g (.source 1), 0, e⟩

/-- One task that sets what it reads. -/
def selfLoop (f : α → α) : Fin 1 → Task α := fun _ => ⟨.map f (.source 0), 0, none⟩

/-- The test of `set_neq`, `/repo/src/signal/mutable.rs:342-344`. -/
def neq [DecidableEq α] : Option (α → α → Bool) := some fun a b => a != b

theorem neq_lawful [DecidableEq α] (f g : α → α) (i : Fin 2) : (twoWay f g neq i).Lawful := by
  match i with
  | 0 => intro h hh a b hab; cases hh; simpa using hab
  | 1 => intro h hh a b hab; cases hh; simpa using hab

theorem twoWay_reads (f g : α → α) (e : Option (α → α → Bool)) (i : Fin 2) :
    ¬ (twoWay f g e i).net.Reads (twoWay f g e i).target := by
  match i with
  | 0 => intro h; cases h
  | 1 => intro h; cases h

/-- **C89**, a task that sets what it reads: its first poll never returns. -/
theorem C89_self_loop {f : α → α} {S0 S : Sys (selfLoop f)} {h : List (TaskAct 1 α)} (h0 : S0.Start)
    (hs : S0.Steps h S) : ¬ ∃ d S', S.Step S' (.poll 0 d) := by
  have key : ∀ {S : Sys (selfLoop f)}, SysInv S → S.lastCall 0 = none → ¬ ∃ d S', S.Step S' (.poll 0 d) := by
    rintro S hi hn ⟨d, S', -, ⟨l, W1, h1, h2, h3, -⟩, -⟩
    obtain ⟨-, -, hl⟩ := each_took (hi.idle 0) h2 h3
    have hI := hi.inv 0
    obtain ⟨a, ha⟩ := self_feeds (f := f) (m := 0) hI hi.ok h1 (fun hc => by
      have := clean_den hI hc
      rw [hn] at this; cases this) _ hl
    match d with
    | .pending => cases ha
    | .ready () => cases ha
  have all : ∀ {h : List (TaskAct 1 α)} {S1 : Sys (selfLoop f)}, SysInv S1 → S1.lastCall 0 = none →
      S1.Steps h S → SysInv S ∧ S.lastCall 0 = none := by
    intro h
    induction h with
    | nil => rintro S1 hi hn rfl; exact ⟨hi, hn⟩
    | cons a h ih =>
      rintro S1 hi hn ⟨S2, h1, h2⟩
      match a with
      | .env m e =>
        refine ih (sysInv_step hi h1) ?_ h2
        unfold Sys.lastCall at hn ⊢
        rw [h1.2.2.1]; exact hn
      | .poll 0 d => exact absurd ⟨d, S2, h1⟩ (key hi hn)
  obtain ⟨k1, k2⟩ := all (sysInv_start h0) (by unfold Sys.lastCall; rw [(h0.2.1 0).1]; rfl) hs
  exact key k1 k2

/-- There is something new for task `i`. -/
theorem dirty_ready {n : Nat} {T : Fin n → Task α} {S : Sys T} (hi : SysInv S) {i : Fin n}
    (hc : ¬ Clean (T i).net S.env (S.st i).signal) : S.done i = false ∧ S.ready i := by
  cases hd : S.done i with
  | true => exact absurd (armed_clean (w := 0) (dead_armed (hi.dead i hd))) hc
  | false => exact ⟨rfl, Classical.not_not.1 fun hr => hc (armed_clean (hi.armed i hd hr).1)⟩

/-- A poll of one of two tasks leaves what is new for the other. -/
theorem poll_other {n : Nat} {T : Fin n → Task α} {S S' : Sys T} (hi : SysInv S) {i j : Fin n} {d : Poll Unit}
    (hij : j ≠ i) (hs : S.Step S' (.poll i d)) (hc : Clean (T j).net S'.env (S'.st j).signal) :
    Clean (T j).net S.env (S.st j).signal := by
  obtain ⟨-, h1, h2, -⟩ := hs
  rw [(h2 j hij).1] at hc
  exact ((task_post (hi.inv i) hi.ok (hi.idle i) h1).sees _ _ _ (hi.inv j) fun m c h => hi.apart j i m c hij h).clean
    hc

/-- **C89**, `set`: a two-way binding with `set` never comes to rest, whatever happens; each of the two
writes causes the other. -/
theorem C89_set_never_rests {f g : α → α} {S0 S : Sys (twoWay f g none)} {h : List (TaskAct 2 α)}
    (h0 : S0.Start) (hs : S0.Steps h S) : ∃ i, S.done i = false ∧ S.ready i := by
  have key : ∀ {h : List (TaskAct 2 α)} {S1 : Sys (twoWay f g none)}, SysInv S1 →
      (∃ i, ¬ Clean (twoWay f g none i).net S1.env (S1.st i).signal) → S1.Steps h S →
      SysInv S ∧ ∃ i, ¬ Clean (twoWay f g none i).net S.env (S.st i).signal := by
    intro h
    induction h with
    | nil => rintro S1 hi hn rfl; exact ⟨hi, hn⟩
    | cons a h ih =>
      rintro S1 hi ⟨i, hn⟩ ⟨S2, h1, h2⟩
      refine ih (sysInv_step hi h1) ?_ h2
      match a with
      | .env m e =>
        obtain ⟨hf, ⟨o, x, hx, -, h3⟩, h4, -⟩ := h1
        refine ⟨i, fun hc => hn ?_⟩
        rw [h4, h3] at hc
        exact (sees_env (hi.inv i) hi.ok (hf i) hx).clean hc
      | .poll k d =>
        by_cases hk : i = k
        · subst hk
          have hst := h1.2.2.1
          have hp := h1.2.1
          match i with
          | 0 =>
            refine ⟨1, fun hc => ?_⟩
            rw [(hst 1 (by decide)).1] at hc
            have ow := own_lt (m := 1) (i := (S1.st 1).signal.2) (hi.inv 1) ⟨rfl, rfl⟩
            have := set_poll (f := f) (m := 0) (k := 1) (hi.inv 0) hi.ok (hi.idle 0) hn hp ow.1 ow.2
              fun h => by cases h.1
            have hc : ((S2.env 1).cell (S1.st 1).signal.2).changed = false := hc
            rw [this] at hc; cases hc
          | 1 =>
            refine ⟨0, fun hc => ?_⟩
            rw [(hst 0 (by decide)).1] at hc
            have ow := own_lt (m := 0) (i := (S1.st 0).signal.2) (hi.inv 0) ⟨rfl, rfl⟩
            have := set_poll (f := g) (m := 1) (k := 0) (hi.inv 1) hi.ok (hi.idle 1) hn hp ow.1 ow.2
              fun h => by cases h.1
            have hc : ((S2.env 0).cell (S1.st 0).signal.2).changed = false := hc
            rw [this] at hc; cases hc
        · exact ⟨i, fun hc => hn (poll_other hi hk h1 hc)⟩
  obtain ⟨k1, i, k2⟩ := key (sysInv_start h0) ⟨0, fun hc => by
    have := clean_den ((sysInv_start h0).inv 0) hc
    unfold Sys.lastCall at this
    rw [(h0.2.1 0).1] at this; cases this⟩ hs
  exact ⟨i, dirty_ready k1 k2⟩

/-- What is wrong between the two values. -/
def rank [DecidableEq α] (f g : α → α) (x y : α) : Nat :=
  if y = f x then (if x = g y then 0 else 1) else if x = g y then 1 else 2

/-- Reading the other side. -/
theorem not_self {f g : α → α} {e : Option (α → α → Bool)} {S S' : Sys (twoWay f g e)} {i : Fin 2}
    {d : Poll Unit} (hi : SysInv S) (hr : Reg (MayWake (twoWay f g e)) S.env) (hs : S.Step S' (.poll i d)) :
    ¬ S'.ready i := by
  obtain ⟨-, h1, -, -, h2⟩ := hs
  intro hj
  rcases (h2 i).1 hj with h | ⟨m, l, e, hl⟩
  · exact h.1 rfl
  · obtain ⟨ws, e', hw⟩ :=
      (task_reg (fun m hm k hk => by rw [← Fin.ext hk]; exact hm) (hi.inv i) hi.ok h1 hr).2 m
    rw [e', List.append_cancel_left_eq] at e
    subst e
    obtain ⟨rfl, h3⟩ := hw _ hl
    exact twoWay_reads f g _ i (h3 i rfl)

/-- What a poll of a two-way binding with `set_neq` does to the values. -/
theorem bind_values [DecidableEq α] {f g : α → α} {S S' : Sys (twoWay f g neq)} {i : Fin 2} {d : Poll Unit}
    (hi : SysInv S) (hs : S.Step S' (.poll i d)) :
    (Clean (twoWay f g neq i).net S.env (S.st i).signal ∧ (S'.env 0).value = (S.env 0).value ∧
      (S'.env 1).value = (S.env 1).value) ∨
    (i = 0 ∧ (S'.env 0).value = (S.env 0).value ∧ (S'.env 1).value = f (S.env 0).value) ∨
    (i = 1 ∧ (S'.env 1).value = (S.env 1).value ∧ (S'.env 0).value = g (S.env 1).value) := by
  have hp := hs.2.1
  by_cases hc : Clean (twoWay f g neq i).net S.env (S.st i).signal
  · exact .inl ⟨hc, clean_poll (hi.inv i) hi.ok hc hp 0, clean_poll (hi.inv i) hi.ok hc hp 1⟩
  · have P := task_post (hi.inv i) hi.ok (hi.idle i) hp
    match i with
    | 0 => exact .inr (.inl ⟨rfl, P.value 0 (show (0 : Nat) ≠ 1 by decide), dirty_poll (f := f) (m := 0) (k := 1) (neq_lawful f g 0)
        (by decide) (hi.inv 0) hi.ok (hi.idle 0) hc hp⟩)
    | 1 => exact .inr (.inr ⟨rfl, P.value 1 (show (1 : Nat) ≠ 0 by decide), dirty_poll (f := g) (m := 1) (k := 0) (neq_lawful f g 1)
        (by decide) (hi.inv 1) hi.ok (hi.idle 1) hc hp⟩)

/-- A poll that changes no value and does not complete the task makes no task ready. -/
theorem bind_still [DecidableEq α] {f g : α → α} {S S' : Sys (twoWay f g neq)} {i : Fin 2}
    (hi : SysInv S) (hs : S.Step S' (.poll i .pending)) (h0 : (S'.env 0).value = (S.env 0).value)
    (h1 : (S'.env 1).value = (S.env 1).value) (j : Fin 2) (hj : S'.ready j) : j ≠ i ∧ S.ready j := by
  have hw : ∀ m, (S'.env m).woken = (S.env m).woken := by
    have hp := hs.2.1
    match i with
    | 0 =>
      rcases still_poll (t := twoWay f g neq 0) rfl (by simp) (twoWay_reads f g neq 0) (hi.inv 0) hi.ok hp with h | h
      · exact h
      · exact absurd h1 h
    | 1 =>
      rcases still_poll (t := twoWay f g neq 1) rfl (by simp) (twoWay_reads f g neq 1) (hi.inv 1) hi.ok hp with h | h
      · exact h
      · exact absurd h0 h
  rcases (hs.2.2.2.2 j).1 hj with h | ⟨m, l, e, hl⟩
  · exact h
  · rw [hw m] at e
    have : l = [] := by simpa using e
    subst this
    cases hl

open Classical in
/-- What is left to do. -/
noncomputable def todo [DecidableEq α] (f g : α → α) (S : Sys (twoWay f g neq)) : Nat :=
  (if S.ready 0 then 1 else 0) + (if S.ready 1 then 1 else 0) + (if S.done 0 then 0 else 1) +
    (if S.done 1 then 0 else 1) + rank f g (S.env 0).value (S.env 1).value

theorem rank_le [DecidableEq α] (f g : α → α) (x y : α) : rank f g x y ≤ 2 := by
  unfold rank
  split
  · split <;> omega
  · split <;> omega

theorem todo_less [DecidableEq α] {f g : α → α} (hf : ∀ a, f (g (f a)) = f a) (hg : ∀ a, g (f (g a)) = g a)
    {S S' : Sys (twoWay f g neq)} {i : Fin 2} {d : Poll Unit} (hi : SysInv S)
    (hr : Reg (MayWake (twoWay f g neq)) S.env) (h0 : S.ready i) (hs : S.Step S' (.poll i d)) :
    todo f g S' < todo f g S := by
  have hn := not_self hi hr hs
  have hd := hs.1
  have hd' := hs.2.2.2.1
  have hrank : ((S'.env 0).value = (S.env 0).value ∧ (S'.env 1).value = (S.env 1).value) ∨
      rank f g (S'.env 0).value (S'.env 1).value < rank f g (S.env 0).value (S.env 1).value := by
    rcases bind_values hi hs with ⟨-, h⟩ | ⟨-, h1, h2⟩ | ⟨-, h1, h2⟩
    · exact .inl h
    · by_cases hy : (S.env 1).value = f (S.env 0).value
      · exact .inl ⟨h1, h2.trans hy.symm⟩
      · refine .inr ?_
        rw [h1, h2]
        unfold rank
        rw [if_pos rfl, if_neg hy]
        by_cases hx : (S.env 0).value = g (S.env 1).value
        · have : (S.env 0).value = g (f (S.env 0).value) := by
            rw [hx]; exact (hg _).symm
          rw [if_pos this, if_pos hx]; omega
        · rw [if_neg hx]
          split <;> omega
    · by_cases hx : (S.env 0).value = g (S.env 1).value
      · exact .inl ⟨h2.trans hx.symm, h1⟩
      · refine .inr ?_
        rw [h1, h2]
        unfold rank
        rw [if_pos rfl, if_neg hx]
        by_cases hy : (S.env 1).value = f (S.env 0).value
        · have : (S.env 1).value = f (g (S.env 1).value) := by
            rw [hy]; exact (hf _).symm
          rw [if_pos this, if_pos hy]; omega
        · rw [if_neg hy, if_pos rfl]
          split <;> omega
  have hle : rank f g (S'.env 0).value (S'.env 1).value ≤ rank f g (S.env 0).value (S.env 1).value := by
    rcases hrank with ⟨h1, h2⟩ | h
    · rw [h1, h2]; exact Nat.le_refl _
    · omega
  have other : ∀ j, j ≠ i → S'.done j = S.done j := fun j hj => (hs.2.2.1 j hj).2
  have strict : d = .pending → (∀ j, S'.ready j → j ≠ i ∧ S.ready j) ∨
      rank f g (S'.env 0).value (S'.env 1).value < rank f g (S.env 0).value (S.env 1).value := by
    rintro rfl
    exact hrank.imp (fun h => bind_still hi hs h.1 h.2) id
  have done' : S'.done i = true ∨ S'.done i = false ∧ d = .pending := by
    match d with
    | .pending =>
      refine .inr ⟨?_, rfl⟩
      rw [Bool.eq_false_iff]
      intro h; cases hd'.1 h
    | .ready () => exact .inl (hd'.2 rfl)
  unfold todo
  match i with
  | 0 =>
    have o1 := other 1 (by decide)
    rw [if_neg hn, if_pos h0, hd, o1]
    rcases done' with h | ⟨h, hp⟩
    · rw [h]
      simp only [if_true, Bool.false_eq_true, if_false]
      split <;> split <;> omega
    · rw [h]
      rcases strict hp with h1 | h1
      · have : S'.ready 1 → S.ready 1 := fun h => (h1 1 h).2
        by_cases hq : S'.ready 1
        · rw [if_pos hq, if_pos (this hq)]; omega
        · rw [if_neg hq]; omega
      · split <;> split <;> omega
  | 1 =>
    have o1 := other 0 (by decide)
    rw [if_neg hn, if_pos h0, hd, o1]
    rcases done' with h | ⟨h, hp⟩
    · rw [h]
      simp only [if_true, Bool.false_eq_true, if_false]
      split <;> split <;> omega
    · rw [h]
      rcases strict hp with h1 | h1
      · have : S'.ready 0 → S.ready 0 := fun h => (h1 0 h).2
        by_cases hq : S'.ready 0
        · rw [if_pos hq, if_pos (this hq)]; omega
        · rw [if_neg hq]; omega
      · split <;> split <;> omega

/-- **C89**, `set_neq`: a two-way binding with `set_neq` comes to rest after at most six polls, from every
state, if a value that was converted both ways is not changed by another conversion. -/
theorem C89_settles [DecidableEq α] {f g : α → α} (hf : ∀ a, f (g (f a)) = f a) (hg : ∀ a, g (f (g a)) = g a)
    {S0 S : Sys (twoWay f g neq)} {h : List (TaskAct 2 α)} (h0 : S0.Start) (hp : Private h) (hs : S0.Steps h S) :
    (∀ r S', S.Runs r S' → r.length ≤ 6) ∧ ∃ r S', S.Runs r S' ∧ S'.Quiet := by
  have hi := sysInv_steps (sysInv_start h0) hs
  have hr := sysReg_steps (sysInv_start h0) (sysReg_start h0) hp hs
  clear hs h0 hp
  constructor
  · intro r S' h
    have key : ∀ (r : List (Fin 2 × Poll Unit)) (S : Sys (twoWay f g neq)), SysInv S →
        Reg (MayWake (twoWay f g neq)) S.env → S.Runs r S' → r.length ≤ todo f g S := by
      intro r
      induction r with
      | nil => intros; simp
      | cons a r ih =>
        rintro S hi hr ⟨h0, S1, h1, h2⟩
        have := ih S1 (sysInv_step hi h1) (sysReg_step hi hr (by simp) h1) h2
        have := todo_less hf hg hi hr h0 h1
        simp only [List.length_cons]
        omega
    have h1 := key r S hi hr h
    have h2 := rank_le f g (S.env 0).value (S.env 1).value
    unfold todo at h1
    have b1 : (if S.done 0 = true then 0 else 1) ≤ 1 := by split <;> omega
    have b2 : (if S.done 1 = true then 0 else 1) ≤ 1 := by split <;> omega
    split at h1 <;> split at h1 <;> omega
  · generalize hc : todo f g S = c
    induction c using Nat.strongRecOn generalizing S with
    | ind c ih =>
      by_cases hq : S.Quiet
      · exact ⟨[], S, rfl, hq⟩
      · obtain ⟨i, hq⟩ := not_forall.1 hq
        obtain ⟨hd, hy⟩ := not_or.1 hq
        have hy := Classical.not_not.1 hy
        obtain ⟨d, S1, h1⟩ := step_possible (twoWay_reads f g neq) hi (i := i) (by simpa using hd)
        obtain ⟨r, S', h2, h3⟩ := ih _ (hc ▸ todo_less hf hg hi hr hy h1) (sysInv_step hi h1)
          (sysReg_step hi hr (by simp) h1) rfl
        exact ⟨(i, d) :: r, S', ⟨hy, S1, h1, h2⟩, h3⟩

/-- **C89**, agreement: at rest, one of the two is the conversion of the other, whoever changed which of them
and how; if the conversions are inverse to each other, each is the conversion of the other. -/
theorem C89_agree [DecidableEq α] {f g : α → α} {S0 S : Sys (twoWay f g neq)} {h : List (TaskAct 2 α)}
    (h0 : S0.Start) (hs : S0.Steps h S) (hq : S.Quiet) :
    ((S.env 1).value = f (S.env 0).value ∨ (S.env 0).value = g (S.env 1).value) ∧
    ((∀ a, g (f a) = a) → (∀ a, f (g a) = a) →
      (S.env 1).value = f (S.env 0).value ∧ (S.env 0).value = g (S.env 1).value) := by
  have key : ∀ {h : List (TaskAct 2 α)} {S1 : Sys (twoWay f g neq)}, SysInv S1 →
      ((∀ i, Clean (twoWay f g neq i).net S1.env (S1.st i).signal) →
        (S1.env 1).value = f (S1.env 0).value ∨ (S1.env 0).value = g (S1.env 1).value) → S1.Steps h S →
      SysInv S ∧ ((∀ i, Clean (twoWay f g neq i).net S.env (S.st i).signal) →
        (S.env 1).value = f (S.env 0).value ∨ (S.env 0).value = g (S.env 1).value) := by
    intro h
    induction h with
    | nil => rintro S1 hi hn rfl; exact ⟨hi, hn⟩
    | cons a h ih =>
      rintro S1 hi hn ⟨S2, h1, h2⟩
      refine ih (sysInv_step hi h1) (fun hc => ?_) h2
      match a with
      | .env m e =>
        obtain ⟨hf, ⟨o, x, hx, -, h3⟩, h4, -⟩ := h1
        rw [h4, h3] at hc
        have hl := fun i => later_env (hi.inv i) hi.ok (hf i) hx
        have e0 : (S2.env 0).value = (S1.env 0).value := by
          rw [h3]; exact ((hl 0).clean 0 (S1.st 0).signal.2 ⟨rfl, rfl⟩ (hc 0)).2
        have e1 : (S2.env 1).value = (S1.env 1).value := by
          rw [h3]; exact ((hl 1).clean 1 (S1.st 1).signal.2 ⟨rfl, rfl⟩ (hc 1)).2
        rw [e0, e1]
        exact hn fun i => (sees_env (hi.inv i) hi.ok (hf i) hx).clean (hc i)
      | .poll k d =>
        rcases bind_values hi h1 with ⟨c, e0, e1⟩ | ⟨rfl, e0, e1⟩ | ⟨rfl, e1, e0⟩
        · rw [e0, e1]
          refine hn fun i => ?_
          by_cases hk : i = k
          · subst hk; exact c
          · exact poll_other hi hk h1 (hc i)
        · left; rw [e0, e1]
        · right; rw [e0, e1]
  obtain ⟨k1, k2⟩ := key (sysInv_start h0) (fun hc => by
    have := clean_den ((sysInv_start h0).inv 0) (hc 0)
    unfold Sys.lastCall at this
    rw [(h0.2.1 0).1] at this; cases this) hs
  have k3 := k2 fun i => by
    rcases hq i with h | h
    · exact armed_clean (w := 0) (dead_armed (k1.dead i h))
    · cases hd : S.done i with
      | true => exact armed_clean (w := 0) (dead_armed (k1.dead i hd))
      | false => exact armed_clean (k1.armed i hd h).1
  refine ⟨k3, fun hgf hfg => ?_⟩
  rcases k3 with h | h
  · exact ⟨h, by rw [h, hgf]⟩
  · exact ⟨by rw [h, hfg], h⟩

/-- **C89**, following: if one of the two is set while the binding is at rest, then at the next rest the
other one is its conversion, and it has the value set, or that value converted both ways. -/
theorem C89_follows [DecidableEq α] {f g : α → α} (hf : ∀ a, f (g (f a)) = f a)
    {S0 S S1 S2 : Sys (twoWay f g neq)} {h : List (TaskAct 2 α)} {r : List (Fin 2 × Poll Unit)} {a : α}
    (h0 : S0.Start) (hs : S0.Steps h S) (hq : S.Quiet) (h1 : S.Step S1 (.env 0 (.set a))) (hr : S1.Runs r S2)
    (hq2 : S2.Quiet) :
    (S2.env 1).value = f a ∧ ((S2.env 0).value = a ∨ (S2.env 0).value = g (f a)) := by
  have hi := sysInv_steps (sysInv_start h0) hs
  have hi1 := sysInv_step hi h1
  have rest : ∀ {S : Sys (twoWay f g neq)}, SysInv S → S.Quiet → ∀ i,
      Clean (twoWay f g neq i).net S.env (S.st i).signal := by
    intro S hi hq i
    cases hd : S.done i with
    | true => exact armed_clean (w := 0) (dead_armed (hi.dead i hd))
    | false =>
      rcases hq i with h | h
      · rw [hd] at h; cases h
      · exact armed_clean (hi.armed i hd h).1
  have key : ∀ (r : List (Fin 2 × Poll Unit)) (S1 : Sys (twoWay f g neq)), SysInv S1 → S1.Runs r S2 →
      ((S1.env 0).value = a ∧ Clean (twoWay f g neq 1).net S1.env (S1.st 1).signal ∧
        ¬ Clean (twoWay f g neq 0).net S1.env (S1.st 0).signal ∨
       (S1.env 1).value = f a ∧ ((S1.env 0).value = a ∨ (S1.env 0).value = g (f a))) →
      (S2.env 1).value = f a ∧ ((S2.env 0).value = a ∨ (S2.env 0).value = g (f a)) := by
    intro r
    induction r with
    | nil =>
      rintro S1 hi rfl (⟨-, -, hc⟩ | h)
      · exact absurd (rest hi hq2 0) hc
      · exact h
    | cons b r ih =>
      rintro S1 hi ⟨-, S3, h3, h4⟩ hk
      obtain ⟨i, d⟩ := b
      refine ih S3 (sysInv_step hi h3) h4 ?_
      rcases hk with ⟨k1, k2, k3⟩ | ⟨k1, k2⟩
      · match i with
        | 0 =>
          right
          rcases bind_values hi h3 with ⟨c, -⟩ | ⟨-, e0, e1⟩ | ⟨h, -⟩
          · exact absurd c k3
          · exact ⟨by rw [e1, k1], .inl (e0.trans k1)⟩
          · cases h
        | 1 =>
          left
          have P := task_post (hi.inv 1) hi.ok (hi.idle 1) h3.2.1
          refine ⟨(clean_poll (hi.inv 1) hi.ok k2 h3.2.1 0).trans k1, ?_, fun hc => k3 (poll_other hi (show (0 : Fin 2) ≠ 1 by decide) h3 hc)⟩
          match d with
          | .pending => exact armed_clean (P.pend rfl).1
          | .ready () => exact armed_clean (w := 0) (dead_armed (P.ended rfl))
      · right
        rcases bind_values hi h3 with ⟨-, e0, e1⟩ | ⟨-, e0, e1⟩ | ⟨-, e1, e0⟩
        · rw [e0, e1]; exact ⟨k1, k2⟩
        · rw [e0, e1]
          refine ⟨?_, k2⟩
          rcases k2 with k | k
          · rw [k]
          · rw [k, hf]
        · rw [e0, e1, k1]; exact ⟨rfl, .inr rfl⟩
  refine key r S1 hi1 hr (.inl ?_)
  obtain ⟨hfo, ⟨o, x, hx, -, h3⟩, h4, -⟩ := h1
  obtain ⟨R, hR⟩ := hi.ok 0
  refine ⟨?_, ?_, fun hc => ?_⟩
  · rw [h3, put_same, (hR.step hx).1.value]; rfl
  · have := rest hi hq 1
    rw [h4, h3]
    exact clean_reads (fun m hm => put_other _ _ (by have : m = 1 := hm; omega)) this
  · have ow := own_lt (m := 0) (i := (S.st 0).signal.2) (hi.inv 0) ⟨rfl, rfl⟩
    have hd := set_dirty hR hx ow.1 ow.2
    rw [h4, h3] at hc
    have hc : ((S.env.put 0 x 0).cell (S.st 0).signal.2).changed = false := hc
    rw [put_same, hd] at hc
    cases hc

/-! ## Examples -/

/-- Tens and units: `a` in units, `b` in tens. -/
theorem demoTens_start : ∃ S : Sys (twoWay (· / 10) (· * 10) (neq (α := Nat))), S.Start ∧
    ∀ m, (S.env m).handles = 2 := by
  obtain ⟨S, h1, -, h2⟩ := start_exists (twoWay (· / 10) (· * 10) (neq (α := Nat)))
    (W0 := fun _ => (Mut.World.new 0).clone) (fun m => ⟨0, [.clone], [.unit], rfl, by simp⟩) fun m => by
      show _ ≤ 2
      unfold holds
      exact Nat.le_trans List.countP_le_length (by simp)
  exact ⟨S, h1, h2⟩

/-- At rest `a` is set to 42: it comes to rest with 4 tens, and 40 or 42 units. -/
example : ∃ (S0 S S1 S2 : Sys (twoWay (· / 10) (· * 10) (neq (α := Nat)))) (h r : _), S0.Start ∧ S0.Steps h S ∧
    S.Quiet ∧ S.Step S1 (.env 0 (.set 42)) ∧ S1.Runs r S2 ∧ S2.Quiet ∧ r.length ≤ 6 ∧ (S2.env 1).value = 4 ∧
    ((S2.env 0).value = 42 ∨ (S2.env 0).value = 40) := by
  have l1 : ∀ a : Nat, a / 10 * 10 / 10 = a / 10 := fun a => by omega
  have l2 : ∀ a : Nat, a * 10 / 10 * 10 = a * 10 := fun a => by omega
  obtain ⟨S0, h0, hv⟩ := demoTens_start
  obtain ⟨-, r0, S, h1, h2⟩ := C89_settles l1 l2 h0 (h := []) (by intro m k w h; simp at h) rfl
  have hs := runs_steps h1
  have hi := sysInv_steps (sysInv_start h0) hs
  have hpos : 0 < (S.env 0).handles := by
    have e : (S0.env 0).handles = holds (twoWay (· / 10) (· * 10) (neq (α := Nat))) S0.done 0 + 1 := by
      have hd : S0.done = fun _ => false := funext fun i => (h0.2.1 i).2.2
      rw [hv, hd]; rfl
    rw [alone_runs (sysInv_start h0) h1 e]; omega
  obtain ⟨R, hR⟩ := hi.ok 0
  have hx : (S.env 0).step (.set 42) = some (.unit, (S.env 0).set 42) := if_neg (Nat.pos_iff_ne_zero.1 hpos)
  let S1 : Sys (twoWay (· / 10) (· * 10) (neq (α := Nat))) := ⟨S.env.put 0 ((S.env 0).set 42), S.st,
    fun j => S.ready j ∨ Woken S.env (S.env.put 0 ((S.env 0).set 42)) j, S.done⟩
  have hst : S.Step S1 (.env 0 (.set 42)) := by
    refine ⟨fun i => ⟨by simp, by simp⟩, ⟨_, _, hx, ?_, rfl⟩, rfl, rfl, fun j => Iff.rfl⟩
    rw [(hR.step hx).1.handles]
    show _ ≤ R.handles
    rw [← hR.handles]
    exact hi.handles 0
  have hs1 : S0.Steps ((r0.map fun a => .poll a.1 a.2) ++ [.env 0 (.set 42)]) S1 :=
    sys_steps_append.2 ⟨S, hs, S1, hst, rfl⟩
  obtain ⟨k1, r, S2, h3, h4⟩ := C89_settles l1 l2 h0 (by intro m k w h; simp at h) hs1
  have := C89_follows l1 h0 hs h2 hst h3 h4
  exact ⟨S0, S, S1, S2, _, r, h0, hs, h2, hst, h3, h4, k1 r S2 h3, this.1, this.2⟩

/-- With `set` instead, or with one task, there are starts too. -/
example : (∃ S : Sys (twoWay (fun x : Nat => x) id none), S.Start) ∧ ∃ S : Sys (selfLoop (· + 1)), S.Start := by
  constructor
  · obtain ⟨S, h1, -⟩ := start_exists (twoWay (fun x : Nat => x) id none)
      (W0 := fun _ => (Mut.World.new 0).clone) (fun m => ⟨0, [.clone], [.unit], rfl, by simp⟩) fun m => by
        show _ ≤ 2
        unfold holds
        exact Nat.le_trans List.countP_le_length (by simp)
    exact ⟨S, h1⟩
  · obtain ⟨S, h1, -⟩ := start_exists (selfLoop (· + 1))
      (W0 := fun _ => Mut.World.new 0) (fun m => ⟨0, [], [], rfl, by simp⟩) fun m => by
        show _ ≤ 1
        unfold holds
        exact Nat.le_trans List.countP_le_length (by simp)
    exact ⟨S, h1⟩

end Verif.Net
