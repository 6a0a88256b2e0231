import Verif.SwapConc

/-!
# C37: `Mutable::swap` and deadlocks
-/

namespace Verif.SwapConc

variable {α : Type}

/-- The claim of C37: however the calls were scheduled so far, they can all complete. -/
def AlwaysCompletes (vals : Nat → α) (progs : List (List (Nat × Nat))) : Prop :=
  ∀ es m, (World.init vals progs).runs es = some m → ∃ es' m', m.runs es' = some m' ∧ m'.done

theorem runs_runE {m m' : World α} {es : List Nat} (h : m.runs es = some m') :
    ∃ os, runE World.step m es = some (os, m') := by
  simp only [World.runs, Option.map_eq_some_iff] at h
  obtain ⟨⟨os, m1⟩, h, rfl⟩ := h
  exact ⟨os, h⟩

theorem runs_of_runE {m m' : World α} {es : List Nat} {os : List Unit}
    (h : runE World.step m es = some (os, m')) : m.runs es = some m' := by simp [World.runs, h]

theorem stuck_runs {m : World α} (h : ∀ t, m.step t = none) {es : List Nat} {m' : World α}
    (hr : m.runs es = some m') : m' = m := by
  cases es with
  | nil => cases hr; rfl
  | cons t es => simp [World.runs, runE, h t] at hr

/-- **C37 is false**: `m.swap(&m)` waits for the lock it has itself. -/
theorem C37_self_swap : ¬ AlwaysCompletes (fun _ => 0) [[(0, 0)]] := by
  intro h
  obtain ⟨es', m', hr, hd⟩ := h [0] _ rfl
  have := stuck_runs (fun t => by match t with | 0 => rfl | t + 1 => rfl) hr
  subst this
  have := (hd _ (.head _)).1
  cases this

/-- **C37 is false**: two threads that swap the same two `Mutable`s in opposite directions. -/
theorem C37_opposite_swaps : ¬ AlwaysCompletes (fun n => n) [[(0, 1)], [(1, 0)]] := by
  intro h
  obtain ⟨es', m', hr, hd⟩ := h [0, 1] _ rfl
  have := stuck_runs (fun t => by match t with | 0 => rfl | 1 => rfl | t + 2 => rfl) hr
  subst this
  have := (hd _ (.head _)).1
  cases this

/-- All calls go upwards in the given order of the `Mutable`s. -/
def Th.Ordered (r : Nat → Nat) (t : Th) : Prop :=
  (∀ p ∈ t.todo, r p.1 < r p.2) ∧
  (∀ i j, t.pc = .left i j → r i < r j) ∧ (∀ i j, t.pc = .both i j → r i < r j)

/-- What is left to do. -/
def Th.size (t : Th) : Nat :=
  3 * t.todo.length + match t.pc with | .idle => 0 | .left _ _ => 2 | .both _ _ => 1

def size (ths : List Th) : Nat := (ths.map Th.size).sum

theorem size_append (l1 l2 : List Th) : size (l1 ++ l2) = size l1 + size l2 := by simp [size]
theorem size_cons (t : Th) (l : List Th) : size (t :: l) = t.size + size l := by simp [size]

/-- The calls of a thread that have not completed. -/
def Th.left (t : Th) : List (Nat × Nat) :=
  (match t.pc with | .idle => [] | .left i j => [(i, j)] | .both i j => [(i, j)]) ++ t.todo

theorem step_cases {m m' : World α} {t : Nat} (hs : m.step t = some ((), m')) :
    ∃ l1 th l2 th', m.ths = l1 ++ th :: l2 ∧ m'.ths = l1 ++ th' :: l2 ∧ th'.size < th.size ∧
      (∀ r, th.Ordered r → th'.Ordered r) ∧
      ((m'.vals = m.vals ∧ m'.log = m.log ∧ th'.left = th.left) ∨
       ∃ i j, th.left = (i, j) :: th'.left ∧ m'.vals = swapVals m.vals i j ∧ m'.log = m.log ++ [(i, j)]) := by
  simp only [World.step] at hs
  split at hs
  · cases hs
  · cases hs
  · rename_i i j rest hc
    obtain ⟨l1, l2, hl, h1, -⟩ := split_idx hc
    split at hs <;> cases hs
    refine ⟨l1, _, l2, _, hl, h1 _, by simp [Th.size]; omega, fun r hr => ⟨?_, ?_, ?_⟩,
      .inl ⟨rfl, rfl, rfl⟩⟩
    · exact fun p hp => hr.1 p (List.mem_cons_of_mem _ hp)
    · rintro _ _ ⟨⟩; exact hr.1 (i, j) (.head _)
    · rintro _ _ ⟨⟩
  · rename_i i j rest hc
    obtain ⟨l1, l2, hl, h1, -⟩ := split_idx hc
    split at hs <;> cases hs
    refine ⟨l1, _, l2, _, hl, h1 _, by simp [Th.size], fun r hr => ⟨hr.1, ?_, ?_⟩, .inl ⟨rfl, rfl, rfl⟩⟩
    · rintro _ _ ⟨⟩
    · rintro _ _ ⟨⟩; exact hr.2.1 i j rfl
  · rename_i i j rest hc
    obtain ⟨l1, l2, hl, h1, -⟩ := split_idx hc
    cases hs
    refine ⟨l1, _, l2, _, hl, h1 _, by simp [Th.size], fun r hr => ⟨hr.1, ?_, ?_⟩,
      .inr ⟨i, j, rfl, rfl, rfl⟩⟩
    · rintro _ _ ⟨⟩
    · rintro _ _ ⟨⟩

theorem exists_max {γ : Type} (f : γ → Nat) : ∀ l : List γ, l ≠ [] → ∃ x ∈ l, ∀ y ∈ l, f y ≤ f x
  | [], h => absurd rfl h
  | [x], _ => ⟨x, .head _, fun y hy => by simp at hy; subst hy; exact Nat.le_refl _⟩
  | x :: y :: l, _ => by
    obtain ⟨z, hz, hm⟩ := exists_max f (y :: l) (by simp)
    by_cases h : f z ≤ f x
    · refine ⟨x, .head _, fun w hw => ?_⟩
      rcases List.mem_cons.1 hw with rfl | hw
      · exact Nat.le_refl _
      · have := hm w hw; omega
    · refine ⟨z, List.mem_cons_of_mem _ hz, fun w hw => ?_⟩
      rcases List.mem_cons.1 hw with rfl | hw
      · omega
      · exact hm w hw

/-- Some thread can make a step. -/
theorem progress {m : World α} {r : Nat → Nat} (ho : ∀ t ∈ m.ths, t.Ordered r) (hd : ¬ m.done) :
    ∃ t m', m.step t = some ((), m') := by
  by_cases hb : ∃ t ∈ m.ths, ∃ i j, t.pc = .both i j
  · obtain ⟨⟨pc, todo⟩, ht, i, j, rfl⟩ := hb
    obtain ⟨n, hn⟩ := List.mem_iff_getElem?.1 ht
    exact ⟨n, _, by simp only [World.step, hn]; rfl⟩
  · by_cases hl : ∃ t ∈ m.ths, ∃ i j, t.pc = .left i j
    · -- the thread that has the highest lock
      obtain ⟨t0, ht0, i0, j0, hp0⟩ := hl
      obtain ⟨th, hth, hmax⟩ := exists_max
        (fun t : Th => match t.pc with | .left i _ => r i + 1 | _ => 0) m.ths (List.ne_nil_of_mem ht0)
      have h0 := hmax t0 ht0
      rw [hp0] at h0
      obtain ⟨pc, todo⟩ := th
      cases pc with
      | idle => simp at h0
      | both i j => exact absurd ⟨_, hth, i, j, rfl⟩ hb
      | left i j =>
        obtain ⟨n, hn⟩ := List.mem_iff_getElem?.1 hth
        have hij := (ho _ hth).2.1 i j rfl
        have hnh : held m.ths j = false := by
          rw [held, List.any_eq_false]
          intro t ht hh
          obtain ⟨pc', todo'⟩ := t
          cases pc' with
          | idle => cases hh
          | both i' j' => exact hb ⟨_, ht, i', j', rfl⟩
          | left i' j' =>
            simp [Pc.holds] at hh
            subst hh
            have := hmax _ ht
            simp at this
            omega
        exact ⟨n, _, by simp only [World.step, hn, hnh]; rfl⟩
    · have hidle : ∀ t ∈ m.ths, t.pc = .idle := by
        intro t ht
        cases hp : t.pc with
        | idle => rfl
        | left i j => exact absurd ⟨t, ht, i, j, hp⟩ hl
        | both i j => exact absurd ⟨t, ht, i, j, hp⟩ hb
      have : ∃ t ∈ m.ths, t.todo ≠ [] := by
        apply Classical.byContradiction
        intro k
        apply hd
        intro t ht
        refine ⟨hidle t ht, Classical.byContradiction fun k' => k ⟨t, ht, k'⟩⟩
      obtain ⟨⟨pc, todo⟩, ht, htd⟩ := this
      cases (hidle _ ht)
      obtain ⟨n, hn⟩ := List.mem_iff_getElem?.1 ht
      cases todo with
      | nil => exact absurd rfl htd
      | cons p rest =>
        obtain ⟨i, j⟩ := p
        have hnh : held m.ths i = false := by
          rw [held, List.any_eq_false]
          intro t ht hh
          rw [hidle t ht] at hh
          cases hh
        exact ⟨n, _, by simp only [World.step, hn, hnh]; rfl⟩

theorem step_ordered {m m' : World α} {t : Nat} {r : Nat → Nat} (ho : ∀ t ∈ m.ths, t.Ordered r)
    (hs : m.step t = some ((), m')) : (∀ t ∈ m'.ths, t.Ordered r) ∧ size m'.ths < size m.ths := by
  obtain ⟨l1, th, l2, th', h1, h2, h3, h4, -⟩ := step_cases hs
  rw [h1] at ho
  rw [h1, h2]
  constructor
  · intro u hu
    simp only [List.mem_append, List.mem_cons] at hu ho
    rcases hu with hu | rfl | hu
    · exact ho u (.inl hu)
    · exact h4 r (ho th (.inr (.inl rfl)))
    · exact ho u (.inr (.inr hu))
  · simp only [size_append, size_cons]
    omega

theorem completes {r : Nat → Nat} : ∀ (n : Nat) (m : World α), size m.ths ≤ n →
    (∀ t ∈ m.ths, t.Ordered r) → ∃ es m', m.runs es = some m' ∧ m'.done := by
  intro n
  induction n with
  | zero =>
    intro m hn ho
    by_cases hd : m.done
    · exact ⟨[], m, rfl, hd⟩
    · obtain ⟨t, m1, hs⟩ := progress ho hd
      have := (step_ordered ho hs).2
      omega
  | succ n ih =>
    intro m hn ho
    by_cases hd : m.done
    · exact ⟨[], m, rfl, hd⟩
    · obtain ⟨t, m1, hs⟩ := progress ho hd
      obtain ⟨ho1, hlt⟩ := step_ordered ho hs
      obtain ⟨es, m', hr, hd'⟩ := ih m1 (by omega) ho1
      obtain ⟨os, hr⟩ := runs_runE hr
      exact ⟨t :: es, m', by simp [World.runs, runE, hs, hr], hd'⟩

theorem ordered_runs {vals : Nat → α} {progs : List (List (Nat × Nat))} {r : Nat → Nat}
    (h : ∀ p ∈ progs, ∀ s ∈ p, r s.1 < r s.2) {es : List Nat} {m : World α}
    (hr : (World.init vals progs).runs es = some m) : ∀ t ∈ m.ths, t.Ordered r := by
  obtain ⟨os, hr⟩ := runs_runE hr
  refine runE_inv (Inv := fun _ _ (m : World α) => ∀ t ∈ m.ths, t.Ordered r) ?_
    (fun _ _ _ _ _ _ ho hs => (step_ordered ho hs).1) hr
  intro t ht
  simp only [World.init, List.mem_map] at ht
  obtain ⟨p, hp, rfl⟩ := ht
  exact ⟨h p hp, fun i j k => (by cases k), fun i j k => (by cases k)⟩

/-- **C37 (partial).**  If the `Mutable`s can be ordered so that every call of `swap` goes upwards, then
no schedule of any number of threads gets stuck: while a call has not completed some thread can make a
step.  Missing: calls in both directions and of a `Mutable` with itself, for which this is false. -/
theorem C37_never_stuck_partial (vals : Nat → α) (progs : List (List (Nat × Nat))) (r : Nat → Nat)
    (h : ∀ p ∈ progs, ∀ s ∈ p, r s.1 < r s.2) (es : List Nat) (m : World α)
    (hr : (World.init vals progs).runs es = some m) (hd : ¬ m.done) : ∃ t, (m.step t).isSome := by
  obtain ⟨t, m', hs⟩ := progress (ordered_runs h hr) hd
  exact ⟨t, by rw [hs]; rfl⟩

/-- **C37 (partial).**  And all calls complete, after at most three steps for each. -/
theorem C37_completes_partial (vals : Nat → α) (progs : List (List (Nat × Nat))) (r : Nat → Nat)
    (h : ∀ p ∈ progs, ∀ s ∈ p, r s.1 < r s.2) : AlwaysCompletes vals progs := by
  intro es m hr
  exact completes _ m (Nat.le_refl _) (ordered_runs h hr)

theorem size_init (progs : List (List (Nat × Nat))) :
    size (progs.map fun p => ⟨.idle, p⟩) = 3 * progs.flatten.length := by
  induction progs with
  | nil => rfl
  | cons p ps ih =>
    rw [List.map_cons, size_cons, List.flatten_cons, List.length_append, ih]
    simp only [Th.size]
    omega

/-- No schedule is longer than three steps for each call, whatever the directions. -/
theorem C37_bounded (vals : Nat → α) (progs : List (List (Nat × Nat))) (es : List Nat) (m : World α)
    (hr : (World.init vals progs).runs es = some m) : es.length ≤ 3 * progs.flatten.length := by
  obtain ⟨os, hr⟩ := runs_runE hr
  have h0 : size (World.init vals progs).ths = 3 * progs.flatten.length := size_init progs
  have := runE_inv (Inv := fun es _ (m : World α) => es.length + size m.ths ≤ size (World.init vals progs).ths)
    (by simp) ?_ hr
  · omega
  · intro es os s e o s' hi hs
    obtain ⟨l1, th, l2, th', h1, h2, h3, -⟩ := step_cases hs
    rw [h1, size_append, size_cons] at hi
    rw [h2, size_append, size_cons, List.length_append, List.length_singleton]
    omega

/-- Specification: `v'` is `v` with the values at `s.1` and `s.2` exchanged. -/
def Exchanged (v : Nat → α) (s : Nat × Nat) (v' : Nat → α) : Prop :=
  v' s.1 = v s.2 ∧ v' s.2 = v s.1 ∧ ∀ k, k ≠ s.1 → k ≠ s.2 → v' k = v k

/-- Specification: the exchanges of `l`, one after the other, lead from `v` to `v'`. -/
inductive Exchanges : (Nat → α) → List (Nat × Nat) → (Nat → α) → Prop where
  | nil (v) : Exchanges v [] v
  | snoc {v l v' s v''} : Exchanges v l v' → Exchanged v' s v'' → Exchanges v (l ++ [s]) v''

theorem swapVals_exchanged (v : Nat → α) (i j : Nat) : Exchanged v (i, j) (swapVals v i j) := by
  refine ⟨by simp [swapVals], ?_, fun k h1 h2 => by simp_all [swapVals]⟩
  by_cases h : j = i <;> simp [swapVals, h]

/-- **C37.**  Swaps are atomic: in every schedule the values are those of the completed calls made one
after the other; and the completed calls, with those not completed, are the calls that were to be
made. -/
theorem C37_atomic (vals : Nat → α) (progs : List (List (Nat × Nat))) (es : List Nat) (m : World α)
    (hr : (World.init vals progs).runs es = some m) :
    Exchanges vals m.log m.vals ∧
      (m.log ++ (m.ths.map Th.left).flatten).Perm progs.flatten := by
  obtain ⟨os, hr⟩ := runs_runE hr
  refine runE_inv (Inv := fun _ _ (m : World α) =>
    Exchanges vals m.log m.vals ∧
      (m.log ++ (m.ths.map Th.left).flatten).Perm progs.flatten) ?_ ?_ hr
  · refine ⟨.nil _, ?_⟩
    have : (World.init vals progs).ths.map Th.left = progs := by
      simp only [World.init, List.map_map]
      rw [show Th.left ∘ (fun p => (⟨.idle, p⟩ : Th)) = id from rfl, List.map_id]
    rw [this]
    exact List.Perm.refl _
  · intro es os s e o s' ⟨hv, hp⟩ hs
    obtain ⟨l1, th, l2, th', h1, h2, -, -, h⟩ := step_cases hs
    rw [h1] at hp
    rw [h2]
    rcases h with ⟨g1, g2, g3⟩ | ⟨i, j, g1, g2, g3⟩
    · rw [g1, g2]
      refine ⟨hv, ?_⟩
      simpa [g3] using hp
    · rw [g2, g3]
      refine ⟨.snoc hv (swapVals_exchanged _ _ _), ?_⟩
      refine List.Perm.trans ?_ hp
      simp only [List.map_append, List.map_cons, List.flatten_append, List.flatten_cons, g1,
        List.append_assoc, List.cons_append]
      refine List.Perm.append_left _ ?_
      simp only [List.nil_append]
      exact List.perm_middle.symm

/-- When all have completed: all of them, one after the other, in some order. -/
theorem C37_done (vals : Nat → α) (progs : List (List (Nat × Nat))) (es : List Nat) (m : World α)
    (hr : (World.init vals progs).runs es = some m) (hd : m.done) :
    ∃ order : List (Nat × Nat), order.Perm progs.flatten ∧
      Exchanges vals order m.vals := by
  obtain ⟨h1, h2⟩ := C37_atomic vals progs es m hr
  refine ⟨m.log, ?_, h1⟩
  have : (m.ths.map Th.left).flatten = [] := by
    rw [List.flatten_eq_nil_iff]
    intro l hl
    obtain ⟨t, ht, rfl⟩ := List.mem_map.1 hl
    simp [Th.left, hd t ht]
  rwa [this, List.append_nil] at h2

/-- Three threads, all upwards; a schedule in which they wait for one another. -/
example : (∀ p ∈ [[(0, 1), (1, 2)], [(1, 2)], [(0, 2)]], ∀ s ∈ p, id s.1 < id s.2) ∧
    ∃ m, (World.init (fun n => n) [[(0, 1), (1, 2)], [(1, 2)], [(0, 2)]]).runs
      [0, 1, 1, 1, 0, 0, 2, 0, 2, 2, 0, 0] = some m ∧ m.done ∧
      m.log = [(1, 2), (0, 1), (0, 2), (1, 2)] ∧ [0, 1, 2].map m.vals = [1, 2, 0] := by
  refine ⟨by decide, _, rfl, ?_, rfl, rfl⟩
  show ∀ t ∈ [(⟨.idle, []⟩ : Th), ⟨.idle, []⟩, ⟨.idle, []⟩], t.pc = .idle ∧ t.todo = []
  simp

/-- The thread is between taking the lock of the `k`th `Mutable` and giving it back. -/
def Has (t : Th) (k : Nat) : Prop := (∃ j, t.pc = .left k j) ∨ (∃ j, t.pc = .both k j) ∨ ∃ i, t.pc = .both i k

theorem has_iff (t : Th) (k : Nat) : Has t k ↔ t.pc.holds k = true := by
  rcases t with ⟨pc, todo⟩
  cases pc with
  | idle => simp [Has, Pc.holds]
  | left i j => simp [Has, Pc.holds]
  | both i j => simp [Has, Pc.holds]

/-- **C37**, nobody else is inside: at no time do two threads have the lock of the same `Mutable`, and a thread that has
two locks has those of two `Mutable`s. -/
theorem C37_exclusive (vals : Nat → α) (progs : List (List (Nat × Nat))) (es : List Nat) (m : World α)
    (h : (World.init vals progs).runs es = some m) :
    (∀ (a b : Nat) (t u : Th) (k : Nat), a ≠ b → m.ths[a]? = some t → m.ths[b]? = some u → Has t k → ¬ Has u k) ∧
    ∀ t ∈ m.ths, ∀ i j, t.pc = .both i j → i ≠ j := by
  obtain ⟨os, hr⟩ := runs_runE h
  refine runE_inv (Inv := fun (_ : List Nat) (_ : List Unit) (m : World α) =>
    (∀ (a b : Nat) (t u : Th) (k : Nat), a ≠ b → m.ths[a]? = some t → m.ths[b]? = some u → Has t k → ¬ Has u k) ∧
    ∀ t ∈ m.ths, ∀ i j, t.pc = .both i j → i ≠ j) ?_ ?_ hr
  · constructor
    · intro a b t u k _ ha _ hk
      simp only [World.init, List.getElem?_map, Option.map_eq_some_iff] at ha
      obtain ⟨p, -, rfl⟩ := ha
      simp [Has] at hk
    · intro t ht i j hp
      simp only [World.init, List.mem_map] at ht
      obtain ⟨p, -, rfl⟩ := ht
      cases hp
  · intro es os m c o m' ⟨h1, h2⟩ hs
    have free : ∀ k, held m.ths k = false → ∀ (a : Nat) (t : Th), m.ths[a]? = some t → ¬ Has t k := by
      intro k hk a t ha hh
      simp only [held, List.any_eq_false] at hk
      exact hk t (List.mem_of_getElem? ha) ((has_iff t k).1 hh)
    have put : ∀ (t0 t1 : Th), m.ths[c]? = some t0 →
        (∀ k, Has t1 k → Has t0 k ∨ held m.ths k = false) → (∀ i j, t1.pc = .both i j → i ≠ j) →
        (∀ (a b : Nat) (t u : Th) (k : Nat), a ≠ b → (m.ths.set c t1)[a]? = some t → (m.ths.set c t1)[b]? = some u →
          Has t k → ¬ Has u k) ∧ ∀ t ∈ m.ths.set c t1, ∀ i j, t.pc = .both i j → i ≠ j := by
      intro t0 t1 h0 hk hb
      have hc := (List.getElem?_eq_some_iff.1 h0).1
      constructor
      · intro a b t u k hab ha hb' ht hu
        by_cases hac : c = a
        · subst hac
          rw [List.getElem?_set_self hc] at ha
          rw [List.getElem?_set_ne hab] at hb'
          cases ha
          rcases hk k ht with h | h
          · exact h1 _ _ _ _ k hab h0 hb' h hu
          · exact free k h b u hb' hu
        · rw [List.getElem?_set_ne hac] at ha
          by_cases hbc : c = b
          · subst hbc
            rw [List.getElem?_set_self hc] at hb'
            cases hb'
            rcases hk k hu with h | h
            · exact h1 _ _ _ _ k hab ha h0 ht h
            · exact free k h a t ha ht
          · rw [List.getElem?_set_ne hbc] at hb'
            exact h1 a b t u k hab ha hb' ht hu
      · intro t ht
        rcases List.mem_or_eq_of_mem_set ht with h | rfl
        · exact h2 t h
        · exact hb
    unfold World.step at hs
    split at hs
    · cases hs
    · cases hs
    · rename_i i j rest h0
      split at hs
      · cases hs
      · rename_i hf
        cases hs
        refine put _ _ h0 (fun k hk => .inr ?_) (fun i j hp => by cases hp)
        rcases hk with ⟨_, hk⟩ | ⟨_, hk⟩ | ⟨_, hk⟩ <;> cases hk
        simpa using hf
    · rename_i i j rest h0
      split at hs
      · cases hs
      · rename_i hf
        cases hs
        refine put _ _ h0 (fun k hk => ?_) (fun i' j' hp => ?_)
        · rcases hk with ⟨_, hk⟩ | ⟨_, hk⟩ | ⟨_, hk⟩ <;> cases hk
          · exact .inl (.inl ⟨_, rfl⟩)
          · exact .inr (by simpa using hf)
        · cases hp
          rintro rfl
          exact free _ (by simpa using hf) c _ h0 (.inl ⟨_, rfl⟩)
    · rename_i i j rest h0
      cases hs
      refine put _ _ h0 (fun k hk => ?_) (fun i' j' hp => by cases hp)
      rcases hk with ⟨_, hk⟩ | ⟨_, hk⟩ | ⟨_, hk⟩ <;> cases hk

/-- A thread has two locks while two others wait: one of them for its first, the other for its second. -/
example : ∃ m, (World.init (fun n => n) [[(0, 1), (1, 2)], [(1, 2)], [(0, 2)]]).runs [0, 0] = some m ∧
    m.ths.map (·.pc) = [.both 0 1, .idle, .idle] ∧ m.step 1 = none ∧ m.step 2 = none :=
  ⟨_, rfl, rfl, rfl, rfl⟩

end Verif.SwapConc
