import Verif.Locks

/-!
# Property C78: no deadlock

The specification is in `Verif/Locks.lean`: which steps threads can do (`Reach`, `enabled`), and which
steps the functions of the crate consist of (`Does`).
-/

namespace Verif.Locks

variable {L : Type} [DecidableEq L]

/-! ## Locks taken in ascending order -/

/-- The steps take locks in ascending order and give back what they take. -/
def Ok (rank : L → Int) : List (L × Mode) → List (Act L) → Prop
  | held, [] => held = []
  | held, .acq l m :: r => (∀ h ∈ held, rank h.1 < rank l) ∧ Ok rank ((l, m) :: held) r
  | held, .rel l :: r => (∃ m, (l, m) ∈ held) ∧ Ok rank (held.eraseP (fun h => h.1 == l)) r

theorem Ok.step {rank : L → Int} {t : Thread L} (h : Ok rank t.held t.todo) :
    Ok rank t.step.held t.step.todo := by
  unfold Thread.step
  split
  · exact h
  · rename_i l m r hr
    rw [hr] at h
    exact h.2
  · rename_i l r hr
    rw [hr] at h
    exact h.2

theorem reach_ok {rank : L → Int} {ts us : List (Thread L)} {n : Nat} (h : Reach ts n us)
    (h0 : ∀ t ∈ ts, Ok rank t.held t.todo) : ∀ t ∈ us, Ok rank t.held t.todo := by
  induction h with
  | start => exact h0
  | step hr hi _ ih =>
    intro u hu
    rcases List.mem_or_eq_of_mem_set hu with hu | rfl
    · exact ih u hu
    · exact (ih _ (List.mem_of_getElem? hi)).step

/-- The greatest element of a list. -/
theorem exists_max {β : Type} (f : β → Int) (l : List β) (h : l ≠ []) : ∃ x ∈ l, ∀ y ∈ l, f y ≤ f x := by
  induction l with
  | nil => exact absurd rfl h
  | cons a l ih =>
    cases l with
    | nil => exact ⟨a, by simp, by simp⟩
    | cons b l =>
      obtain ⟨x, hx, hm⟩ := ih (by simp)
      by_cases hax : f x ≤ f a
      · refine ⟨a, by simp, fun y hy => ?_⟩
        rcases List.mem_cons.1 hy with rfl | hy
        · exact Int.le_refl _
        · exact Int.le_trans (hm y hy) hax
      · refine ⟨x, List.mem_cons_of_mem _ hx, fun y hy => ?_⟩
        rcases List.mem_cons.1 hy with rfl | hy
        · omega
        · exact hm y hy

/-- The rank of the lock that a thread is about to take. -/
def next (rank : L → Int) (t : Thread L) : Int :=
  match t.todo with
  | .acq l _ :: _ => rank l
  | _ => 0

theorem progress {rank : L → Int} {ts : List (Thread L)} (h : ∀ t ∈ ts, Ok rank t.held t.todo) :
    (∀ t ∈ ts, t.todo = [] ∧ t.held = []) ∨ ∃ t ∈ ts, surelyEnabled ts t := by
  by_cases hf : ∀ t ∈ ts, t.todo = []
  · refine .inl fun t ht => ⟨hf t ht, ?_⟩
    have := h t ht
    rw [hf t ht] at this
    exact this
  refine .inr ?_
  refine Classical.byContradiction fun hno => ?_
  have hno : ∀ t ∈ ts, ¬surelyEnabled ts t := fun t ht hs => hno ⟨t, ht, hs⟩
  -- whoever is not finished waits for a lock that somebody holds
  have wait : ∀ t ∈ ts, t.todo ≠ [] → ∃ l m r, t.todo = .acq l m :: r ∧
      ∃ u ∈ ts, ∃ m', (l, m') ∈ u.held := by
    intro t ht hne
    cases htd : t.todo with
    | nil => exact absurd htd hne
    | cons a r =>
      cases a with
      | rel l =>
        refine absurd ⟨?_, ?_⟩ (hno t ht)
        · simp [enabled, htd]
        · intro l r h; rw [htd] at h; cases h
      | acq l m =>
        refine ⟨l, m, r, rfl, ?_⟩
        refine Classical.byContradiction fun hfree => ?_
        have hfree : ∀ u ∈ ts, ∀ m', (l, m') ∉ u.held := fun u hu m' hm => hfree ⟨u, hu, m', hm⟩
        have hnb : ∀ m, ¬busy ts l m := by
          intro m hb
          cases m with
          | read => obtain ⟨u, hu, hm⟩ := hb; exact hfree u hu _ hm
          | write => obtain ⟨u, hu, m', hm⟩ := hb; exact hfree u hu _ hm
        have he : enabled ts t := by simp only [enabled, htd]; exact hnb m
        refine hno t ht ⟨he, fun l' r' hl' u hu r'' hu' => ?_⟩
        rw [htd] at hl'
        cases hl'
        refine hno u hu ⟨by simp only [enabled, hu']; exact hnb .write, ?_⟩
        intro l' r' h
        rw [hu'] at h
        cases h
  -- the one that waits for the greatest lock
  let ws := ts.filter (fun t => !t.todo.isEmpty)
  have hws : ∀ t, t ∈ ws ↔ t ∈ ts ∧ t.todo ≠ [] := by
    intro t; simp [ws, List.mem_filter]
  have hwne : ws ≠ [] := by
    intro he
    apply hf
    intro t ht
    refine Classical.byContradiction fun hn => ?_
    have := (hws t).2 ⟨ht, hn⟩
    rw [he] at this
    exact absurd this List.not_mem_nil
  obtain ⟨t, ht, hmax⟩ := exists_max (next rank) ws hwne
  obtain ⟨ht, htn⟩ := (hws t).1 ht
  obtain ⟨l, m, r, htd, u, hu, m', hm⟩ := wait t ht htn
  have hun : u.todo ≠ [] := by
    intro he
    have := h u hu
    rw [he] at this
    simp only [Ok] at this
    rw [this] at hm
    exact absurd hm List.not_mem_nil
  obtain ⟨l2, m2, r2, hud, -⟩ := wait u hu hun
  have h1 := hmax u ((hws u).2 ⟨hu, hun⟩)
  have h2 := h u hu
  rw [hud] at h2
  have h3 : rank l < rank l2 := h2.1 _ hm
  simp only [next, htd, hud] at h1
  omega

/-! ## Steps left -/

/-- The steps that all threads together still have to do. -/
def stepsLeft (ts : List (Thread L)) : Nat := (ts.map fun t => t.todo.length).sum

theorem stepsLeft_set {ts : List (Thread L)} {i : Nat} {t : Thread L} (hi : ts[i]? = some t)
    (he : t.todo ≠ []) : stepsLeft (ts.set i t.step) + 1 = stepsLeft ts := by
  induction ts generalizing i with
  | nil => cases hi
  | cons a ts ih =>
    cases i with
    | zero =>
      obtain rfl : a = t := by simpa using hi
      simp only [List.set_cons_zero, stepsLeft, List.map_cons, List.sum_cons]
      have : a.step.todo.length + 1 = a.todo.length := by
        unfold Thread.step
        split
        · rename_i h; exact absurd h he
        · rename_i h; simp [h]
        · rename_i h; simp [h]
      omega
    | succ i =>
      simp only [List.getElem?_cons_succ] at hi
      have := ih hi
      simp only [List.set_cons_succ, stepsLeft, List.map_cons, List.sum_cons] at this ⊢
      omega

theorem enabled_ne {ts : List (Thread L)} {t : Thread L} (h : enabled ts t) : t.todo ≠ [] := by
  intro he
  simp [enabled, he] at h

theorem reach_steps {ts us : List (Thread L)} {n : Nat} (h : Reach ts n us) :
    n + stepsLeft us = stepsLeft ts := by
  induction h with
  | start => simp
  | step _ hi he ih => have := stepsLeft_set hi (enabled_ne he); omega

theorem finish {rank : L → Int} {ts us : List (Thread L)} {n : Nat} (h : Reach ts n us)
    (h0 : ∀ t ∈ ts, Ok rank t.held t.todo) :
    ∃ us', Reach ts (stepsLeft ts) us' ∧ ∀ t ∈ us', t.todo = [] ∧ t.held = [] := by
  generalize hk : stepsLeft us = k
  induction k generalizing n us with
  | zero =>
    have h1 := reach_steps h
    have : n = stepsLeft ts := by omega
    subst this
    rcases progress (reach_ok h h0) with hf | ⟨t, ht, he⟩
    · exact ⟨us, h, hf⟩
    · obtain ⟨i, hi, rfl⟩ := List.getElem_of_mem ht
      have := stepsLeft_set (List.getElem?_eq_getElem hi) (enabled_ne he.1)
      omega
  | succ k ih =>
    rcases progress (reach_ok h h0) with hf | ⟨t, ht, he⟩
    · have : stepsLeft us = 0 := by
        unfold stepsLeft
        have : ∀ (us : List (Thread L)), (∀ t ∈ us, t.todo = [] ∧ t.held = []) →
            (us.map fun t => t.todo.length).sum = 0 := by
          intro us
          induction us with
          | nil => intro _; rfl
          | cons a us ih =>
            intro h
            simp only [List.map_cons, List.sum_cons]
            rw [ih (fun t ht => h t (List.mem_cons_of_mem _ ht)), (h a (by simp)).1]
            rfl
        exact this us hf
      omega
    · obtain ⟨i, hi, rfl⟩ := List.getElem_of_mem ht
      have hi' := List.getElem?_eq_getElem hi
      refine ih (h.step hi' he.1) ?_
      have := stepsLeft_set hi' (enabled_ne he.1)
      omega

/-! ## The order of the locks of the crate -/

/-- Polls go from `Broadcaster`s to what they are made from, and wakes back. -/
def rank : Lock → Int
  | .value i => -(i : Int) - 1
  | .future _ => 0
  | .wakers b => 2 * (b : Int) + 1
  | .signal i _ => 2 * (i : Int) + 2

/-- The steps are fine after any steps that end with only locks below `r`. -/
def Seg (r : Int) (p : List (Act Lock)) : Prop :=
  ∀ held, (∀ h ∈ held, rank h.1 < r) → ∀ rest, Ok rank held rest → Ok rank held (p ++ rest)

theorem Seg.nil (r : Int) : Seg r [] := fun _ _ _ h => h

theorem Seg.append {r : Int} {p q : List (Act Lock)} (hp : Seg r p) (hq : Seg r q) : Seg r (p ++ q) :=
  fun held hh rest hr => by
    rw [List.append_assoc]
    exact hp held hh _ (hq held hh rest hr)

theorem Seg.mono {r r' : Int} {p : List (Act Lock)} (hp : Seg r p) (h : r' ≤ r) : Seg r' p :=
  fun held hh rest hr => hp held (fun x hx => Int.lt_of_lt_of_le (hh x hx) h) rest hr

theorem Seg.guarded {r : Int} {l : Lock} {m : Mode} {p : List (Act Lock)} (hl : r ≤ rank l)
    (hp : Seg (rank l + 1) p) : Seg r (guarded l m p) := by
  intro held hh rest hr
  simp only [Locks.guarded, List.cons_append, List.append_assoc, List.nil_append]
  refine ⟨fun h hm => by have := hh h hm; omega, ?_⟩
  refine hp _ ?_ _ ?_
  · intro h hm
    rcases List.mem_cons.1 hm with rfl | hm
    · show rank l < _; omega
    · have := hh h hm; omega
  · refine ⟨⟨m, by simp⟩, ?_⟩
    simpa using hr

/-- The least lock that a piece of code takes. -/
def Piece.low : Piece → Int
  | .code n => -(n : Int)
  | .wakes i => 2 * (i : Int) + 2
  | .notify b => 2 * (b : Int) + 1
  | .answer b => -(b : Int)

theorem does_seg {kind : Nat → Kind} {c : Piece} {p : List (Act Lock)} (h : Does kind c p) :
    Seg c.low p := by
  induction h with
  | nothing => exact Seg.nil _
  | seq _ _ h1 h2 => exact h1.append h2
  | more hn _ ih => exact ih.mono (by simp only [Piece.low]; omega)
  | read _ _ ih =>
    exact Seg.guarded (by simp only [Piece.low, rank]; omega)
      (ih.mono (by simp only [Piece.low, rank]; omega))
  | subscribe _ => exact Seg.guarded (by simp only [Piece.low, rank]; omega) (Seg.nil _)
  | park _ => exact Seg.guarded (by simp only [Piece.low, rank]; omega) (Seg.nil _)
  | write _ _ _ h1 h2 =>
    exact Seg.guarded (by simp only [Piece.low, rank]; omega)
      ((h1.mono (by simp only [Piece.low, rank]; omega)).append
        (h2.mono (by simp only [Piece.low, rank]; omega)))
  | swap _ _ hj _ _ h1 h2 =>
    exact Seg.guarded (by simp only [Piece.low, rank]; omega)
      (Seg.guarded (by simp only [rank]; omega)
        ((h1.mono (by simp only [Piece.low, rank]; omega)).append
          (h2.mono (by simp only [Piece.low, rank]; omega))))
  | change _ _ ih =>
    exact Seg.guarded (by simp only [Piece.low, rank]; omega)
      (ih.mono (by simp only [Piece.low, rank]; omega))
  | call _ _ ih => exact ih.mono (by simp only [Piece.low]; omega)
  | join _ => exact Seg.guarded (by simp only [Piece.low, rank]; omega) (Seg.nil _)
  | pollInput _ _ _ h1 h2 =>
    exact Seg.guarded (by simp only [Piece.low, rank]; omega)
      ((h1.mono (by simp only [Piece.low, rank]; omega)).append
        (h2.mono (by simp only [Piece.low, rank]; omega)))
  | pollValue _ _ ih =>
    exact Seg.guarded (by simp only [Piece.low, rank]; omega)
      (ih.mono (by simp only [Piece.low, rank]; omega))
  | parkSub => exact Seg.guarded (by simp only [Piece.low, rank]; omega) (Seg.nil _)
  | callback _ ih => exact ih
  | notify _ ih =>
    exact Seg.guarded (by simp only [Piece.low, rank]; omega)
      (ih.mono (by simp only [Piece.low, rank]; omega))
  | done => exact Seg.nil _
  | wakeTask _ ih =>
    exact (Seg.guarded (by simp only [Piece.low, rank]; omega) (Seg.nil _)).append ih
  | wakeSub hb _ _ _ h1 h2 =>
    exact ((Seg.guarded (by simp only [Piece.low, rank]; omega) (Seg.nil _)).append
      (h1.mono (by simp only [Piece.low]; omega))).append h2
  | discard _ => exact Seg.guarded (by simp only [Piece.low, rank]; omega) (Seg.nil _)
  | pollFuture _ _ ih =>
    exact (ih.mono (by simp only [Piece.low]; omega)).append
      (Seg.guarded (by simp only [Piece.low, rank]; omega) (Seg.nil _))

theorem start_ok {kind : Nat → Kind} {ps : List (List (Act Lock))}
    (h : ∀ p ∈ ps, ∃ n, Does kind (.code n) p) : ∀ t ∈ start ps, Ok rank t.held t.todo := by
  intro t ht
  obtain ⟨p, hp, rfl⟩ := List.mem_map.1 ht
  obtain ⟨n, hn⟩ := h p hp
  have := does_seg hn [] (fun h hm => absurd hm List.not_mem_nil) [] rfl
  rwa [List.append_nil] at this

/-! ## Waiting for oneself -/

/-- Two guards of the same lock that cannot live at once. -/
def Mode.conflicts : Mode → Mode → Bool
  | .read, .read => false
  | _, _ => true

theorem busy_of_held {ts : List (Thread L)} {t : Thread L} {l : L} {m m' : Mode} (ht : t ∈ ts)
    (h : (l, m) ∈ t.held) (hc : m.conflicts m' = true) : busy ts l m' := by
  cases m' with
  | write => exact ⟨t, ht, m, h⟩
  | read =>
    cases m with
    | read => cases hc
    | write => exact ⟨t, ht, h⟩

/-- Either the first guard is not yet taken, or it is held and the thread comes to the second. -/
def Trap (l : L) (m m' : Mode) (q r : List (Act L)) (t : Thread L) : Prop :=
  (∃ p, t.todo = p ++ .acq l m :: (q ++ .acq l m' :: r)) ∨
  ((l, m) ∈ t.held ∧ ∃ q', (∀ a ∈ q', a ≠ .rel l) ∧ t.todo = q' ++ .acq l m' :: r)

theorem Trap.step {l : L} {m m' : Mode} {q r : List (Act L)} {t : Thread L} {ts : List (Thread L)}
    (h : Trap l m m' q r t) (hc : m.conflicts m' = true) (hq : ∀ a ∈ q, a ≠ .rel l) (ht : t ∈ ts)
    (he : enabled ts t) : Trap l m m' q r t.step := by
  rcases h with ⟨p, hp⟩ | ⟨hh, q', hq', htd⟩
  · cases p with
    | nil =>
      right
      rw [List.nil_append] at hp
      simp only [Thread.step, hp]
      exact ⟨by simp, q, hq, rfl⟩
    | cons a p =>
      left
      refine ⟨p, ?_⟩
      simp only [Thread.step, hp]
      cases a <;> rfl
  · cases q' with
    | nil =>
      exfalso
      rw [List.nil_append] at htd
      simp only [enabled, htd] at he
      exact he (busy_of_held ht hh hc)
    | cons a q' =>
      right
      rw [List.cons_append] at htd
      cases a with
      | acq l2 m2 =>
        simp only [Thread.step, htd]
        exact ⟨List.mem_cons_of_mem _ hh, q', fun a ha => hq' a (List.mem_cons_of_mem _ ha), rfl⟩
      | rel l2 =>
        have hne : l2 ≠ l := fun he => hq' (.rel l2) (by simp) (by rw [he])
        simp only [Thread.step, htd]
        refine ⟨?_, q', fun a ha => hq' a (List.mem_cons_of_mem _ ha), rfl⟩
        rw [List.mem_eraseP_of_neg]
        · exact hh
        · simp [hne.symm]

/-! ## The property -/

/-- **C78.**  Any number of threads run any code in which closures, `Clone`, `PartialEq`, `Drop` and
`Broadcaster` inputs use only objects with smaller numbers than the one whose lock is held, swaps go
one way, and task wakers use no object at all (`Does`).  At every moment of every run all threads are
finished, or one of them can go on, even if the `RwLock`s let no reader pass a waiting writer. -/
theorem C78_no_deadlock (kind : Nat → Kind) (ps : List (List (Act Lock)))
    (h : ∀ p ∈ ps, ∃ n, Does kind (.code n) p) (n : Nat) (us : List (Thread Lock))
    (hr : Reach (start ps) n us) :
    (∀ t ∈ us, t.todo = [] ∧ t.held = []) ∨ ∃ t ∈ us, surelyEnabled us t :=
  progress (reach_ok hr (start_ok h))

/-- **C78.**  So every run, however the threads are scheduled, can be continued until all threads are
finished and all guards dropped, and it is then as long as the programs together. -/
theorem C78_finishes (kind : Nat → Kind) (ps : List (List (Act Lock)))
    (h : ∀ p ∈ ps, ∃ n, Does kind (.code n) p) (n : Nat) (us : List (Thread Lock))
    (hr : Reach (start ps) n us) :
    n ≤ (ps.map List.length).sum ∧
    ∃ us', Reach us ((ps.map List.length).sum - n) us' ∧ ∀ t ∈ us', t.todo = [] ∧ t.held = [] := by
  have hl : stepsLeft (start ps) = (ps.map List.length).sum := by
    simp only [stepsLeft, start, List.map_map]
    rfl
  have h1 := reach_steps hr
  have h2 : stepsLeft us = (ps.map List.length).sum - n := by omega
  obtain ⟨us', hu, hf⟩ := finish Reach.start (reach_ok hr (start_ok h))
  rw [h2] at hu
  exact ⟨by omega, us', hu, hf⟩

/-- **C78 (why closures and wakers must not use the object itself).**  A thread that takes a lock
again while it has a guard of it, one of the two for writing, never gets past that point, whatever the
other threads do. -/
theorem C78_reentrant (ts : List (Thread L)) (i : Nat) (l : L) (m m' : Mode) (p q r : List (Act L))
    (held : List (L × Mode))
    (hi : ts[i]? = some ⟨held, p ++ .acq l m :: (q ++ .acq l m' :: r)⟩)
    (hc : ¬(m = .read ∧ m' = .read)) (hq : ∀ a ∈ q, a ≠ .rel l) (n : Nat) (us : List (Thread L))
    (hr : Reach ts n us) : ∃ t, us[i]? = some t ∧ r.length < t.todo.length := by
  have hc' : m.conflicts m' = true := by
    cases m <;> cases m' <;> first | rfl | exact absurd ⟨rfl, rfl⟩ hc
  have key : ∃ t, us[i]? = some t ∧ Trap l m m' q r t := by
    induction hr with
    | start => exact ⟨_, hi, .inl ⟨p, rfl⟩⟩
    | @step n us j u hr hj he ih =>
      obtain ⟨t, ht, htr⟩ := ih
      by_cases hji : j = i
      · subst hji
        obtain rfl : t = u := by rw [ht] at hj; exact Option.some.inj hj
        have hlt := (List.getElem?_eq_some_iff.1 ht).1
        exact ⟨t.step, by rw [List.getElem?_set_self hlt],
          htr.step hc' hq (List.mem_of_getElem? ht) he⟩
      · exact ⟨t, by rw [List.getElem?_set_ne hji]; exact ht, htr⟩
  obtain ⟨t, ht, h⟩ := key
  refine ⟨t, ht, ?_⟩
  rcases h with ⟨p, h⟩ | ⟨-, q', -, h⟩ <;> rw [h] <;> simp only [List.length_append, List.length_cons] <;>
    omega

/-- What runs under the lock of `i` takes that lock again. -/
def Uses (l : Lock) (m : Mode) (p : List (Act Lock)) : Prop :=
  ∃ p1 p2 m', p = p1 ++ .acq l m' :: p2 ∧ (∀ a ∈ p1, a ≠ .rel l) ∧ ¬(m = .read ∧ m' = .read)

/-- **C78 (the other side).**  If the code that runs under a lock uses that lock again, for instance
* a waker that at once polls the signal it is called for (`set` holds the lock while it wakes, and the
  poll reads), or that calls `get` or `set`,
* a `signal_ref` closure that calls `set`,
* the `Drop` of a value replaced by `set` that calls `get`,
then the thread never finishes, whatever comes before and after and whatever other threads do. -/
theorem C78_itself (l : Lock) (m : Mode) (a p b : List (Act Lock)) (h : Uses l m p)
    (ps ps' : List (List (Act Lock))) (n : Nat) (us : List (Thread Lock))
    (hr : Reach (start (ps ++ (a ++ guarded l m p ++ b) :: ps')) n us) :
    ∃ t, us[ps.length]? = some t ∧ t.todo ≠ [] := by
  obtain ⟨p1, p2, m', rfl, h1, h2⟩ := h
  obtain ⟨t, ht, hl⟩ := C78_reentrant _ ps.length l m m' a p1 (p2 ++ [.rel l] ++ b) [] (by
    simp [start, guarded]) h2 h1 n us hr
  exact ⟨t, ht, fun he => by rw [he] at hl; exact absurd hl (Nat.not_lt_zero _)⟩

/-- Polling a signal of the `Mutable` `i` in the waker that `set` calls for it. -/
example (i k : Nat) : Uses (.value i) .write
    (guarded (.signal i k) .write [] ++ guarded (.value i) .read []) :=
  ⟨guarded (.signal i k) .write [], [.rel (.value i)], .read, rfl, by simp [guarded], by simp⟩

/-- `m.set(…)` in the closure of `m.signal_ref(…)`. -/
example (i : Nat) : Uses (.value i) .read (guarded (.value i) .write []) :=
  ⟨[], [.rel (.value i)], .write, rfl, by simp, by simp⟩

/-- **C78 (the other side).**  No two closures may each use the `Mutable` of the other: thread 0 does
`a.replace_with(|_| b.get())` and thread 1 `b.replace_with(|_| a.get())`, and none can go on. -/
theorem C78_crossed (i j : Nat) (hij : i ≠ j) : ∃ us,
    Reach (start [guarded (.value i) .write (guarded (.value j) .read []),
      guarded (.value j) .write (guarded (.value i) .read [])]) 2 us ∧
    ∀ t ∈ us, t.todo ≠ [] ∧ ¬enabled us t := by
  refine ⟨_, .step (i := 1) (.step (i := 0) .start rfl ?_) rfl ?_, ?_⟩
  · simp [enabled, guarded, busy, start]
  · simp [enabled, guarded, busy, start, Thread.step, hij.symm]
  · simp [enabled, guarded, busy, start, Thread.step]

/-- **C78 (the other side).**  Two swaps in opposite directions (see also C37). -/
theorem C78_swaps (i j : Nat) (hij : i ≠ j) : ∃ us,
    Reach (start [guarded (.value i) .write (guarded (.value j) .write []),
      guarded (.value j) .write (guarded (.value i) .write [])]) 2 us ∧
    ∀ t ∈ us, t.todo ≠ [] ∧ ¬enabled us t := by
  refine ⟨_, .step (i := 1) (.step (i := 0) .start rfl ?_) rfl ?_, ?_⟩
  · simp [enabled, guarded, busy, start]
  · simp [enabled, guarded, busy, start, Thread.step, hij.symm]
  · simp [enabled, guarded, busy, start, Thread.step]

/-- **C78 (the other side).**  Even reading inside reading (`get` in the closure of `signal_ref`, or
while a `lock_ref` guard lives) may never end: if another thread writes, then with a `RwLock` that
prefers writers none can go on. -/
theorem C78_read_read (i : Nat) : ∃ us,
    Reach (start [guarded (.value i) .read (guarded (.value i) .read []),
      guarded (.value i) .write []]) 1 us ∧
    ∀ t ∈ us, t.todo ≠ [] ∧ ¬surelyEnabled us t := by
  refine ⟨_, .step (i := 0) .start rfl ?_, ?_⟩
  · simp [enabled, guarded, busy, start]
  · intro t ht
    simp only [start, guarded, List.map_cons, List.map_nil, List.set_cons_zero, Thread.step,
      List.mem_cons, List.not_mem_nil, or_false] at ht
    rcases ht with rfl | rfl
    · refine ⟨by simp, fun h => ?_⟩
      exact h.2 _ _ rfl ⟨[], guarded (.value i) .write []⟩ (by simp [start]) _ rfl
    · refine ⟨by simp, fun h => h.1 ?_⟩
      exact ⟨_, List.mem_cons_self, .read, List.mem_cons_self⟩

/-! ## A case -/

/-- Two `Mutable`s 0 and 1, a `Broadcaster` 2 of a signal made from both, a `Broadcaster` 3 of that one,
and a `MutableVec` 4. -/
def demoKinds : Nat → Kind
  | 2 => .broadcaster
  | 3 => .broadcaster
  | 4 => .container
  | _ => .mutable

/-- `m0.set(…)`: the signal that `Broadcaster` 2 reads is woken, and so are its two subscribers, the
second of which is the input of `Broadcaster` 3. -/
def demoSet : List (Act Lock) :=
  guarded (.value 0) .write ([] ++ (guarded (.signal 0 0) .write [] ++
    guarded (.wakers 2) .write (guarded (.signal 2 0) .write [] ++ (guarded (.signal 2 1) .write [] ++
      guarded (.wakers 3) .write (guarded (.signal 3 0) .write [] ++ []) ++ [])) ++ []))

/-- Polling a subscriber of `Broadcaster` 3, with everything due: both `Mutable`s are read; the
callback of the subscriber of 2 that is the input of 3 writes to `m1`, which wakes `Broadcaster` 2. -/
def demoPoll : List (Act Lock) :=
  guarded (.value 3) .write (guarded (.value 2) .write
      ((guarded (.value 0) .read [] ++ guarded (.value 1) .read []) ++
        guarded (.value 1) .write ([] ++ (guarded (.signal 1 0) .write [] ++
          guarded (.wakers 2) .write (guarded (.signal 2 0) .write [] ++ []) ++ []))) ++
    guarded (.signal 3 0) .write [])

/-- A push to the `MutableVec`, whose subscriber is the input of a `Broadcaster`. -/
def demoPush : List (Act Lock) :=
  guarded (.value 4) .write (guarded (.wakers 2) .write [])

theorem demoSet_does : Does demoKinds (.code 1) demoSet :=
  .write rfl .nothing (.wakeSub (by decide) rfl
    (.notify (.wakeTask (.wakeSub (by decide) rfl (.notify (.wakeTask .done)) .done))) .done)

theorem demoPoll_does : Does demoKinds (.code 4) demoPoll :=
  .pollInput rfl
    (.pollInput rfl
      (.seq (.more (by decide) (.read (.inl rfl) .nothing)) (.read (.inl rfl) .nothing))
      (.callback (.write rfl .nothing (.wakeSub (by decide) rfl (.notify (.wakeTask .done)) .done))))
    .parkSub

theorem demoPush_does : Does demoKinds (.code 5) demoPush :=
  .change rfl (.call rfl (.notify .done))

/-- Four threads that run these. -/
example : ∀ p ∈ [demoSet, demoPoll, demoPoll, demoPush], ∃ n, Does demoKinds (.code n) p := by
  intro p hp
  simp only [List.mem_cons, List.not_mem_nil, or_false] at hp
  rcases hp with rfl | rfl | rfl | rfl
  · exact ⟨_, demoSet_does⟩
  · exact ⟨_, demoPoll_does⟩
  · exact ⟨_, demoPoll_does⟩
  · exact ⟨_, demoPush_does⟩

/-- In a state of a run of them, `set` waits for the reader, and the reader goes on. -/
example : ∃ us, Reach (start [demoSet, demoPoll]) 3 us ∧
    us.map (fun t => t.held) = [[], [(.value 0, .read), (.value 2, .write), (.value 3, .write)]] ∧
    ∀ t, us[0]? = some t → t.todo = demoSet ∧ ¬enabled us t := by
  refine ⟨_, .step (i := 1) (.step (i := 1) (.step (i := 1) .start rfl ?_) rfl ?_) rfl ?_, rfl, ?_⟩
  · simp [enabled, demoPoll, guarded, busy, start]
  · simp [enabled, demoPoll, guarded, busy, start, Thread.step]
  · simp [enabled, demoPoll, guarded, busy, start, Thread.step]
  · intro t ht
    obtain rfl := Option.some.inj ht
    refine ⟨rfl, fun h => h ?_⟩
    exact ⟨_, List.mem_cons_of_mem _ List.mem_cons_self, .read, List.mem_cons_self⟩

end Verif.Locks
