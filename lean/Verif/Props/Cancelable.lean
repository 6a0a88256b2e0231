import Verif.CancelableProofs

/-!
# C46: `cancelable_future`, calls that do not overlap
-/

namespace Verif.Cancelable

variable {ο : Type}

/-- **C46.**  Until the handle is discarded (or dropped) a poll answers what the inner future answers;
the next poll after that answers the value of the callback.  No poll panics. -/
theorem C46_answer (script : List (Poll ο)) (c : ο) (es : List Ev) (w : Waker) (os : List (Obs ο)) (m : World ο)
    (h : (World.init script c).runs (es ++ [.poll w]) = some (os, m)) :
    .panic ∉ os ∧
    os.getLast? = some (.poll (if .discard ∈ es then .ready c
      else script[(innerPolls es).length]?.getD .pending)) := by
  refine ⟨(inv_runs h).noPanic, ?_⟩
  obtain ⟨os1, o, m1, h1, h2, rfl⟩ := runE_snoc h
  have := (inv_step (inv_runs h1) h2).2 w rfl
  rw [this, List.getLast?_concat]
  rfl

/-- **C46.**  The callback runs at most once.  If it ran then the handle was discarded, its value was
answered, the inner future was dropped at that moment, it had been polled exactly by the polls before
the discard, and it had not completed.  While it has not run and the future exists, so does the inner
future, polled once by each poll so far. -/
theorem C46_callback (script : List (Poll ο)) (c : ο) (es : List Ev) (os : List (Obs ο)) (m : World ο)
    (h : (World.init script c).runs es = some (os, m)) :
    (m.calls = 0 ∨ m.calls = 1 ∧ .discard ∈ es ∧ .poll (.ready c) ∈ os ∧ m.future = none ∧
      ∃ f, m.dropped = some f ∧ f.hist.map (·.1) = innerPolls es ∧ ¬ f.completed) ∧
    (m.calls = 0 → .dropFuture ∉ es → ∃ f, m.future = some f ∧ f.hist.map (·.1) = innerPolls es ∧
      (m.done = false → ¬ f.completed)) := by
  have hi := inv_runs h
  have hw : ∀ f : Src ο, Polled script (innerPolls es) f → f.hist.map (·.1) = innerPolls es := by
    intro f hf
    rw [hf.hist, List.map_map]
    rw [show ((·.1) ∘ fun p : Waker × Nat => (p.1, answer script p.2)) = Prod.fst from rfl,
      List.zipIdx_map_fst]
  constructor
  · rcases hi.atMostOnce with k | ⟨k1, k2, k3, k4, f, k5, k6, k7⟩
    · exact .inl k
    · exact .inr ⟨k1, k2, k4, k3, f, k5, hw f k6, fun ⟨w, a, k⟩ => k7 w a k⟩
  · intro hc hd
    obtain ⟨f, h1, h2, _, _⟩ := hi.live (hi.alive.2 hd) hc
    exact ⟨f, h1, hw f h2, fun hdn ⟨w, a, k⟩ => hi.pend hdn f h1 w a k⟩

/-- **C46.**  Discarding the handle wakes the waker of the last poll if that answered `Pending` and the
future still exists. -/
theorem C46_woken (script : List (Poll ο)) (c : ο) (es es' : List Ev) (w : Waker)
    (os os' os'' : List (Obs ο)) (m m' m'' : World ο)
    (h : (World.init script c).runs (es ++ [.poll w]) = some (os, m))
    (hp : os.getLast? = some (.poll .pending))
    (h' : (World.init script c).runs (es ++ .poll w :: es') = some (os', m'))
    (he : ∀ w', .poll w' ∉ es') (hd : .dropFuture ∉ es ++ es')
    (h'' : (World.init script c).runs (es ++ .poll w :: es' ++ [.discard]) = some (os'', m'')) :
    m''.woken = m'.woken ++ [w] := by
  have hi := inv_runs h'
  obtain ⟨os1, o, m1, h1, h2, rfl⟩ := runE_snoc h''
  rw [World.runs, h1, Option.some.injEq, Prod.mk.injEq] at h'
  obtain ⟨rfl, rfl⟩ := h'
  simp only [World.step] at h2
  split at h2
  rotate_left
  · cases h2
  rename_i hh
  simp only [Option.some.injEq, Prod.mk.injEq] at h2
  obtain ⟨rfl, rfl⟩ := h2
  have hnd := hi.handle.1 hh
  have hal : m1.alive = true := by
    rw [hi.alive]
    simp only [List.mem_append, List.mem_cons, reduceCtorEq, false_or] at hd ⊢
    exact hd
  have hdone : m1.done = false := by
    -- the future was not done after the last poll, and only polls change that
    rw [show es ++ .poll w :: es' = (es ++ [.poll w]) ++ es' by simp] at h1
    obtain ⟨osa, osb, ma, g1, g2, rfl⟩ := runE_append h1
    rw [World.runs, g1, Option.some.injEq, Prod.mk.injEq] at h
    obtain ⟨rfl, rfl⟩ := h
    have h0 : ma.done = false := by
      obtain ⟨osc, oc, mc, k1, k2, rfl⟩ := runE_snoc g1
      rw [List.getLast?_concat, Option.some.injEq] at hp
      subst hp
      simp only [World.step] at k2
      split at k2
      · rename_i hcond
        simp only [Bool.and_eq_true, Bool.not_eq_true'] at hcond
        split at k2
        · cases k2
        · cases k2
        · rename_i k3
          cases k2
          rw [poll_done k3]; exact hcond.2
      · cases k2
    refine runE_inv (step := World.step) (Inv := fun es _ (s : World ο) => (∀ w', Ev.poll w' ∉ es) → s.done = false)
      (fun _ => h0) ?_ g2 he
    intro es os s e o s' ih hs hne
    have ih := ih fun w' k => hne w' (by simp [k])
    cases e with
    | poll w' => exact absurd (by simp) (hne w')
    | discard =>
      simp only [World.step] at hs
      split at hs
      · cases hs
        unfold World.discard
        split
        · split <;> exact ih
        · exact ih
      · cases hs
    | dropFuture =>
      simp only [World.step] at hs
      split at hs
      · cases hs; exact ih
      · cases hs
  have hwk : m1.waker = some w := by
    refine hi.waker hdone es w es' rfl he ?_ ?_
    · intro k; exact hnd (by simp [k])
    · intro k; exact hnd (by simp [k])
  simp [World.discard, hal, hwk]

/-- **C46.**  Not even a poll after the end, against the contract of `Future`, runs the callback a
second time: it panics. -/
theorem C46_not_twice (script : List (Poll ο)) (c : ο) (es : List Ev) (os : List (Obs ο)) (m : World ο)
    (h : (World.init script c).runs es = some (os, m)) (hc : m.calls ≠ 0) (w : Waker) :
    m.poll w = none := by
  have key : m.calls ≠ 0 → m.whenCancelled = none ∧ m.isCancelled = true := by
    refine runE_inv (step := World.step)
      (Inv := fun _ _ (s : World ο) => s.calls ≠ 0 → s.whenCancelled = none ∧ s.isCancelled = true)
      (fun h => absurd rfl h) ?_ h
    intro es os s e o s' ih hs
    cases e with
    | poll w =>
      have : ∀ r s', s.poll w = some (r, s') → s'.calls ≠ 0 →
          s'.whenCancelled = none ∧ s'.isCancelled = true := by
        intro r s' hp
        simp only [World.poll] at hp
        split at hp
        · rename_i hx
          split at hp <;> cases hp
          exact fun _ => ⟨rfl, hx⟩
        · split at hp
          · cases hp
          · split at hp <;> cases hp <;> exact ih
      simp only [World.step] at hs
      split at hs
      · split at hs
        · cases hs; exact ih
        · rename_i hp; cases hs; have := this _ _ hp; exact this
        · rename_i hp; cases hs; exact this _ _ hp
      · cases hs
    | discard =>
      simp only [World.step] at hs
      split at hs
      · cases hs
        unfold World.discard
        split
        · split <;> exact fun h => ⟨(ih h).1, rfl⟩
        · exact ih
      · cases hs
    | dropFuture =>
      simp only [World.step] at hs
      split at hs
      · cases hs; exact ih
      · cases hs
  simp [World.poll, key hc]

/-- The hypotheses of `C46_not_twice` are met. -/
example : ∃ os m, (World.init [.pending] 100).runs [.poll 1, .discard, .poll 2] = some (os, m) ∧
    m.calls ≠ 0 := ⟨_, _, rfl, by decide⟩

/-- Two polls pending, then cancelled: the second waker is woken, the next poll gives the callback's
value. -/
example : ((World.init [.pending, .pending, .ready 7] 100).runs [.poll 1, .poll 2, .discard, .poll 3]).map
    (fun p => (p.1, p.2.woken, p.2.calls)) =
    some ([.poll .pending, .poll .pending, .unit, .poll (.ready 100)], [2], 1) := rfl
/-- Not cancelled: the value of the inner future; a discard afterwards runs nothing. -/
example : ((World.init [.pending, .ready 7] 100).runs [.poll 1, .poll 2, .discard]).map
    (fun p => (p.1, p.2.calls)) = some ([.poll .pending, .poll (.ready 7), .unit], 0) := rfl
/-- Discarded before the first poll. -/
example : ((World.init [.ready 7] 100).runs [.discard, .poll 2]).map (·.1) =
    some [.unit, .poll (.ready 100)] := rfl

end Verif.Cancelable
