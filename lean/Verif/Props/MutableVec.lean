import Verif.MutableVecWake

/-!
# `MutableVec` (properties C01–C05)

Model: `Verif/MutableVec.lean`.  Specification vocabulary: `Verif/MutableVecSpec.lean`
(`Op.spec`: the plain `Vec` operation of each method; `received`: the diffs a subscriber got;
`NothingToDo`; `onlyOne`), `replay` (`Verif/VecDiff.lean`): apply a list of diffs in order.
-/

namespace Verif.MutVec

variable {α : Type}

/-- A history used to show that the hypotheses below can be met: two subscribers, one of them
late, operations of several kinds, polls and a drop. -/
def demo : List (Ev Nat) :=
  [.subscribe, .poll 0 7, .op (.push 5), .op (.insert 0 9), .subscribe, .op (.swap 0 2),
   .op (.retain (fun n => n % 2 == 1)), .poll 0 7, .poll 0 8, .poll 1 3, .dropRx 1,
   .op (.pushCloned 1), .poll 0 8, .poll 0 8, .poll 0 8]

/-- What `demo` does: the final contents, what is still queued for the live subscriber, and what
both have received. -/
example : ((World.init [3, 4]).runs demo).map (fun w => (w.values, w.chans.map (·.queue))) =
      some ([3, 9, 5, 1], [[.push 1], []]) ∧
    received 0 (World.init [3, 4]) demo =
      [.replace [3, 4], .push 5, .insertAt 0 9, .move 0 2, .move 1 0, .removeAt 0] ∧
    received 1 (World.init [3, 4]) demo = [.replace [9, 3, 4, 5]] := by decide

/-- **C01.**  Whatever happened (any operations, subscriptions, polls and drops, in any order),
the diffs a subscriber received so far can be replayed on the empty `Vec` without a panic, and
together with those still queued for it (if it is live) they rebuild the current contents. -/
theorem C01_mirror (vs : List α) (h : List (Ev α)) (w : World α)
    (hr : (World.init vs).runs h = some w) (id : Nat) (c : Chan α) (hc : w.chans[id]? = some c) :
    (∃ ys, replay (received id (World.init vs) h) [] = some ys) ∧
    (c.rxAlive = true →
      replay (received id (World.init vs) h ++ c.queue) [] = some w.values) := by
  have hi := inv_runs (inv_init vs) hr
  have hl := runs_log (inv_init vs) hr id
  simp only [World.log, hc, World.init, List.getElem?_nil, List.nil_append] at hl
  have hl' : c.delivered = received id (World.init vs) h := hl
  rw [← hl']
  exact ⟨hi.sound id c hc, hi.mirror id c hc⟩

/-- **C01.**  The same in terms of what the consumer sees: as soon as its next poll would not
deliver another diff, its copy equals the contents of the `MutableVec`. -/
theorem C01_caught_up (vs : List α) (h : List (Ev α)) (w : World α)
    (hr : (World.init vs).runs h = some w) (id : Nat) (hl : w.rxLive id = true) (cx : Waker)
    (hp : ∀ d, (w.pollRx id cx).1 ≠ .ready (some d)) :
    replay (received id (World.init vs) h) [] = some w.values := by
  cases hc : w.chans[id]? with
  | none => simp [World.rxLive, hc] at hl
  | some c =>
    have hq : c.queue = [] := by
      cases hq : c.queue with
      | nil => rfl
      | cons d ds => exact absurd (by simp [World.pollRx, hc, hq]) (hp d)
    have := (C01_mirror vs h w hr id c hc).2 (by simpa [World.rxLive, hc] using hl)
    simpa [hq] using this

example : ∃ w, (World.init [3, 4]).runs (demo ++ [.poll 0 8]) = some w ∧ w.rxLive 0 = true ∧
    (w.pollRx 0 8).1 = .pending ∧ w.values = [3, 9, 5, 1] := by
  exact ⟨_, rfl, by decide, by decide, by decide⟩

/-- **C02.**  Every method returns what the plain `Vec` operation returns, leaves the contents the
plain `Vec` operation leaves, and panics exactly when it does. -/
theorem C02_ops (w : World α) (o : Op α) :
    (w.exec o).map (fun r => (r.1, r.2.values)) = o.spec w.values := by
  rw [exec_eq]
  cases o.spec w.values <;> simp

/-- **C03.**  A call that has nothing to do leaves the whole world as it is: no diff is queued for
any subscriber, no waker is woken. -/
theorem C03_silent (w : World α) (o : Op α) (h : NothingToDo o w.values) :
    ∃ r, w.exec o = some (r, w) := by
  have key : o.diffs w.values = [] → (∃ r, o.spec w.values = some (r, w.values)) →
      ∃ r, w.exec o = some (r, w) := by
    rintro hd ⟨r, hs⟩
    exact ⟨r, by rw [exec_eq, hs, hd]; simp [notifyAll]⟩
  apply key
  · generalize w.values = l at h
    cases h with
    | pop => rfl
    | clear => rfl
    | retain f l hf =>
      have : removals f 0 l = [] := by
        have : ∀ (l : List α) (n : Nat), (∀ a ∈ l, f a = true) → removals f n l = [] := by
          intro l
          induction l with
          | nil => intros; rfl
          | cons a l ih =>
            intro n h
            simp only [removals, h a (by simp), Bool.not_true, Bool.false_eq_true, ↓reduceIte]
            exact ih _ (fun b hb => h b (by simp [hb]))
        exact this l 0 hf
      simp only [Op.diffs, this, List.reverse_nil, removalDiffs]
      rw [List.filter_eq_self.2 hf]
      split <;> simp_all
    | truncate n l hl => simp [Op.diffs, rangeDiffs]; omega
    | drain lo hi l h1 h2 => simp [Op.diffs, rangeDiffs, h1]
    | moveFromTo i l => simp [Op.diffs]
    | swap a l => simp [Op.diffs]
    | reverse l hl =>
      have : l.length - 1 = 0 := by omega
      simp [Op.diffs, this]
    | extend l => rfl
    | applyMove i l => simp [Op.diffs]
    | applyClear => rfl
  · generalize w.values = l at h
    cases h with
    | pop => exact ⟨_, rfl⟩
    | clear => exact ⟨_, rfl⟩
    | retain f l hf => exact ⟨.unit, by simp [Op.spec, List.filter_eq_self.2 hf]⟩
    | truncate n l hl => exact ⟨.unit, by simp [Op.spec, List.take_of_length_le hl]⟩
    | drain lo hi l h1 h2 =>
      exact ⟨.list _, by simp only [Op.spec, h1, h2, Nat.le_refl, and_self, ↓reduceIte,
        List.take_append_drop]; rfl⟩
    | moveFromTo i l => exact ⟨.unit, by simp [Op.spec]⟩
    | swap a l => exact ⟨.unit, by simp [Op.spec]⟩
    | reverse l hl =>
      refine ⟨.unit, ?_⟩
      match l, hl with
      | [], _ => rfl
      | [a], _ => rfl
    | extend l => exact ⟨.unit, by simp [Op.spec]⟩
    | applyMove i l => exact ⟨.unit, by simp [Op.spec]⟩
    | applyClear => exact ⟨.unit, rfl⟩

example : NothingToDo (.retain (fun n => decide (n < 10))) [1, 5, 7] := .retain _ _ (by decide)
example : NothingToDo (.drain (.included 1) (.excluded 1)) [1, 5, 7] :=
  .drain _ _ _ (by decide) (by decide)

/-- **C04.**  Two histories in which the `MutableVec` is used in the same way, and subscriber `k`
of the first subscribes, polls and is dropped at the same points as subscriber `k'` of the second
(the other subscribers may do anything, or not exist), deliver the same diffs to them, in the same
order; and neither panics unless the other does. -/
theorem C04_independent (vs : List α) (h h' : List (Ev α)) (k k' : Nat)
    (hsame : onlyOne k 0 h = onlyOne k' 0 h') (w w' : World α)
    (hr : (World.init vs).runs h = some w) (hr' : (World.init vs).runs h' = some w') :
    received k (World.init vs) h = received k' (World.init vs) h' ∧
    w.values = w'.values ∧ w.chans[k]? = w'.chans[k']? := by
  obtain ⟨v, m, g1, g2, g3⟩ := sim_runs (sim_init k vs) hr
  obtain ⟨v', m', g1', g2', g3'⟩ := sim_runs (sim_init k' vs) hr'
  rw [hsame] at g1 g3
  rw [g1] at g1'
  cases g1'
  exact ⟨g3.symm.trans g3', g2.values.symm.trans g2'.values, g2.chan.symm.trans g2'.chan⟩

/-- **C04.**  A history can always be cut down to a single subscriber, without making anything
panic. -/
theorem C04_solo (vs : List α) (h : List (Ev α)) (k : Nat) (w : World α)
    (hr : (World.init vs).runs h = some w) :
    ∃ v, (World.init vs).runs (onlyOne k 0 h) = some v ∧ v.values = w.values ∧
      v.chans[0]? = w.chans[k]? ∧
      received 0 (World.init vs) (onlyOne k 0 h) = received k (World.init vs) h := by
  obtain ⟨v, m, g1, g2, g3⟩ := sim_runs (sim_init k vs) hr
  exact ⟨v, g1, g2.values, g2.chan, g3⟩

/-- **C04.**  Dropped subscribers are forgotten: an operation that sends anything to a live
subscriber (or, more generally, one whose contents changed) leaves no dropped subscriber in the
list of senders. -/
theorem C04_forgotten (vs : List α) (h : List (Ev α)) (w w' : World α)
    (hr : (World.init vs).runs h = some w) (o : Op α) (r : Ret α)
    (hx : w.exec o = some (r, w')) (hh : w.handles ≠ 0) (hch : w'.values ≠ w.values) :
    ∀ s ∈ w'.senders, w'.rxLive s = true := by
  have hi := inv_runs (inv_init vs) hr
  intro s hs
  rw [exec_eq] at hx
  cases hsp : o.spec w.values with
  | none => simp [hsp] at hx
  | some sp =>
    simp only [hsp, Option.map_some, Option.some.injEq, Prod.mk.injEq] at hx
    obtain ⟨-, hx⟩ := hx
    subst hx
    simp only at hs hch ⊢
    have hds : o.diffs w.values ≠ [] := by
      intro hd
      have := replay_diffs o w.values sp hsp
      rw [hd] at this
      simp only [replay, Option.some.injEq] at this
      exact hch this.symm
    rw [mem_notifyAll hi.toWF hh] at hs
    obtain ⟨-, h2, -, -⟩ := wf_notifyAll hi.toWF hh (o.diffs w.values)
    have hl := hs.2.resolve_left hds
    unfold World.rxLive at hl ⊢
    simp only [h2]
    cases hc : w.chans[s]? with
    | none => simp [hc] at hl
    | some c => simpa [hc, pushAll_rxAlive] using hl

/-- Two histories as in `C04_independent`: subscriber 0 of `demo`, and the same without the other
subscriber. -/
example : onlyOne 0 0 demo =
    [.subscribe, .poll 0 7, .op (.push 5), .op (.insert 0 9), .op (.swap 0 2),
     .op (.retain (fun n => n % 2 == 1)), .poll 0 7, .poll 0 8,
     .op (.pushCloned 1), .poll 0 8, .poll 0 8, .poll 0 8] := rfl

/-- **C05.**  In every reachable world, a live subscriber's poll answers: the end if and only if
all handles are gone and nothing is queued for it; `Pending` if and only if a handle lives and
nothing is queued, and then the caller's waker is registered. -/
theorem C05_poll (vs : List α) (h : List (Ev α)) (w : World α)
    (hr : (World.init vs).runs h = some w) (k : Nat) (c : Chan α) (hc : w.chans[k]? = some c)
    (hl : c.rxAlive = true) (cx : Waker) :
    ((w.pollRx k cx).1 = .ready none ↔ w.handles = 0 ∧ c.queue = []) ∧
    ((w.pollRx k cx).1 = .pending ↔ w.handles ≠ 0 ∧ c.queue = []) ∧
    ((w.pollRx k cx).1 = .pending →
      ∃ c', (w.pollRx k cx).2.chans[k]? = some c' ∧ c'.waker = some cx) := by
  have hi := inv_runs (inv_init vs) hr
  have ht := hi.tx k c hc hl
  have hk := (List.getElem?_eq_some_iff.1 hc).1
  unfold World.pollRx
  simp only [hc]
  cases hq : c.queue with
  | cons d ds => simp
  | nil =>
    by_cases hx : c.txAlive = true
    · have := ht.1 hx
      simp [hx, this, hk]
    · have : w.handles = 0 := by
        exact Decidable.byContradiction fun hne => hx (ht.2 hne)
      simp [hx, this]

/-- **C05.**  Once a subscriber has been told the end, every later poll tells it again. -/
theorem C05_stays (vs : List α) (h h' : List (Ev α)) (w w' : World α)
    (hr : (World.init vs).runs h = some w) (hr' : w.runs h' = some w') (k : Nat)
    (hl : w.rxLive k = true) (hl' : w'.rxLive k = true) (cx cx' : Waker)
    (hend : (w.pollRx k cx).1 = .ready none) : (w'.pollRx k cx').1 = .ready none := by
  have hi := inv_runs (inv_init vs) hr
  have hi' := inv_runs hi hr'
  cases hc : w.chans[k]? with
  | none => simp [World.rxLive, hc] at hl
  | some c =>
    cases hc' : w'.chans[k]? with
    | none => simp [World.rxLive, hc'] at hl'
    | some c' =>
      simp only [World.rxLive, hc] at hl
      simp only [World.rxLive, hc'] at hl'
      have := (C05_poll vs h w hr k c hc hl cx).1.1 hend
      have h2 := runs_ended (k := k) hr' this.1 (by intro c0 h0; rw [hc] at h0; cases h0; exact this.2)
      have hq := h2.2 c' hc'
      have ht : ¬ c'.txAlive = true := fun ht => (hi'.tx k c' hc' hl').1 ht h2.1
      unfold World.pollRx
      simp [hc', hq, ht]

/-- **C05.**  No wake-up is lost: if a subscriber's poll with waker `x` answered `Pending`, and
anything happens afterwards except that the subscriber itself is polled or dropped, then as long
as `x` has not been woken a new poll would still answer `Pending`. -/
theorem C05_wake (vs : List α) (h h' : List (Ev α)) (w w' : World α)
    (hr : (World.init vs).runs h = some w) (k : Nat) (hl : w.rxLive k = true) (x cx : Waker)
    (hpend : (w.pollRx k x).1 = .pending) (hr' : (w.pollRx k x).2.runs h' = some w')
    (hp : ∀ cx, .poll k cx ∉ h') (hd : .dropRx k ∉ h') :
    ∃ new, w'.woken = w.woken ++ new ∧ (x ∈ new ∨ (w'.pollRx k cx).1 = .pending) := by
  have hi := inv_runs (inv_init vs) hr
  cases hc : w.chans[k]? with
  | none => simp [World.rxLive, hc] at hl
  | some c =>
    have hl0 := hl
    simp only [World.rxLive, hc] at hl0
    obtain ⟨c1, h1, h2⟩ := (C05_poll vs h w hr k c hc hl0 x).2.2 hpend
    have hi1 := inv_poll hi k x hl
    have hwk : (w.pollRx k x).2.woken = w.woken := by
      unfold World.pollRx
      split
      · rfl
      · split
        · rfl
        · split <;> rfl
    obtain ⟨new, h3, h4⟩ := runs_wake hi1 hr' h1 h2 hp hd
    rw [hwk] at h3
    refine ⟨new, h3, h4.imp id ?_⟩
    rintro ⟨c2, h5, h6⟩
    have hw2 := (inv_runs hi1 hr').waiting k c2 x h5 h6
    unfold World.pollRx
    simp [h5, hw2]

/-- A reachable world with a live subscriber that is told the end, and one that must wait. -/
example : ∃ w, (World.init [3, 4]).runs (demo ++ [.poll 0 8, .dropHandle]) = some w ∧
    w.rxLive 0 = true ∧ (w.pollRx 0 5).1 = .ready none := by
  exact ⟨_, rfl, by decide, by decide⟩
example : ∃ w, (World.init [3]).runs [.subscribe, .poll 0 1, .subscribe] = some w ∧
    w.rxLive 0 = true ∧ (w.pollRx 0 5).1 = .pending ∧
    ∃ w', (w.pollRx 0 5).2.runs [.poll 1 2, .op (.push 4)] = some w' ∧ w'.woken = [5] := by
  exact ⟨_, rfl, by decide, by decide, _, rfl, by decide⟩

end Verif.MutVec
