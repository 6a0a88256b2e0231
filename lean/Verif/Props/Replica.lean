import Verif.Props.Consume
import Verif.Replica

/-!
# A `MutableVec` kept as a copy of an expression (property C91)

A task `e.for_each(|diff| { MutableVecLockMut::apply_vec_diff(&mut target.lock_mut(), diff); ready(()) })`
keeps the `MutableVec` `target`, empty at first, equal to what the expression `e` denotes.
-/

namespace Verif

open MutVec (World Ev Copies Held)

/-- **C91** (partial: see `Expr.Lawful`).  `e` is an expression for a list, and a task applies its changes
to a `MutableVec` that was empty: the calls of the callback of `for_each` are the calls of
`apply_vec_diff` in the history `h` of the `MutableVec`, which has any number of subscribers besides.
Then nothing panics.  If the last answer of the task was `Pending`, to a poll with waker `x`, then the
contents of the `MutableVec` are what `e` denotes at present, or `x` has been woken by a source, or the
future of the last call of the callback is not ready and was polled with `x`.  If the task is complete
the contents are what `e` denotes. -/
theorem C91_replica_partial {α κ : Type} (e : Expr (.vec α)) (hl : e.Lawful) (u : Tr (.vec α))
    (W : Waker → Prop) (he : e.Exec true u W) (f : κ → VecDiff α → List (Poll Unit) × κ) (k0 : κ)
    (ws : List Waker) (outs : List (Poll Unit)) (m : SForEach κ (VecDiff α))
    (hm : runF (SForEach.poll f) ws (SForEach.init k0 (u.map (·.2))) = some (outs, m))
    (hu : m.stream.hist = u) (h : List (Ev α)) (hc : Copies (feCalls m.log) h)
    (hh : Held (World.init []) h) :
    ∃ w, (World.init []).runs h = some w ∧
      (∀ x, ws.getLast? = some x → outs.getLast? = some .pending →
        (∃ s, m.future = some s ∧ s.armed x) ∨ e.Spec w.values ∨ W x) ∧
      (.ready () ∈ outs → e.Spec w.values) := by
  obtain ⟨h1, h2⟩ := C74_for_each_partial e hl u W he f k0 ws outs m hm hu
  obtain ⟨outs', m', g1, -, g3, -⟩ := C65_for_each f k0 (u.map (·.2)) ws
  rw [g1] at hm
  obtain ⟨rfl, rfl⟩ := Prod.mk.inj (Option.some.inj hm)
  obtain ⟨v, hv⟩ : ∃ v, replay (feCalls m'.log) [] = some v := by
    rw [g3]
    obtain ⟨v, hv⟩ := (C71_expressions_partial e hl u W he).1
    subst hu
    exact ⟨v, hv⟩
  obtain ⟨w, hw, hwv⟩ := MutVec.runs_copies (w := World.init []) hc hh hv
  have key : (∃ v, Ty.ShownBy (.vec α) (feCalls m'.log) v ∧ e.Spec v) → e.Spec w.values := by
    rintro ⟨v', hv', hs⟩
    have : replay (feCalls m'.log) [] = some v' := hv'
    rw [hv] at this
    cases this
    rw [hwv]
    exact hs
  exact ⟨w, hw, fun x hx hp => (h1 x hx hp).imp_right fun a => a.imp_left key, fun hr => key (h2 hr)⟩

/-- **C91** (partial: see `Expr.Lawful`).  So a list that can be listened to only once can be shared:
every subscriber of the `MutableVec` shows what `e` denotes.  If the task is waiting, with waker `x`, and
so is the subscriber `j`, with waker `y`, then the changes `j` received give what `e` denotes at present,
or `x` or `y` has been woken. -/
theorem C91_shared_partial {α κ : Type} (e : Expr (.vec α)) (hl : e.Lawful) (u : Tr (.vec α))
    (W : Waker → Prop) (he : e.Exec true u W) (f : κ → VecDiff α → List (Poll Unit) × κ) (k0 : κ)
    (ws : List Waker) (outs : List (Poll Unit)) (m : SForEach κ (VecDiff α))
    (hm : runF (SForEach.poll f) ws (SForEach.init k0 (u.map (·.2))) = some (outs, m))
    (hu : m.stream.hist = u) (hf : m.future = none) (h : List (Ev α)) (hc : Copies (feCalls m.log) h)
    (hh : Held (World.init []) h) (w : World α) (hw : (World.init []).runs h = some w) (x : Waker)
    (hx : ws.getLast? = some x) (hp : outs.getLast? = some .pending) (j : Nat)
    (hj : w.rxLive j = true) (y : Waker)
    (hy : (MutVec.polled j (World.init []) h).getLast? = some (y, .pending)) :
    (∃ v, replay (MutVec.received j (World.init []) h) [] = some v ∧ e.Spec v) ∨ W x ∨
      MutVec.WokenSince [] j h w y := by
  obtain ⟨w', hw', h1, -⟩ := C91_replica_partial e hl u W he f k0 ws outs m hm hu h hc hh
  rw [hw] at hw'
  cases hw'
  rcases h1 x hx hp with ⟨s, hs, -⟩ | hs | hW
  · rw [hf] at hs; cases hs
  · rcases MutVec.polled_rest hw (.inl hj) (o := some y) (.inl ⟨y, rfl, hy⟩) with hr | ⟨z, hz, hr⟩
    · exact .inl ⟨_, by rw [← MutVec.polled_diffs]; exact hr, hs⟩
    · cases hz; exact .inr (.inr hr)
  · exact .inr (.inl hW)

/-- **C91**: if `e` sends no change without effect then the `MutableVec` does not either, so it can be
used in `chain`. -/
theorem C91_brisk {α κ : Type} (e : Expr (.vec α)) (hl : e.Lawful) (hb : e.Brisk) (u : Tr (.vec α))
    (W : Waker → Prop) (he : e.Exec true u W) (f : κ → VecDiff α → List (Poll Unit) × κ) (k0 : κ)
    (ws : List Waker) (outs : List (Poll Unit)) (m : SForEach κ (VecDiff α))
    (hm : runF (SForEach.poll f) ws (SForEach.init k0 (u.map (·.2))) = some (outs, m))
    (hu : m.stream.hist = u) (h : List (Ev α)) (hc : Copies (feCalls m.log) h)
    (hh : Held (World.init []) h) (w : World α) (hw : (World.init []).runs h = some w)
    (mine : Nat → Prop) : (Expr.source (Source.mutableVec [] h w mine)).Brisk := by
  obtain ⟨outs', m', g1, -, g3, -⟩ := C65_for_each f k0 (u.map (·.2)) ws
  rw [g1] at hm
  obtain ⟨rfl, rfl⟩ := Prod.mk.inj (Option.some.inj hm)
  have hbr : Trace.Brisk u := e.brisk hl hb he
  refine C71_mutable_vec_brisk [] h w hw ?_ mine
  rintro h1 o h2 w1 rfl hr hv
  obtain ⟨a, d, b, hd, rfl, ha⟩ := MutVec.copies_prefix hc
  obtain ⟨v, hav⟩ : ∃ v, replay (a ++ d :: b) [] = some v := by
    obtain ⟨v, hv⟩ := (C71_expressions_partial e hl u W he).1
    refine ⟨v, ?_⟩
    rw [← hd, g3]
    subst hu
    exact hv
  rw [replay_append] at hav
  cases hra : replay a [] with
  | none => simp [hra] at hav
  | some l =>
    obtain ⟨w1', hw1, hl1⟩ := MutVec.runs_copies (w := World.init []) ha
      (fun g1 o' g2 w2 e r => hh g1 o' (g2 ++ .op (.applyVecDiff d) :: h2) w2 (by rw [e]; simp) r) hra
    rw [hr] at hw1
    cases hw1
    rw [hv] at hl1
    subst hl1
    have := hbr a d b (by rw [← hd, g3]; subst hu; rfl) hra
    refine ⟨by simp, by simp, ?_⟩
    intro hc
    cases hc
    exact this.1 rfl

/-- **C91**: copies of copies.  `n` tasks, each of which applies the changes of a subscriber of the list
`k` to the list `k + 1`; the lists but the first are empty at first.  Nothing panics, and if all these
subscribers are waiting then the last list has the contents of the first, or one of the wakers has been
woken. -/
theorem C91_copies_of_copies {α : Type} (n : Nat) (start : Nat → List α) (hist : Nat → List (Ev α))
    (sub : Nat → Nat) (hs : ∀ k, start (k + 1) = [])
    (hc : ∀ k, k < n → Copies (MutVec.received (sub k) (World.init (start k)) (hist k)) (hist (k + 1)))
    (hh : ∀ k, k < n → Held (World.init []) (hist (k + 1)))
    (h0 : (World.init (start 0)).runs (hist 0) ≠ none) :
    ∃ w : Nat → World α, (∀ k, k ≤ n → (World.init (start k)).runs (hist k) = some (w k)) ∧
      ∀ x : Nat → Waker, (∀ k, k < n → (w k).rxLive (sub k) = true ∧
          (MutVec.polled (sub k) (World.init (start k)) (hist k)).getLast? = some (x k, .pending)) →
        (w n).values = (w 0).values ∨
        ∃ k, k < n ∧ MutVec.WokenSince (start k) (sub k) (hist k) (w k) (x k) := by
  induction n with
  | zero =>
    cases hr : (World.init (start 0)).runs (hist 0) with
    | none => exact absurd hr h0
    | some w0 =>
      refine ⟨fun _ => w0, fun k hk => ?_, fun x _ => .inl rfl⟩
      obtain rfl : k = 0 := by omega
      exact hr
  | succ n ih =>
    obtain ⟨w, hw, hrest⟩ := ih (fun k hk => hc k (by omega)) fun k hk => hh k (by omega)
    have hn := hw n (Nat.le_refl n)
    obtain ⟨v, hv⟩ : ∃ v, replay (MutVec.received (sub n) (World.init (start n)) (hist n)) [] = some v := by
      obtain ⟨v, hv⟩ := MutVec.polled_replay hn (sub n)
      exact ⟨v, by rw [← MutVec.polled_diffs]; exact hv⟩
    obtain ⟨w', hw', hv'⟩ := MutVec.runs_copies (w := World.init []) (hc n (by omega)) (hh n (by omega)) hv
    obtain ⟨w2, e1, e2⟩ : ∃ w2 : Nat → World α, w2 (n + 1) = w' ∧ ∀ k, k ≤ n → w2 k = w k :=
      ⟨fun k => if k = n + 1 then w' else w k, if_pos rfl, fun k hk => if_neg (by omega)⟩
    refine ⟨w2, fun k hk => ?_, fun x hx => ?_⟩
    · by_cases h : k = n + 1
      · subst h
        rw [hs, e1]
        exact hw'
      · rw [e2 k (by omega)]
        exact hw k (by omega)
    · have hx' : ∀ k, k < n + 1 → (w k).rxLive (sub k) = true ∧
          (MutVec.polled (sub k) (World.init (start k)) (hist k)).getLast? = some (x k, .pending) := by
        intro k hk
        have := hx k hk
        rwa [e2 k (by omega)] at this
      rw [e1, e2 0 (by omega)]
      rcases hrest x fun k hk => hx' k (by omega) with h | ⟨k, hk, h⟩
      · rcases MutVec.polled_rest hn (.inl (hx' n (by omega)).1) (o := some (x n))
          (.inl ⟨_, rfl, (hx' n (by omega)).2⟩) with hr | ⟨z, hz, hr⟩
        · rw [MutVec.polled_diffs, hv] at hr
          cases hr
          exact .inl (hv'.trans h)
        · cases hz
          exact .inr ⟨n, by omega, by rw [e2 n (by omega)]; exact hr⟩
      · exact .inr ⟨k, by omega, by rw [e2 k (by omega)]; exact h⟩

/-- **C91**: the `MutableVec` has to be empty at first.  A subscriber of an empty list gets nothing, so a
`MutableVec` with contents `[9]` keeps them for ever, and when the list is `[5]` the copy is `[9, 5]`. -/
theorem C91_needs_empty :
    ∃ (h g : List (Ev Nat)) (w v : World Nat),
      (World.init []).runs h = some w ∧ (World.init [9]).runs g = some v ∧
      Copies (MutVec.received 0 (World.init []) h) g ∧
      (MutVec.polled 0 (World.init []) h).getLast? = some (4, .pending) ∧
      w.values = [5] ∧ v.values = [9, 5] :=
  ⟨[.subscribe, .poll 0 4, .op (.push 5), .poll 0 4, .poll 0 4], [.op (.applyVecDiff (.push 5))], _, _,
    rfl, rfl, rfl, rfl, rfl, rfl⟩

/-! ## Non-vacuity -/

/-- `list.signal_vec().map_signal(|n| m[n].signal())`; the list is `[0, 1]`, `m[0]` is 3 and then 10,
`m[1]` is 7. -/
def demoCopied : Expr (.vec Nat) :=
  .mapSignal (fun n => .source (demoECell n)) (.source demoEList)

def demoCopiedSeen : Tr (.vec Nat) :=
  [(9, .ready (some (.replace [3, 7]))), (9, .pending), (9, .pending),
    (9, .ready (some (.updateAt 0 10))), (9, .pending), (9, .pending)]

/-- The copy: two subscribers, one of which comes late and is dropped. -/
def demoCopy : List (Ev Nat) :=
  [.subscribe, .poll 0 4, .op (.applyVecDiff (.replace [3, 7])), .poll 0 4, .subscribe, .poll 1 5,
    .op (.applyVecDiff (.updateAt 0 10)), .poll 0 4, .dropRx 1, .poll 0 4]

theorem demoCopied_meets : demoCopied.Lawful ∧ demoCopied.Brisk ∧
    ∃ W, demoCopied.Exec true demoCopiedSeen W := by
  have hcell : ∀ n, (demoECell n).Ok := fun n => by
    refine C71_mutable _ _ _ _ ?_ _
    by_cases hn : n = 0
    · subst hn; rfl
    · simp only [demoCellRun, demoCells, hn, if_false]; rfl
  refine ⟨⟨fun n => hcell n, C71_mutable_vec _ _ _ rfl _⟩, ?_, ?_⟩
  · refine C71_mutable_vec_brisk _ _ _ rfl ?_ _
    intro h1 o h2 w1 he
    have : (Ev.op o) ∈ Ev.subscribe :: List.replicate 7 (Ev.poll (α := Nat) 0 9) := by rw [he]; simp
    simp at this
  · refine ⟨_, [(9, .ready (some (.replace [(0, 0), (1, 0)])))] ++ List.replicate 6 (9, .pending),
      fun n _ => (demoECell n).trace 0, demoEList.woken 0, fun n _ => (demoECell n).woken 0,
      ⟨0, rfl, fun _ => .inl rfl, rfl, rfl⟩, fun b n => .inr ⟨_, 0, rfl, by simp, rfl, rfl⟩,
      _, rfl, rfl, ?_, rfl⟩
    intro x hx
    simp at hx
    rcases hx with rfl | rfl
    · exact ⟨rfl, 0, rfl, fun _ => .inl ⟨by decide, by decide⟩, rfl, rfl⟩
    · exact ⟨rfl, 0, rfl, fun _ => .inl ⟨by decide, by decide⟩, rfl, rfl⟩

theorem held_of {vs : List Nat} {h : List (Ev Nat)} (hn : ∀ e ∈ h, e ≠ .dropHandle) :
    Held (World.init vs) h := by
  intro h1 o h2 w1 he hr
  have key : ∀ (l : List (Ev Nat)) (w w' : World Nat), (∀ e ∈ l, e ≠ .dropHandle) → w.handles ≠ 0 →
      w.runs l = some w' → w'.handles ≠ 0 := by
    intro l
    induction l with
    | nil => intro w w' _ hw hr; cases hr; exact hw
    | cons e l ih =>
      intro w w' hl hw hr
      simp only [World.runs] at hr
      cases hs : w.step e with
      | none => simp [hs] at hr
      | some w1 =>
        simp only [hs] at hr
        refine ih w1 w' (fun e' he' => hl e' (by simp [he'])) ?_ hr
        exact MutVec.step_handles hw (hl e (by simp)) hs
  exact key h1 (World.init vs) w1 (fun e hm => hn e (by rw [he]; simp [hm])) (by simp [World.init]) hr

/-- The hypotheses of `C91_replica_partial`, `C91_shared_partial` and `C91_brisk` are met: the copy ends
up as `[10, 7]`. -/
example : demoCopied.Lawful ∧ demoCopied.Brisk ∧ (∃ W, demoCopied.Exec true demoCopiedSeen W) ∧
    (∃ m, runF (SForEach.poll fun k (_ : VecDiff Nat) => ([.ready ()], k)) [9, 9, 9, 9]
        (SForEach.init () (demoCopiedSeen.map (·.2))) =
          some ([.pending, .pending, .pending, .pending], m) ∧
      m.stream.hist = demoCopiedSeen ∧ m.future.isNone ∧ Copies (feCalls m.log) demoCopy) ∧
    Held (World.init []) demoCopy ∧
    ((World.init []).runs demoCopy).map (fun w => (w.values, w.rxLive 0)) = some ([10, 7], true) ∧
    (MutVec.polled 0 (World.init []) demoCopy).getLast? = some (4, .pending) :=
  ⟨demoCopied_meets.1, demoCopied_meets.2.1, demoCopied_meets.2.2, ⟨_, rfl, rfl, rfl, rfl⟩,
    held_of (by simp [demoCopy]), rfl, rfl⟩

/-- Three lists in a row, for `C91_copies_of_copies`. -/
def demoRow (k : Nat) : List (Ev Nat) :=
  if k = 0 then [.subscribe, .poll 0 4, .poll 0 4, .op (.insert 0 8), .poll 0 4, .poll 0 4]
  else [.subscribe, .op (.applyVecDiff (.replace [1, 2])), .poll 0 (4 + k), .poll 0 (4 + k),
    .op (.applyVecDiff (.insertAt 0 8)), .poll 0 (4 + k), .poll 0 (4 + k)]

example : (∀ k, k < 2 → Copies (MutVec.received 0 (World.init (if k = 0 then [1, 2] else [])) (demoRow k))
      (demoRow (k + 1))) ∧
    (∀ k, k < 2 → Held (World.init []) (demoRow (k + 1))) ∧
    (World.init [1, 2]).runs (demoRow 0) ≠ none ∧
    ((World.init [1, 2]).runs (demoRow 0)).map (·.values) = some [8, 1, 2] ∧
    ((World.init []).runs (demoRow 2)).map (·.values) = some [8, 1, 2] ∧
    ∀ k, k < 2 → (MutVec.polled 0 (World.init (if k = 0 then [1, 2] else [])) (demoRow k)).getLast? =
      some (4 + k, .pending) := by
  refine ⟨?_, fun k hk => held_of ?_, by decide, rfl, rfl, ?_⟩
  · intro k hk
    obtain rfl | rfl : k = 0 ∨ k = 1 := by omega
    · rfl
    · rfl
  · simp [demoRow]
  · intro k hk
    obtain rfl | rfl : k = 0 ∨ k = 1 := by omega
    · rfl
    · rfl

end Verif
