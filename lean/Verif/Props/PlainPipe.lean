import Verif.Props.PlainStages
import Verif.Props.Pipe

/-!
# C102, continued: pipelines
-/

namespace Verif

variable {α β : Type}

theorem plainFrom_noIdleClear {ds : List (VecDiff α)} {zs : List α} (h : PlainFrom ds zs) : NoIdleClear ds zs :=
  fun a b ys he hr => h a .clear b ys he hr

/-- **C102**, pipelines: if the changes of all its inputs are plain, a pipeline without `filter` and `filter_map` sends plain
changes. -/
theorem C102_pipe (p : Pipe α β) (hl : p.Lawful) (hf : ¬ p.Filters) (src : Nat → Trace α)
    (hc : ∀ i, p.Uses i → ∃ c, replay (src i).diffs [] = some c) (hp : ∀ i, p.Uses i → PlainFrom (src i).diffs [])
    (t : Trace β) (he : p.Exec src t) : PlainFrom t.diffs [] := by
  have wf : ∀ {γ : Type} (q : Pipe α γ), q.Lawful → ¬ q.Filters → (∀ i, q.Uses i → p.Uses i) → ∀ u, q.Exec src u →
      ∃ z, replay u.diffs [] = some z := by
    intro γ q hl hf hu u he
    obtain ⟨zs, h, -⟩ := C60_pipeline_partial q hl src (fun i => (replay (src i).diffs []).getD [])
      (fun i hi => by
        obtain ⟨c, h⟩ := hc i (hu i hi)
        simp [h]) (fun h => absurd h hf) u he
    exact ⟨zs, h⟩
  have key : ∀ {γ : Type} (q : Pipe α γ), q.Lawful → ¬ q.Filters → (∀ i, q.Uses i → p.Uses i) → ∀ u, q.Exec src u →
      PlainFrom u.diffs [] := by
    intro γ q
    induction q with
    | source i =>
      intro _ _ hu u he
      rw [show u = src i from he]
      exact hp i (hu i rfl)
    | map f q ih =>
      rintro hl hf hu t ⟨u, he, s, h1, h2⟩
      obtain ⟨outs, s', g1, g2⟩ := C102_map f u.answers t.wakers
      rw [h1] at g1
      cases g1
      exact g2 (by rw [Src.got, h2]; exact ih hl hf hu u he)
    | enumerate q ih =>
      rintro hl hf hu t ⟨u, he, s, h1, h2⟩
      obtain ⟨outs, s', g1, g2⟩ := C102_enumerate u.answers (wf q hl hf hu u he) t.wakers
      rw [h1] at g1
      cases g1
      exact g2 (by rw [Src.got, h2]; exact ih hl hf hu u he)
    | sort S cmp q ih =>
      rintro ⟨hS, hcmp, hl⟩ hf hu t ⟨u, he, s, h1, h2⟩
      obtain ⟨outs, s', g1, g2⟩ := C102_sort S hS cmp hcmp u.answers (wf q hl hf hu u he) t.wakers
      rw [h1] at g1
      cases g1
      exact g2 (plainFrom_noIdleClear (by rw [Src.got, h2]; exact ih hl hf hu u he))
    | chain q r ihq ihr =>
      rintro ⟨hl1, hl2⟩ hf hu t ⟨u, v, he1, he2, s, h1, h2, h3⟩
      have f1 : ¬ q.Filters := fun h => hf (.inl h)
      have f2 : ¬ r.Filters := fun h => hf (.inr h)
      have u1 : ∀ i, q.Uses i → p.Uses i := fun i hi => hu i (.inl hi)
      have u2 : ∀ i, r.Uses i → p.Uses i := fun i hi => hu i (.inr hi)
      have e2 : s.left.src.got = u.diffs := by rw [Src.got, h2]; rfl
      have e3 : s.right.src.got = v.diffs := by rw [Src.got, h3]; rfl
      refine C102_chain u.answers v.answers t.wakers t.answers s h1 ?_ ?_ ?_ ?_
      · rw [e2]; exact wf q hl1 f1 u1 u he1
      · rw [e3]; exact wf r hl2 f2 u2 v he2
      · rw [e2]; exact ihq hl1 f1 u1 u he1
      · rw [e3]; exact ihr hl2 f2 u2 v he2
    | filterMap f q _ => exact fun _ hf => absurd trivial hf
    | filter f q _ => exact fun _ hf => absurd trivial hf
  exact key p hl hf (fun _ h => h) t he

namespace MutVec

/-- **C102**, from one `MutableVec` to another: a pipeline without `filter` and `filter_map` is attached to subscribers of a
`MutableVec`, and what it sends is applied to a second one.  Whatever happens, the second one sends to its subscriber exactly
the changes that the pipeline sent, in the same order and number. -/
theorem C102_copy (vs : List α) (h : List (Ev α)) (w : World α) (hr : (World.init vs).runs h = some w) (p : Pipe α β)
    (hl : p.Lawful) (hf : ¬ p.Filters) (t : Trace β) (he : p.Exec (fun k => polled k (World.init vs) h) t)
    (g : List (Ev β)) (hc : Copies t.diffs g) (hh : Held (World.init []) (.subscribe :: g)) :
    ∃ w' c, (World.init []).runs (.subscribe :: g) = some w' ∧ w'.chans[0]? = some c ∧
      (c.rxAlive = true → received 0 (World.init []) (.subscribe :: g) ++ c.queue = t.diffs) ∧
      received 0 (World.init []) (.subscribe :: g) <+: t.diffs := by
  have wf : ∀ i, ∃ c, replay (polled i (World.init vs) h).diffs [] = some c := fun i => polled_replay hr i
  have pl : PlainFrom t.diffs [] := by
    refine C102_pipe p hl hf _ (fun i _ => wf i) (fun i _ => ?_) t he
    intro a d b ys he hy
    rw [polled_diffs] at he
    obtain ⟨l, h1, h2⟩ := C100_plain vs h w hr i a b d he
    rw [h1] at hy
    cases hy
    exact h2
  obtain ⟨zs, hz, -⟩ := C60_pipeline_partial p hl _ (fun i => (replay (polled i (World.init vs) h).diffs []).getD [])
    (fun i _ => by
      obtain ⟨c, h⟩ := wf i
      simp [h]) (fun h => absurd h hf) t he
  have := C100_copy t.diffs zs hz g hc hh
  rwa [tidied_plain pl hz] at this

/-- A list with two subscribers, and `map` of one chained to the other. -/
def demoOrigin : List (Ev Nat) :=
  [.subscribe, .subscribe, .op (.push 5), .op (.insert 0 4), .poll 0 3, .poll 1 3, .poll 0 3, .poll 0 3, .poll 0 3, .poll 1 3,
    .poll 0 3, .poll 1 3, .poll 0 3, .poll 1 3]

example : (World.init [1]).runs demoOrigin ≠ none ∧
    (Pipe.chain (.map (· + 10) (.source 0)) (.source 1)).Exec (fun k => polled k (World.init [1]) demoOrigin)
      [(3, .ready (some (.replace [11, 1]))), (3, .ready (some (.insertAt 1 15))), (3, .ready (some (.insertAt 0 14))),
        (3, .ready (some (.push 5))), (3, .ready (some (.insertAt 3 4))), (3, .pending)] :=
  ⟨Option.some_ne_none _,
    [(3, .ready (some (.replace [11]))), (3, .ready (some (.push 15))), (3, .ready (some (.insertAt 0 14))), (3, .pending),
      (3, .pending), (3, .pending)],
    polled 1 (World.init [1]) demoOrigin, ⟨_, rfl, _, rfl, rfl⟩, rfl, _, rfl, rfl, rfl⟩

/-- The second list. -/
def demoTarget : List (Ev Nat) :=
  [.op (.applyVecDiff (.replace [11, 1])), .poll 0 6, .op (.applyVecDiff (.insertAt 1 15)), .op (.applyVecDiff (.insertAt 0 14)),
    .op (.applyVecDiff (.push 5)), .op (.applyVecDiff (.insertAt 3 4)), .poll 0 6, .poll 0 6, .poll 0 6, .poll 0 6]

example : Copies [.replace [11, 1], .insertAt 1 15, .insertAt 0 14, .push 5, .insertAt 3 4] demoTarget ∧
    Held (World.init []) (.subscribe :: demoTarget) ∧
    received 0 (World.init []) (.subscribe :: demoTarget) =
      [.replace [11, 1], .insertAt 1 15, .insertAt 0 14, .push 5, .insertAt 3 4] :=
  ⟨rfl, held_of' (by simp [demoTarget]), rfl⟩

end MutVec

end Verif
