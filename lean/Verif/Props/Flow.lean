import Verif.FlowProofs
import Verif.Props.Sink

/-!
# Pipelines whose elements have signals of their own (property C69)
-/

namespace Verif

variable {ν α β γ : Type}

/-- **C69** (partial: without `chain`, and without backward moves if the pipeline filters).  A
pipeline may contain `map_signal` and `filter_signal_cloned` at any places.  Suppose the signals made
by the closures start with a value, and `cur n` is the last value of every held signal of source `n`
that is at rest (ended, or waiting for a poll with the waker `x`).  If the pipeline is at rest, then
so is its input, and the emitted diffs describe the composition of the list functions, applied to
what the input has sent and to the values `cur`. -/
theorem C69_pipeline_partial [Inhabited ν] (f : Flow ν α β) (hl : f.Lawful) (src : Trace α)
    (inn : Inner ν) (hi : ∀ n k, inn.trace n k = [] ∨
      ∃ b, (inn.trace n k).head?.map (·.2) = some (.ready (some b)))
    (xs : List α) (hx : replay src.diffs [] = some xs)
    (hf : f.Filters → ∀ d ∈ src.diffs, Fwd d) (t : Trace β) (he : f.Exec src inn t) :
    ∃ zs, replay t.diffs [] = some zs ∧
      ∀ o, Rest o t → Rest o src ∧
        ∀ cur : Nat → ν, (∀ n k, inn.held n k → Rest o (inn.trace n k) →
          (inn.trace n k).last = some (cur n)) → f.Spec xs cur zs := by
  obtain ⟨zs, g1, -, g2⟩ := flow_track hi hx f hl hf he
  exact ⟨zs, g1, fun o ho => ⟨(g2 o ho).1, fun cur hc => (g2 o ho).2 cur ⟨hc⟩⟩⟩

/-- **C69**, from a `MutableVec` and any number of `Mutable`s to the end of a pipeline with
`map_signal` and `filter_signal_cloned`.  Take any history of a `MutableVec` and its subscribers, and
for each `n` any history of a `Mutable` and its signals (`mine` are those made by the closures of the
pipeline), and attach the pipeline to subscriber `j`; for the element `x` the closures make `mutables[name(x)].signal()`.
Neither the subscriber nor a signal of a present element has been dropped before its end.
If the last answer of the pipeline was `Pending`, to a poll with waker `x`, then
* the emitted diffs describe the composition of the list functions, applied to the present
  contents of the `MutableVec` and the present values of the `Mutable`s,
* or `x` has been woken since, by the `MutableVec` or by one of the `Mutable`s (since the last poll
  of the subscriber or of a signal of the pipeline, which was with `x`).
If the last answer was the end, the former is the case. -/
theorem C69_mutables_partial [Inhabited ν]
    (vs : List α) (h : List (MutVec.Ev α)) (w : MutVec.World α)
    (hr : (MutVec.World.init vs).runs h = some w) (j : Nat) (hlive : MutVec.Kept vs j h w)
    (init : Nat → ν) (hist : Nat → List (Mut.Ev ν)) (os : Nat → List (Mut.Obs ν))
    (m : Nat → Mut.World ν) (hm : ∀ n, (Mut.World.new (init n)).runs (hist n) = some (os n, m n))
    (mine : Nat → Nat → Prop)
    (f : Flow ν α β) (hl : f.Lawful)
    (hf : f.Filters → ∀ d ∈ MutVec.received j (MutVec.World.init vs) h, Fwd d) (t : Trace β)
    (he : f.Exec (MutVec.polled j (MutVec.World.init vs) h)
      ⟨fun n k => Mut.polled k (hist n) (os n), fun n k => mine n k ∧ Mut.Kept (m n) k (hist n) (os n)⟩ t) :
    ∃ zs, replay t.diffs [] = some zs ∧
      (∀ x, t.getLast? = some (x, .pending) →
        f.Spec w.values (fun n => (m n).value) zs ∨
        MutVec.WokenSince vs j h w x ∨ ∃ n k, mine n k ∧ Mut.WokenSince (init n) k (hist n) (m n) x) ∧
      (∀ x, t.getLast? = some (x, .ready none) →
        f.Spec w.values (fun n => (m n).value) zs) := by
  obtain ⟨ys, hys⟩ := MutVec.polled_replay hr j
  have hd := MutVec.polled_diffs j (MutVec.World.init vs) h
  obtain ⟨zs, g1, g2⟩ := C69_pipeline_partial f hl _ _ (fun n k => (Mut.polled_value k (hm n)).1)
    ys hys (fun hF => by rw [hd]; exact hf hF) t he
  have hval : ∀ n, Mut.valueAfter (init n) (hist n) = (m n).value := fun n =>
    (Mut.C34_refines (init n) (hist n) (os n) (m n) (hm n)).2.2.symm
  have key : ∀ o, Rest o t → f.Spec w.values (fun n => (m n).value) zs ∨
      ∃ x, o = some x ∧ (MutVec.WokenSince vs j h w x ∨
        ∃ n k, mine n k ∧ Mut.WokenSince (init n) k (hist n) (m n) x) := by
    intro o ho
    obtain ⟨g3, g4⟩ := g2 o ho
    by_cases hw : ∃ x, o = some x ∧ ∃ n k, mine n k ∧ Mut.WokenSince (init n) k (hist n) (m n) x
    · obtain ⟨x, e, hw⟩ := hw
      exact .inr ⟨x, e, .inr hw⟩
    · have hspec := g4 (fun n => (m n).value) fun n k hh hrest => by
        rcases Mut.polled_rest (hm n) hh.2 hrest with h1 | ⟨x, hx, h1⟩
        · rw [← hval]; exact h1
        · exact absurd ⟨x, hx, n, k, hh.1, h1⟩ hw
      rcases MutVec.polled_rest hr hlive g3 with h1 | ⟨x, e, h1⟩
      · cases hys.symm.trans h1
        exact .inl hspec
      · exact .inr ⟨x, e, .inl h1⟩
  refine ⟨zs, g1, fun x hx => ?_, fun x hx => ?_⟩
  · exact (key (some x) (.inl ⟨x, rfl, hx⟩)).imp id fun ⟨y, e, h⟩ => by cases e; exact h
  · exact (key none (.inr ⟨x, hx⟩)).elim id fun ⟨y, e, _⟩ => by cases e

/-- **C69**, with `to_signal_map`, `to_signal_cloned`, `sum`, `len` or `is_empty` at the end.  Suppose
the signal has been polled, the last time with waker `x`.  Then the value last produced is the
function of the present contents of the `MutableVec` and the present values of the `Mutable`s, or
`x` has been woken since.  If the last answer was the end, the former is the case. -/
theorem C69_signal_partial [Inhabited ν]
    (vs : List α) (h : List (MutVec.Ev α)) (w : MutVec.World α)
    (hr : (MutVec.World.init vs).runs h = some w) (j : Nat) (hlive : MutVec.Kept vs j h w)
    (init : Nat → ν) (hist : Nat → List (Mut.Ev ν)) (os : Nat → List (Mut.Obs ν))
    (m : Nat → Mut.World ν) (hm : ∀ n, (Mut.World.new (init n)).runs (hist n) = some (os n, m n))
    (mine : Nat → Nat → Prop)
    (f : Flow ν α β) (hl : f.Lawful)
    (hf : f.Filters → ∀ d ∈ MutVec.received j (MutVec.World.init vs) h, Fwd d)
    (k : Sink β γ) (hk : k.Lawful) (u : Trace β)
    (he : f.Exec (MutVec.polled j (MutVec.World.init vs) h)
      ⟨fun n k => Mut.polled k (hist n) (os n), fun n k => mine n k ∧ Mut.Kept (m n) k (hist n) (os n)⟩ u)
    (t : SigTrace γ) (ht : k.Exec u t) (x : Waker) (r : Poll (Option γ))
    (hx : t.getLast? = some (x, r)) :
    (∃ zs, f.Spec w.values (fun n => (m n).value) zs ∧ t.last = some (k.value zs)) ∨
    (r ≠ .ready none ∧ (MutVec.WokenSince vs j h w x ∨
      ∃ n k, mine n k ∧ Mut.WokenSince (init n) k (hist n) (m n) x)) := by
  obtain ⟨zs, g1, g2, g3⟩ := C69_mutables_partial vs h w hr j hlive init hist os m hm mine f hl hf u he
  have hne : t ≠ [] := by rintro rfl; simp at hx
  obtain ⟨k1, -⟩ := k.last_value hk ht g1 hne
  rcases k.rest ht hx with ⟨hu, hr'⟩ | ⟨y, hu⟩
  · rcases g2 x hu with g2 | g2
    · exact .inl ⟨zs, g2, k1⟩
    · exact .inr ⟨hr', g2⟩
  · exact .inl ⟨zs, g3 y hu, k1⟩

/-! ## Non-vacuity -/

/-- `list.signal_vec().filter_signal_cloned(|i| m[i].signal().map(|v| v > 5))
.map_signal(|i| m[i].signal().map(|v| 2 * v))` -/
def demoFlow : Flow Nat Nat Nat := .mapSignal id (2 * ·) (.filterSignal id (fun v => decide (5 < v)) .source)

/-- The list is `[0, 1]`. -/
def demoFlowList : List (MutVec.Ev Nat) := .subscribe :: List.replicate 7 (.poll 0 9)

/-- `m[0]` is 3 at first, then it becomes 10; `m[1]` is 7. -/
def demoFlowMut : Nat → List (Mut.Ev Nat)
  | 0 => [.signal, .poll 0 9, .poll 0 9, .poll 0 9, .poll 0 9, .set 10, .poll 0 9, .poll 0 9, .signal,
      .poll 1 9, .poll 0 9, .poll 1 9, .poll 0 9, .poll 1 9]
  | 1 => [.signal, .poll 0 9, .poll 0 9, .signal, .poll 1 9, .poll 0 9, .poll 1 9, .poll 0 9, .poll 1 9,
      .poll 0 9, .poll 0 9, .poll 1 9, .poll 0 9, .poll 1 9]
  | _ => []

def demoFlowInit (n : Nat) : Nat := if n = 0 then 3 else 7

/-- Later, `m[0]` may become 1. -/
def demoFlowMut' (late : Bool) (n : Nat) : List (Mut.Ev Nat) :=
  demoFlowMut n ++ if late ∧ n = 0 then [.set 1] else []

def demoFlowOut : Trace Nat :=
  [(9, .ready (some (.replace [14]))), (9, .pending), (9, .ready (some (.insertAt 0 20))), (9, .pending)]

/-- The hypotheses of `C69_mutables_partial` are met, and both cases of its conclusion occur: the
output is `[20, 14]`, that is right at first, and after the late change of `m[0]` the waker 9 has been
woken. -/
example (late : Bool) : ∃ (w : MutVec.World Nat) (os : Nat → List (Mut.Obs Nat))
    (m : Nat → Mut.World Nat), (MutVec.World.init [0, 1]).runs demoFlowList = some w ∧
    w.rxLive 0 = true ∧ w.values = [0, 1] ∧
    (∀ n, (Mut.World.new (demoFlowInit n)).runs (demoFlowMut' late n) = some (os n, m n)) ∧
    demoFlow.Lawful ∧ (∀ d ∈ MutVec.received 0 (MutVec.World.init [0, 1]) demoFlowList, Fwd d) ∧
    demoFlow.Exec (MutVec.polled 0 (MutVec.World.init [0, 1]) demoFlowList)
      ⟨fun n k => Mut.polled k (demoFlowMut' late n) (os n), fun n k => k < 2 ∧ Mut.Kept (m n) k (demoFlowMut' late n) (os n)⟩ demoFlowOut ∧
    replay demoFlowOut.diffs [] = some [20, 14] ∧
    (late = false → demoFlow.Spec w.values (fun n => (m n).value) [20, 14]) ∧
    (late = true → (m 0).value = 1 ∧ ¬ demoFlow.Spec w.values (fun n => (m n).value) [20, 14] ∧
      (m 0).woken = [9, 9, 9]) := by
  let m : Nat → Mut.World Nat := fun n =>
    (((Mut.World.new (demoFlowInit n)).runs (demoFlowMut' late n)).getD ([], Mut.World.new 0)).2
  let os : Nat → List (Mut.Obs Nat) := fun n =>
    (((Mut.World.new (demoFlowInit n)).runs (demoFlowMut' late n)).getD ([], Mut.World.new 0)).1
  have hm : ∀ n, (Mut.World.new (demoFlowInit n)).runs (demoFlowMut' late n) = some (os n, m n) := by
    intro n
    match n with
    | 0 => cases late <;> rfl
    | 1 => cases late <;> rfl
    | n + 2 => cases late <;> rfl
  refine ⟨_, os, m, rfl, rfl, rfl, hm, trivial, ?_, ?_, rfl, ?_, ?_⟩
  · have : MutVec.received 0 (MutVec.World.init [0, 1]) demoFlowList = [.replace [0, 1]] := by rfl
    rw [this]
    simp [Fwd]
  · refine ⟨[(9, .ready (some (.replace [(1, 1)]))), (9, .pending), (9, .pending),
      (9, .ready (some (.insertAt 0 (0, 1)))), (9, .pending), (9, .pending)],
      ⟨[(9, .ready (some (.replace [(0, 0), (1, 0)])))] ++ List.replicate 6 (9, .pending),
        [(9, .ready (some (.replace [(1, 0)]))), (9, .pending), (9, .pending),
        (9, .ready (some (.insertAt 0 (0, 0)))), (9, .pending), (9, .pending)],
        by simp only [Flow.Exec]; rfl, rfl, ?_⟩, ?_⟩
    · cases late <;> refine ⟨_, rfl, rfl, ?_⟩ <;>
      · intro x hx
        simp at hx
        rcases hx with rfl | rfl <;> exact ⟨rfl, by decide, .inl ⟨by decide, by decide⟩⟩
    · cases late <;> refine ⟨_, rfl, rfl, ?_⟩ <;>
      · intro x hx
        simp at hx
        rcases hx with rfl | rfl <;> exact ⟨rfl, by decide, .inl ⟨by decide, by decide⟩⟩
  · rintro rfl
    exact ⟨[0, 1], ⟨[0, 1], rfl, rfl⟩, rfl⟩
  · rintro rfl
    refine ⟨rfl, ?_, rfl⟩
    rintro ⟨xs, ⟨ys, h1, h2⟩, h3⟩
    subst h1 h2
    exact absurd h3 (by decide)

end Verif
