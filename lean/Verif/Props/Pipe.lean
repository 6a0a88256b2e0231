import Verif.PipeMut
import Verif.SourceProofs

/-!
# Pipelines (property C60)
-/

namespace Verif

variable {α β : Type}

/-- **C60** (partial).  For every pipeline of `map`, `filter_map`, `filter`, `sort_by_cloned`,
`enumerate` and `chain`, and everything that can happen at its inputs and output:
* the emitted diffs are applicable;
* if no `chain` is below another `chain`: whenever the last answer is `Pending` or the end, they
  describe the composition of the list functions, applied to what the inputs have sent.

If the pipeline contains a `filter` or `filter_map`, its inputs are assumed to send no `Move`
towards the front (`C11_filter_map_fails`).

Missing for the full claim: pipelines with a `chain` below another, for which the second part is
false (`C60_nested_chain_fails`), and inputs that move elements towards the front. -/
theorem C60_pipeline_partial (p : Pipe α β) (hl : p.Lawful) (src : Nat → Trace α)
    (c : Nat → List α) (hc : ∀ i, p.Uses i → replay (src i).diffs [] = some (c i))
    (hf : p.Filters → ∀ i, p.Uses i → ∀ d ∈ (src i).diffs, Fwd d)
    (t : Trace β) (he : p.Exec src t) :
    ∃ zs, replay t.diffs [] = some zs ∧ (p.Shallow → AtRest t → p.Spec c zs) :=
  pipe_track hl he hc hf

/-- **C60.**  Pipelines without `chain` lose no wake-up: if the last answer was `Pending`, then so
was the last answer of the pipeline's input, to a poll with the same waker; and the pipeline
reports its end only after its input did. -/
theorem C60_armed (p : Pipe α β) (hs : p.Straight) (src : Nat → Trace α) (t : Trace β)
    (he : p.Exec src t) :
    (∀ w, t.getLast? = some (w, .pending) → (src p.head).getLast? = some (w, .pending)) ∧
    ((∃ w, t.getLast? = some (w, .ready none)) →
      ∃ w, (src p.head).getLast? = some (w, .ready none)) :=
  pipe_last hs he

/-- **C60**, from a `MutableVec` to the end of a pipeline without `chain`.  Take any history of a
`MutableVec` and its subscribers, and attach a pipeline to subscriber `k`, which has not been dropped
before its end.  If the last answer of the pipeline was `Pending`, to a poll with waker `x`, then
* the emitted diffs describe the composition of the list functions, applied to the present
  contents of the `MutableVec`,
* or `x` has been woken since.
If the last answer was the end, the former is the case. -/
theorem C60_mutable_vec_partial (vs : List α) (h : List (MutVec.Ev α)) (w : MutVec.World α)
    (hr : (MutVec.World.init vs).runs h = some w) (p : Pipe α β) (hs : p.Straight) (hl : p.Lawful)
    (hf : p.Filters → ∀ d ∈ MutVec.received p.head (MutVec.World.init vs) h, Fwd d)
    (hlive : MutVec.Kept vs p.head h w) (t : Trace β)
    (he : p.Exec (fun k => MutVec.polled k (MutVec.World.init vs) h) t) :
    ∃ zs, replay t.diffs [] = some zs ∧
      (∀ x, t.getLast? = some (x, .pending) →
        p.Spec (fun _ => w.values) zs ∨ MutVec.WokenSince vs p.head h w x) ∧
      (∀ x, t.getLast? = some (x, .ready none) → p.Spec (fun _ => w.values) zs) := by
  obtain ⟨ys, hys⟩ := MutVec.polled_replay hr p.head
  obtain ⟨zs, g1, g2⟩ := straight_track (c := fun _ => ys) hs hl he
    (fun i hu => by rw [straight_uses hs hu]; exact hys)
    (fun hF i hu => by rw [straight_uses hs hu, MutVec.polled_diffs]; exact hf hF)
  have key : ∀ o, Rest o t → p.Spec (fun _ => w.values) zs ∨
      ∃ x, o = some x ∧ MutVec.WokenSince vs p.head h w x := by
    intro o ho
    have hrest : Rest o (MutVec.polled p.head (MutVec.World.init vs) h) :=
      ho.imp (fun ⟨x, e, h⟩ => ⟨x, e, (pipe_last hs he).1 x h⟩) (pipe_last hs he).2
    rcases MutVec.polled_rest hr hlive hrest with h1 | h1
    · left
      cases hys.symm.trans h1
      exact g2 (AtRest.calm (ho.elim (fun ⟨x, _, h⟩ => ⟨x, _, h, .inl rfl⟩)
        fun ⟨y, h⟩ => ⟨y, _, h, .inr rfl⟩))
    · exact .inr h1
  refine ⟨zs, g1, fun x hx => ?_, fun x hx => ?_⟩
  · exact (key (some x) (.inl ⟨x, rfl, hx⟩)).imp id fun ⟨y, e, h⟩ => by cases e; exact h
  · exact (key none (.inr ⟨x, hx⟩)).elim id fun ⟨y, e, _⟩ => by cases e

/-- **C60**, from several subscribers of a `MutableVec` to the end of a pipeline in which no
`chain` is below another.  If every subscriber at the start of the pipeline has received everything
(its next poll would not give a diff) and the last answer of the pipeline was `Pending` or the end,
then the emitted diffs describe the composition of the list functions, applied to the present
contents of the `MutableVec`. -/
theorem C60_mutable_vec_chain_partial (vs : List α) (h : List (MutVec.Ev α)) (w : MutVec.World α)
    (hr : (MutVec.World.init vs).runs h = some w) (p : Pipe α β) (hs : p.Shallow) (hl : p.Lawful)
    (hf : p.Filters → ∀ i, p.Uses i → ∀ d ∈ MutVec.received i (MutVec.World.init vs) h, Fwd d)
    (hlive : ∀ i, p.Uses i → w.rxLive i = true)
    (hdone : ∀ i, p.Uses i → ∀ cx d, (w.pollRx i cx).1 ≠ .ready (some d)) (t : Trace β)
    (he : p.Exec (fun k => MutVec.polled k (MutVec.World.init vs) h) t) (ht : AtRest t) :
    ∃ zs, replay t.diffs [] = some zs ∧ p.Spec (fun _ => w.values) zs := by
  obtain ⟨zs, g1, g2⟩ := pipe_track (c := fun _ => w.values) hl he
    (fun i hu => by
      rw [MutVec.polled_diffs]
      exact MutVec.C01_caught_up vs h w hr i (hlive i hu) 0 (hdone i hu 0))
    (fun hF i hu => by rw [MutVec.polled_diffs]; exact hf hF i hu)
  exact ⟨zs, g1, g2 hs ht⟩

/-- **C60 is false for nested chains**: in `a.chain(b).chain(c)`, let `c` hold 7 and everything
else be empty.  Then `a` is replaced by nothing, and 5 is pushed to `b`.  The inner chain
emits the vacuous `Replace []` and keeps `Push 5` for its next poll; the outer chain has nothing to
emit for `Replace []` and answers `Pending`.  Although all three inputs have delivered everything,
the output is `[7]` instead of `[5, 7]`, and since no input has anything new, nobody will be
woken. -/
theorem C60_nested_chain_fails :
    ∃ (src : Nat → Trace Nat) (c : Nat → List Nat) (t : Trace Nat) (zs : List Nat),
      (∀ i, replay (src i).diffs [] = some (c i)) ∧
      ((Pipe.source 0).chain (.source 1) |>.chain (.source 2)).Exec src t ∧ AtRest t ∧
      replay t.diffs [] = some zs ∧
      ¬ ((Pipe.source 0).chain (.source 1) |>.chain (.source 2)).Spec c zs := by
  refine ⟨fun i => match i with
      | 0 => [(0, .pending), (0, .ready (some (.replace [])))]
      | 1 => [(0, .pending), (0, .ready (some (.push 5)))]
      | 2 => [(0, .ready (some (.replace [7]))), (0, .pending), (0, .pending)]
      | _ => [],
    fun i => match i with
      | 1 => [5]
      | 2 => [7]
      | _ => [],
    [(0, .ready (some (.replace [7]))), (0, .pending)], [7], ?_, ?_, ?_, by decide, ?_⟩
  · intro i
    match i with
    | 0 => rfl
    | 1 => rfl
    | 2 => rfl
    | _ + 3 => rfl
  · exact ⟨[(0, .pending), (0, .ready (some (.replace [])))], _,
      ⟨_, _, rfl, rfl, _, rfl, rfl, rfl⟩, rfl, _, rfl, rfl, rfl⟩
  · exact ⟨0, _, rfl, .inl rfl⟩
  · rintro ⟨xs, xs', ⟨a, b, rfl, rfl, rfl⟩, rfl, h⟩
    simp at h

/-! ## Non-vacuity -/

/-- `vec.signal_vec().filter(odd).sort_by_cloned(byDigit)`. -/
def demoPipe : Pipe Nat Nat := ((Pipe.source 0).filter (· % 2 == 1)).sort demoFns byDigit

/-- A `MutableVec` with a subscriber, as polled by `demoPipe` with waker 9. -/
def demoHist : List (MutVec.Ev Nat) :=
  [.subscribe, .poll 0 9, .op (.push 4), .op (.push 5), .op (.moveFromTo 0 3), .op (.insert 1 21),
   .poll 0 9, .poll 0 9, .poll 0 9, .poll 0 9, .poll 0 9]

/-- What `demoPipe` answers. -/
def demoOut : Trace Nat :=
  [(9, .ready (some (.replace [1, 3]))), (9, .ready (some (.push 5))),
   (9, .ready (some (.insertAt 1 21))), (9, .pending)]

example : demoPipe.Straight ∧ demoPipe.Shallow ∧ demoPipe.Lawful :=
  ⟨trivial, trivial, demoFns_lawful, byDigit_preorder, trivial⟩

theorem demoPipe_exec (more : List (MutVec.Ev Nat)) (hm : more = [] ∨ more = [.op (.push 7)]) :
    demoPipe.Exec (fun k => MutVec.polled k (MutVec.World.init [3, 1, 2]) (demoHist ++ more))
      demoOut := by
  refine ⟨[(9, .ready (some (.replace [3, 1]))), (9, .ready (some (.push 5))),
    (9, .ready (some (.move 0 1))), (9, .ready (some (.insertAt 1 21))), (9, .pending)],
    ⟨_, rfl, ?_⟩, _, rfl, rfl⟩
  rcases hm with rfl | rfl <;> exact ⟨_, rfl, rfl⟩

/-- The hypotheses of `C60_mutable_vec_partial` can be met, with the first outcome ... -/
example : ∃ w, (MutVec.World.init [3, 1, 2]).runs demoHist = some w ∧ w.rxLive demoPipe.head = true ∧
    (∀ d ∈ MutVec.received demoPipe.head (MutVec.World.init [3, 1, 2]) demoHist, Fwd d) ∧
    w.values = [1, 21, 2, 4, 3, 5] ∧ w.woken = [] ∧ replay demoOut.diffs [] = some [1, 21, 3, 5] :=
  ⟨_, rfl, by decide, by
    intro d hd
    have : d ∈ [VecDiff.replace [3, 1, 2], .push 4, .push 5, .move 0 3, .insertAt 1 21] := hd
    simp at this
    rcases this with rfl | rfl | rfl | rfl | rfl <;> intro i j h <;> cases h
    omega, by decide, by decide, by decide⟩

/-- ... and with the second. -/
example : ∃ w, (MutVec.World.init [3, 1, 2]).runs (demoHist ++ [.op (.push 7)]) = some w ∧
    w.rxLive demoPipe.head = true ∧ w.values = [1, 21, 2, 4, 3, 5, 7] ∧ w.woken = [9] :=
  ⟨_, rfl, by decide, by decide, by decide⟩

/-- `a.filter(odd).chain(a.enumerate().map(..))` with two subscribers of one `MutableVec`, polled
with waker 4. -/
def demoPipe2 : Pipe Nat Nat :=
  ((Pipe.source 0).filter (· % 2 == 1)).chain ((Pipe.source 1).enumerate.map fun q => q.2 * 10)

def demoHist2 : List (MutVec.Ev Nat) :=
  [.subscribe, .subscribe, .poll 0 4, .poll 1 4, .op (.push 4), .op (.push 5), .poll 0 4, .poll 0 4,
   .poll 0 4, .poll 1 4, .poll 0 4, .poll 1 4, .poll 0 4, .poll 1 4]

def demoOut2 : Trace Nat :=
  [(4, .ready (some (.replace [3, 30, 20]))), (4, .ready (some (.insertAt 1 5))),
   (4, .ready (some (.push 40))), (4, .ready (some (.push 50))), (4, .pending)]

example : demoPipe2.Shallow ∧ demoPipe2.Lawful ∧ AtRest demoOut2 :=
  ⟨⟨trivial, trivial⟩, ⟨trivial, trivial⟩, 4, _, rfl, .inl rfl⟩

example : ∃ w, (MutVec.World.init [3, 2]).runs demoHist2 = some w ∧
    (∀ i, demoPipe2.Uses i → w.rxLive i = true ∧ ∀ cx d, (w.pollRx i cx).1 ≠ .ready (some d)) ∧
    replay demoOut2.diffs [] = some [3, 5, 30, 20, 40, 50] ∧
    demoPipe2.Exec (fun k => MutVec.polled k (MutVec.World.init [3, 2]) demoHist2) demoOut2 := by
  refine ⟨_, rfl, ?_, by decide, ?_⟩
  · intro i hi
    rcases hi with rfl | rfl <;> exact ⟨rfl, by intro cx d h; cases h⟩
  · exact ⟨[(4, .ready (some (.replace [3]))), (4, .ready (some (.push 5))), (4, .pending),
        (4, .pending), (4, .pending)],
      [(4, .ready (some (.replace [30, 20]))), (4, .ready (some (.push 40))),
        (4, .ready (some (.push 50))), (4, .pending)],
      ⟨_, rfl, _, rfl, rfl⟩,
      ⟨[(4, .ready (some (.replace [(0, 3), (1, 2)]))), (4, .ready (some (.push (2, 4)))),
        (4, .ready (some (.push (3, 5)))), (4, .pending)], ⟨_, rfl, _, rfl, rfl⟩, _, rfl, rfl⟩,
      _, rfl, rfl, rfl⟩

end Verif
