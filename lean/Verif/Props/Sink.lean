import Verif.SinkProofs
import Verif.Props.Pipe

/-!
# Signals at the end of a pipeline (property C67)
-/

namespace Verif

variable {α β γ : Type}

/-- **C67** (partial; the restrictions are those of `C60_pipeline_partial`).  Put `to_signal_map`,
`to_signal_cloned`, `sum`, `len` or `is_empty` at the end of a pipeline in which no `chain` is below
another.  After every poll, whatever its answer, the value last produced is the function of the
composition of the list functions, applied to what the inputs have sent; and the first poll
produces a value. -/
theorem C67_pipeline_partial (p : Pipe α β) (hs : p.Shallow) (hl : p.Lawful) (k : Sink β γ)
    (hk : k.Lawful) (src : Nat → Trace α)
    (c : Nat → List α) (hc : ∀ i, p.Uses i → replay (src i).diffs [] = some (c i))
    (hf : p.Filters → ∀ i, p.Uses i → ∀ d ∈ (src i).diffs, Fwd d)
    (u : Trace β) (he : p.Exec src u) (t : SigTrace γ) (ht : k.Exec u t) (hne : t ≠ []) :
    (∃ zs, p.Spec c zs ∧ t.last = some (k.value zs)) ∧
    ∃ b, t.head?.map (·.2) = some (.ready (some b)) := by
  obtain ⟨zs, g1, g2⟩ := C60_pipeline_partial p hl src c hc hf u he
  obtain ⟨k1, k2⟩ := k.last_value hk ht g1 hne
  refine ⟨⟨zs, g2 hs ?_, k1⟩, k2⟩
  obtain ⟨⟨x, r⟩, hx⟩ : ∃ q, t.getLast? = some q := by
    cases h : t.getLast? with
    | none => exact absurd (List.getLast?_eq_none_iff.1 h) hne
    | some q => exact ⟨q, rfl⟩
  rcases k.rest ht hx with ⟨h, -⟩ | ⟨y, h⟩
  · exact ⟨_, _, h, .inl rfl⟩
  · exact ⟨_, _, h, .inr rfl⟩

/-- **C67**, from a `MutableVec` to a signal.  Take any history of a `MutableVec` and its
subscribers, and attach to subscriber `k`, which has not been dropped before its end, a pipeline without
`chain` that ends in `to_signal_map`, `to_signal_cloned`, `sum`, `len` or `is_empty`.  Suppose it
has been polled, the last time with waker `x`.  Then
* the value last produced is the function of the present contents of the `MutableVec`,
* or `x` has been woken since.
If the last answer was the end, the former is the case. -/
theorem C67_mutable_vec_partial (vs : List α) (h : List (MutVec.Ev α)) (w : MutVec.World α)
    (hr : (MutVec.World.init vs).runs h = some w) (p : Pipe α β) (hs : p.Straight) (hl : p.Lawful)
    (hf : p.Filters → ∀ d ∈ MutVec.received p.head (MutVec.World.init vs) h, Fwd d)
    (hlive : MutVec.Kept vs p.head h w) (k : Sink β γ) (hk : k.Lawful) (u : Trace β)
    (he : p.Exec (fun k => MutVec.polled k (MutVec.World.init vs) h) u)
    (t : SigTrace γ) (ht : k.Exec u t) (x : Waker) (r : Poll (Option γ))
    (hx : t.getLast? = some (x, r)) :
    (∃ zs, p.Spec (fun _ => w.values) zs ∧ t.last = some (k.value zs)) ∨
    (r ≠ .ready none ∧ MutVec.WokenSince vs p.head h w x) := by
  obtain ⟨zs, g1, g2, g3⟩ := C60_mutable_vec_partial vs h w hr p hs hl hf hlive u he
  have hne : t ≠ [] := by rintro rfl; simp at hx
  obtain ⟨k1, -⟩ := k.last_value hk ht g1 hne
  rcases k.rest ht hx with ⟨hu, hr'⟩ | ⟨y, hu⟩
  · rcases g2 x hu with g2 | g2
    · exact .inl ⟨zs, g2, k1⟩
    · exact .inr ⟨hr', g2⟩
  · exact .inl ⟨zs, g3 y hu, k1⟩

/-- **C67**, from several subscribers of a `MutableVec` to a signal, through a pipeline in which no
`chain` is below another: if every subscriber at the start of the pipeline has received everything
(its next poll would not give a diff), then the value last produced is the function of the present
contents of the `MutableVec`. -/
theorem C67_mutable_vec_chain_partial (vs : List α) (h : List (MutVec.Ev α)) (w : MutVec.World α)
    (hr : (MutVec.World.init vs).runs h = some w) (p : Pipe α β) (hs : p.Shallow) (hl : p.Lawful)
    (hf : p.Filters → ∀ i, p.Uses i → ∀ d ∈ MutVec.received i (MutVec.World.init vs) h, Fwd d)
    (hlive : ∀ i, p.Uses i → w.rxLive i = true)
    (hdone : ∀ i, p.Uses i → ∀ cx d, (w.pollRx i cx).1 ≠ .ready (some d))
    (k : Sink β γ) (hk : k.Lawful) (u : Trace β)
    (he : p.Exec (fun k => MutVec.polled k (MutVec.World.init vs) h) u)
    (t : SigTrace γ) (ht : k.Exec u t) (hne : t ≠ []) :
    ∃ zs, p.Spec (fun _ => w.values) zs ∧ t.last = some (k.value zs) :=
  (C67_pipeline_partial p hs hl k hk _ (fun _ => w.values)
    (fun i hu => by
      rw [MutVec.polled_diffs]
      exact MutVec.C01_caught_up vs h w hr i (hlive i hu) 0 (hdone i hu 0))
    (fun hF i hu => by rw [MutVec.polled_diffs]; exact hf hF i hu) u he t ht hne).1

/-! ## Non-vacuity -/

/-- `demoPipe` followed by `sum`, `to_signal_cloned`, `len`, `is_empty`, in the history
`demoHist`: the first poll consumes the first answer of the subscriber ... -/
def demoHistS : List (MutVec.Ev Nat) :=
  [.subscribe, .poll 0 9, .poll 0 9, .op (.push 4), .op (.push 5), .op (.moveFromTo 0 3),
   .op (.insert 1 21), .poll 0 9, .poll 0 9, .poll 0 9, .poll 0 9, .poll 0 9]

def demoOutS : Trace Nat :=
  [(9, .ready (some (.replace [1, 3]))), (9, .pending), (9, .ready (some (.push 5))),
   (9, .ready (some (.insertAt 1 21))), (9, .pending)]

/-- ... and the second the other ones; afterwards nothing has been woken, or the waker has. -/
example : ∃ w w', (MutVec.World.init [3, 1, 2]).runs demoHistS = some w ∧
    (MutVec.World.init [3, 1, 2]).runs (demoHistS ++ [.op (.push 7)]) = some w' ∧
    w.rxLive demoPipe.head = true ∧ w.values = [1, 21, 2, 4, 3, 5] ∧ w.woken = [9] ∧
    w'.rxLive demoPipe.head = true ∧ w'.values = [1, 21, 2, 4, 3, 5, 7] ∧ w'.woken = [9, 9] ∧
    (∀ more, more = [] ∨ more = [MutVec.Ev.op (.push 7)] → demoPipe.Exec
      (fun k => MutVec.polled k (MutVec.World.init [3, 1, 2]) (demoHistS ++ more)) demoOutS) ∧
    (Sink.sum (· + ·) 0).Exec demoOutS [(9, .ready (some 4)), (9, .ready (some 30))] ∧
    Sink.toSignalCloned.Exec demoOutS
      [(9, .ready (some [1, 3])), (9, .ready (some [1, 21, 3, 5]))] ∧
    Sink.len.Exec demoOutS [(9, .ready (some 2)), (9, .ready (some 4))] ∧
    Sink.isEmpty.Exec demoOutS [(9, .ready (some false)), (9, .pending)] := by
  refine ⟨_, _, rfl, rfl, by decide, by decide, by decide, by decide, by decide, by decide, ?_,
    ⟨_, rfl, rfl⟩, ⟨_, rfl, rfl⟩, ⟨_, rfl, rfl⟩, ⟨_, rfl, rfl⟩⟩
  intro more hm
  refine ⟨[(9, .ready (some (.replace [3, 1]))), (9, .pending), (9, .ready (some (.push 5))),
    (9, .ready (some (.move 0 1))), (9, .ready (some (.insertAt 1 21))), (9, .pending)],
    ⟨_, rfl, ?_⟩, _, rfl, rfl⟩
  rcases hm with rfl | rfl <;> exact ⟨_, rfl, rfl⟩

example : (Sink.sum (β := Nat) (· + ·) 0).Lawful :=
  ⟨Nat.add_comm, Nat.add_assoc⟩

end Verif
