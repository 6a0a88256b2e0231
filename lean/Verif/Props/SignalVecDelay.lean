import Verif.DelayProofs
import Verif.Polite
import Verif.Props.SignalVecMap

/-!
# `SignalVec::delay_remove` (property C17, and C57–C59 for it)
-/

namespace Verif

variable {α : Type}

/-- **C17.**  `delay_remove`: for every well-formed input history, all futures (`g a` is the script
of the future made from `a`) and every schedule of polls, no poll panics and the emitted diffs are
applicable.  With `zs` the contents they describe and `s` the final state:
* `s.futures` has one entry per element of the output once the queued diffs are delivered too (which
  they are whenever the last answer is `Pending` or the end); without those being removed, it is
  exactly the contents of the input;
* the future of every element still there is not ready; it was polled iff the element is being
  removed;
* every removal ever emitted is the removal of an element whose future is ready, and its last poll
  is the one that said so;
* after `Pending`, the future of every element being removed answered `Pending` during that poll
  (so an element whose future is ready disappears at the next poll), and if the input has ended,
  there is such an element;
* the end is reported only when the input has ended and no removal is outstanding; the output is then
  exactly the contents of the input. -/
theorem C17_delay_remove (g : α → List (Poll Unit)) (script : List (Poll (Option (VecDiff α))))
    (hwf : ∃ z, replay (items script) [] = some z) (ws : List Waker) :
    ∃ outs s xs zs, run (VDelay.poll g) ws (VDelay.init script) = some (outs, s) ∧
      replay s.signal.src.got [] = some xs ∧
      replay (items outs) [] = some zs ∧
      replay s.pending zs = some (s.futures.map (·.tag)) ∧
      ((s.futures.filter (!·.isRemoving)).map (·.tag) = xs) ∧
      (∀ t ∈ s.futures, Plays (g t.tag) t.future ∧ ¬ t.future.completed ∧
        (t.isRemoving = true ↔ t.future.hist ≠ [])) ∧
      ((items outs ++ s.pending).countP VecDiff.isRemoval = s.gone.length) ∧
      (∀ t ∈ s.gone, Plays (g t.tag) t.future ∧
        ∃ pre w, t.future.hist = pre ++ [(w, .ready ())] ∧ ∀ x ∈ pre, x.2 = .pending) ∧
      (outs.getLast? = some .pending → s.pending = [] ∧
        (∀ t ∈ s.futures, t.isRemoving = true → ∃ w, t.future.armed w) ∧
        (s.signal.src.ended → ∃ t ∈ s.futures, t.isRemoving = true)) ∧
      (.ready none ∈ outs → s.pending = [] ∧ s.signal.src.ended ∧
        (∀ t ∈ s.futures, t.isRemoving = false) ∧ zs = xs) := by
  obtain ⟨outs, s, h1, xs, zs, h2, h3, h4, h5⟩ := run_rule (poll := VDelay.poll g)
    (fun outs s => ∃ xs zs, replay (items outs) [] = some zs ∧
      DelayInv anyDiff g s xs zs ((items outs).countP VecDiff.isRemoval) ∧
      (outs.getLast? = some .pending → s.pending = [] ∧
        (∀ t ∈ s.futures, t.isRemoving = true → ∃ w, t.future.armed w) ∧
        (s.signal.alive = false → ∃ t ∈ s.futures, t.isRemoving = true)) ∧
      (.ready none ∈ outs → s.pending = [] ∧ s.signal.alive = false ∧
        (∀ t ∈ s.futures, t.isRemoving = false)))
    (by
      rintro w outs s ⟨xs, zs, h1, h2, -, -⟩ hne
      obtain ⟨r, s', hp, hr⟩ := VDelay.step w h2
      refine ⟨r, s', hp, ?_⟩
      match r with
      | .ready (some d) =>
        obtain ⟨xs', zs', hd, hi⟩ := hr
        refine ⟨xs', zs', ?_, ?_, by simp, fun h => by simp [hne] at h⟩
        · rw [items_append]
          exact replay_append_some h1 (by simp [replay, hd])
        · rw [items_append, List.countP_append]
          simpa [List.countP_cons] using hi
      | .ready none =>
        obtain ⟨a1, a2, a3, xs', hi⟩ := hr
        exact ⟨xs', zs, by rw [items_append]; simpa using h1, by rw [items_append]; simpa using hi,
          by simp, fun _ => ⟨a2, a1, a3⟩⟩
      | .pending =>
        obtain ⟨a1, a2, a3, a4, xs', hi⟩ := hr
        exact ⟨xs', zs, by rw [items_append]; simpa using h1, by rw [items_append]; simpa using hi,
          fun _ => ⟨a2, fun t ht hr => ⟨w, a3 t ht hr⟩, a4⟩, fun h => by simp [hne] at h⟩)
    ws [] (VDelay.init script)
    ⟨[], [], rfl, ⟨Inp.ok_mk' _, valid_mk' (feed_any.2 hwf), rfl, rfl, by simp [VDelay.init],
      by simp [VDelay.init], rfl⟩, by simp, by simp⟩ (by simp)
  simp only [List.nil_append] at h2 h3 h4 h5
  have hv := h3.vars
  refine ⟨outs, s, xs, zs, h1, h3.valid.now, h2, hv.queue, hv.live,
    fun t ht => ⟨(hv.ok t ht).plays, (hv.ok t ht).waiting, (hv.ok t ht).polled⟩, ?_,
    fun t ht => ⟨(hv.gone t ht).plays, (hv.gone t ht).ready⟩, fun h => ?_, fun h => ?_⟩
  · rw [List.countP_append]; exact hv.count
  · obtain ⟨a1, a2, a3⟩ := h4 h
    exact ⟨a1, a2, fun he => a3 (h3.inp.dead.1 he)⟩
  · obtain ⟨a1, a2, a3⟩ := h5 h
    refine ⟨a1, h3.inp.dead.2 a2, a3, ?_⟩
    have hq := hv.queue
    simp only [a1, replay, Option.some.injEq] at hq
    rw [hq, ← hv.live, Verif.live]
    simp only
    rw [List.filter_eq_self.2 fun t ht => by simp [a3 t ht]]

/-- The futures of the examples: that of `t` is ready at its poll number `3 * t + 1`. -/
def demoFutures (t : Nat) : List (Poll Unit) := List.replicate (3 * t) .pending ++ [.ready ()]

/-- Removals of all kinds. -/
def delayScript : List (Poll (Option (VecDiff Nat))) :=
  [.ready (some (.replace [0, 1, 2, 3])), .pending, .ready (some (.removeAt 1)), .pending,
   .ready (some (.insertAt 1 5)), .ready (some (.move 3 0)), .ready (some .pop),
   .ready (some (.updateAt 0 4)), .ready (some (.removeAt 1)), .pending,
   .ready (some .clear), .pending, .ready (some (.replace [7, 8])), .ready none]

example : replay (items delayScript) [] = some [7, 8] := by decide
example : (run (VDelay.poll demoFutures) (List.replicate 10 0) (VDelay.init delayScript)).map
    (fun q => (replay (items q.1) [], q.1.getLast?)) =
    some (some [4, 5, 2, 7, 8], some .pending) := by decide
example : (run (VDelay.poll demoFutures) (List.replicate 10 0) (VDelay.init delayScript)).map
    (fun q => (q.2.futures.filter (!·.isRemoving)).map (·.tag)) = some [7, 8] := by decide
example : (run (VDelay.poll demoFutures) (List.replicate 30 0) (VDelay.init delayScript)).map
    (fun q => (q.2.gone.map (·.tag), q.1.getLast?)) = some ([0, 1, 2, 4, 5], some (.ready none)) := by
  decide

/-- **C57, C58, C59 for `delay_remove`.**  For every well-formed input history, all futures and every
schedule of polls:
* neither the input nor any future is polled again after its end (an element whose future is ready is
  removed at once: `C17_delay_remove`);
* the end is reported only after the input ended, all diffs were delivered and no element is being
  removed;
* after `Pending`, the input has ended, or its last answer was `Pending`, given to a poll with the
  waker of the last poll; and the same holds for the future of every element being removed; at least
  one of these inputs has not ended. -/
theorem C57_delay_remove (g : α → List (Poll Unit)) (script : List (Poll (Option (VecDiff α))))
    (hwf : ∃ z, replay (items script) [] = some z) (ws : List Waker)
    (outs : List (Poll (Option (VecDiff α)))) (s : VDelay α)
    (h : run (VDelay.poll g) ws (VDelay.init script) = some (outs, s)) :
    (s.signal.src.fused ∧ ∀ t ∈ s.futures, t.future.fusedF) ∧
    (.ready none ∈ outs → s.pending = [] ∧ s.signal.src.ended ∧
      ∀ t ∈ s.futures, t.isRemoving = false) ∧
    (∀ w, ws.getLast? = some w → outs.getLast? = some .pending →
      (s.signal.src.ended ∨ s.signal.src.armed w) ∧
      (∀ t ∈ s.futures, t.isRemoving = true → t.future.armed w) ∧
      (s.signal.src.armed w ∨ ∃ t ∈ s.futures, t.future.armed w)) := by
  obtain ⟨⟨xs, zs, n, a⟩, b, c⟩ := any_run (poll := VDelay.poll g)
    (fun s => ∃ xs zs n, DelayInv anyDiff g s xs zs n)
    (fun w s => Settled w s.signal ∧ (∀ t ∈ s.futures, t.isRemoving = true → t.future.armed w) ∧
      (s.signal.alive = false → ∃ t ∈ s.futures, t.isRemoving = true))
    (fun s => s.pending = [] ∧ s.signal.alive = false ∧ ∀ t ∈ s.futures, t.isRemoving = false)
    (by
      rintro w s r s' ⟨xs, zs, n, hi⟩ hp
      obtain ⟨r1, s1, hp1, hr⟩ := VDelay.step w hi
      rw [hp] at hp1
      cases hp1
      match r with
      | .ready (some d) => obtain ⟨xs', zs', hd, hi⟩ := hr; exact ⟨_, _, _, hi⟩
      | .ready none => obtain ⟨a1, a2, a3, xs', hi⟩ := hr; exact ⟨⟨_, _, _, hi⟩, a2, a1, a3⟩
      | .pending => obtain ⟨a1, a2, a3, a4, xs', hi⟩ := hr; exact ⟨⟨_, _, _, hi⟩, a1, a3, a4⟩)
    ⟨[], [], 0, Inp.ok_mk' _, valid_mk' (feed_any.2 hwf), rfl, rfl, by simp [VDelay.init],
      by simp [VDelay.init], rfl⟩ h
  refine ⟨⟨a.inp.fused, fun t ht => ?_⟩, fun he => ⟨(b he).1, a.inp.dead.2 (b he).2.1, (b he).2.2⟩,
    fun w hw hl => ?_⟩
  · intro pre w x post e
    exact absurd ⟨w, x, by rw [e]; simp⟩ (a.vars.ok t ht).waiting
  · obtain ⟨d1, d2, d3⟩ := c w hw hl
    refine ⟨d1.imp a.inp.dead.2 id, d2, ?_⟩
    rcases d1 with d1 | d1
    · obtain ⟨t, ht, e⟩ := d3 d1
      exact .inr ⟨t, ht, d2 t ht e⟩
    · exact .inl d1

example : ∃ outs s, run (VDelay.poll demoFutures) [5, 6] (VDelay.init delayScript) = some (outs, s) ∧
    outs.getLast? = some .pending ∧ s.futures.map (·.isRemoving) = [false, true, false, false] :=
  ⟨_, _, rfl, by decide, by decide⟩

end Verif
