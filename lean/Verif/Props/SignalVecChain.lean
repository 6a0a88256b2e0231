import Verif.ChainProofs

/-!
# `SignalVec::chain` (properties C09 and C57–C59 for `chain`)
-/

namespace Verif

variable {α : Type}

/-- `d`, sent while the input's contents are `xs`, is a `Replace` by nothing or a `Clear` of
something already empty. -/
def Vacuous (d : VecDiff α) (xs : List α) : Prop := (d = .replace [] ∨ d = .clear) ∧ xs = []

theorem trivial_vacuous {d : VecDiff α} {xs : List α} (h : Trivial d xs) : Vacuous d xs := h

theorem chain_run {ok : VecDiff α → List α → Prop}
    (left right : List (Poll (Option (VecDiff α))))
    (hl : Feed ok (items left) []) (hr : Feed ok (items right) []) (ws : List Waker) :
    ∃ outs s zs xs ys, run VChain.poll ws (VChain.init left right) = some (outs, s) ∧
      replay (items outs) [] = some zs ∧ ChainInv ok s xs ys zs ∧
      (∀ w, ws.getLast? = some w → outs.getLast? = some .pending → s.pending = [] ∧
        ¬ (s.left.alive = false ∧ s.right.alive = false) ∧
        ((∀ d xs, ok d xs → ¬ Trivial d xs) → Quiet w s.left ∧ Quiet w s.right)) ∧
      (.ready none ∈ outs → s.pending = [] ∧ s.left.alive = false ∧ s.right.alive = false) := by
  obtain ⟨outs, s, zs, h1, h2, h3, h4, h5⟩ := vec_run_w (poll := VChain.poll)
    (fun s zs => ∃ xs ys, ChainInv ok s xs ys zs)
    (fun w s zs => (∃ xs ys, ChainInv ok s xs ys zs) ∧ s.pending = [] ∧
        ¬ (s.left.alive = false ∧ s.right.alive = false) ∧
        ((∀ d xs, ok d xs → ¬ Trivial d xs) → Quiet w s.left ∧ Quiet w s.right))
    (fun s zs => (∃ xs ys, ChainInv ok s xs ys zs) ∧ s.pending = [] ∧ s.left.alive = false ∧
      s.right.alive = false)
    (fun _ _ _ h => h.1)
    (by
      rintro w s zs ⟨xs, ys, h⟩
      obtain ⟨r, s', xs', ys', g1, g2⟩ := VChain.step w h
      refine ⟨r, s', g1, ?_⟩
      match r with
      | .ready (some d) => obtain ⟨zs', g3, g4, -⟩ := g2; exact ⟨zs', g3, xs', ys', g4⟩
      | .ready none => exact ⟨⟨xs', ys', g2.1⟩, g2.2⟩
      | .pending => exact ⟨⟨xs', ys', g2.1⟩, g2.2⟩)
    ws (VChain.init left right) []
    ⟨[], [], Inp.ok_mk' _, Inp.ok_mk' _, valid_mk' hl, valid_mk' hr, ⟨rfl, rfl⟩, rfl,
      fun _ => lively_nil _⟩
  by_cases he : .ready none ∈ outs
  · obtain ⟨⟨xs, ys, g1⟩, g2⟩ := h5 he
    exact ⟨outs, s, zs, xs, ys, h1, h2, g1, fun w hw hp => (h4 w hw hp).2, fun _ => g2⟩
  · obtain ⟨xs, ys, g1⟩ := h3 he
    exact ⟨outs, s, zs, xs, ys, h1, h2, g1, fun w hw hp => (h4 w hw hp).2, fun h => absurd h he⟩

/-- **C09.**  `a.chain(b)`: for every two well-formed input histories, however their answers
interleave, and every schedule of polls: no poll panics, the emitted diffs are applicable, and
whenever the last answer is `Pending` or the end, they describe the contents of `a` followed by
the contents of `b`. -/
theorem C09_chain (left right : List (Poll (Option (VecDiff α))))
    (hl : ∃ z, replay (items left) [] = some z) (hr : ∃ z, replay (items right) [] = some z)
    (ws : List Waker) :
    ∃ outs s zs xs ys, run VChain.poll ws (VChain.init left right) = some (outs, s) ∧
      replay (items outs) [] = some zs ∧
      replay s.left.src.got [] = some xs ∧ replay s.right.src.got [] = some ys ∧
      (outs.getLast? = some .pending ∨ .ready none ∈ outs → zs = xs ++ ys) := by
  obtain ⟨outs, s, zs, xs, ys, h1, h2, h3, h4, h5⟩ :=
    chain_run left right (feed_any.2 hl) (feed_any.2 hr) ws
  refine ⟨outs, s, zs, xs, ys, h1, h2, h3.vleft.now, h3.vright.now, fun h => ?_⟩
  have hp : s.pending = [] := by
    rcases h with h | h
    · cases hw : ws.getLast? with
      | none =>
        have : ws = [] := by simpa using hw
        subst this
        cases h1
        simp at h
      | some w => exact (h4 w hw h).1
    · exact (h5 h).1
  have := h3.queue
  rw [hp] at this
  simpa [replay] using this

/-- Both sides replace, clear, push and pop, with `Pending`s in between. -/
def demoChainLeft : List (Poll (Option (VecDiff Nat))) :=
  [.ready (some (.replace [1, 2])), .pending, .ready (some (.push 3)), .ready (some .clear),
   .ready (some (.replace [4, 5])), .ready (some .pop), .ready (some (.replace [6])), .ready none]
def demoChainRight : List (Poll (Option (VecDiff Nat))) :=
  [.pending, .ready (some (.replace [10, 20])), .pending, .ready (some (.insertAt 1 15)),
   .ready (some .clear), .ready (some (.push 30)), .ready (some (.move 0 0)), .ready none]

example : (∃ z, replay (items demoChainLeft) [] = some z) ∧
    (∃ z, replay (items demoChainRight) [] = some z) := ⟨⟨[6], by decide⟩, ⟨[30], by decide⟩⟩

example : (run VChain.poll (List.replicate 30 0) (VChain.init demoChainLeft demoChainRight)).bind
    (fun q => replay (items q.1) []) = some [6, 30] := by decide

/-- **C57/C58/C59 for `chain`** (partial).  For every two well-formed input histories that contain
no vacuous `Replace` or `Clear`, and every schedule of polls:
* an input is never polled again after it reported its end (C58);
* the end is reported only after both inputs ended and every change was delivered (C59);
* after `Pending` each input has ended, or its last answer was `Pending`, given to a poll with the
  waker of the last poll of the chain (C57); at least one has not ended.

Missing for the full claim C57: histories with vacuous changes, for which it is false
(`C57_chain_fails`).  C58 and C59 do not need that condition (`C58_C59_chain`). -/
theorem C57_chain_partial (left right : List (Poll (Option (VecDiff α))))
    (hl : Feed (fun d xs => ¬ Vacuous d xs) (items left) [])
    (hr : Feed (fun d xs => ¬ Vacuous d xs) (items right) []) (ws : List Waker) (w : Waker)
    (hw : ws.getLast? = some w) :
    ∃ outs s, run VChain.poll ws (VChain.init left right) = some (outs, s) ∧
      (outs.getLast? = some .pending →
        (s.left.src.ended ∨ s.left.src.armed w) ∧ (s.right.src.ended ∨ s.right.src.armed w) ∧
        ¬ (s.left.src.ended ∧ s.right.src.ended)) := by
  obtain ⟨outs, s, zs, xs, ys, h1, h2, h3, h4, h5⟩ := chain_run left right hl hr ws
  refine ⟨outs, s, h1, fun hp => ?_⟩
  obtain ⟨-, g1, g2⟩ := h4 w hw hp
  obtain ⟨q1, q2⟩ := g2 (fun d xs h ht => h (trivial_vacuous ht))
  have hL := h3.left.dead
  have hR := h3.right.dead
  refine ⟨?_, ?_, ?_⟩
  · cases ha : s.left.alive with
    | false => exact .inl (hL.2 ha)
    | true => exact .inr (q1 ha)
  · cases ha : s.right.alive with
    | false => exact .inl (hR.2 ha)
    | true => exact .inr (q2 ha)
  · rintro ⟨a, b⟩
    exact g1 ⟨hL.1 a, hR.1 b⟩

/-- **C58, C59 for `chain`**: for every two well-formed input histories and every schedule of
polls, no input is polled again after it reported its end, and the end is reported only after both
inputs ended and the emitted changes describe their final contents. -/
theorem C58_C59_chain (left right : List (Poll (Option (VecDiff α))))
    (hl : ∃ z, replay (items left) [] = some z) (hr : ∃ z, replay (items right) [] = some z)
    (ws : List Waker) :
    ∃ outs s, run VChain.poll ws (VChain.init left right) = some (outs, s) ∧
      s.left.src.fused ∧ s.right.src.fused ∧
      (.ready none ∈ outs → s.left.src.ended ∧ s.right.src.ended ∧
        ∃ xs ys, replay s.left.src.got [] = some xs ∧ replay s.right.src.got [] = some ys ∧
          replay (items outs) [] = some (xs ++ ys)) := by
  obtain ⟨outs, s, zs, xs, ys, h1, h2, h3, h4, h5⟩ :=
    chain_run left right (feed_any.2 hl) (feed_any.2 hr) ws
  refine ⟨outs, s, h1, h3.left.fused, h3.right.fused, fun he => ?_⟩
  obtain ⟨g1, g2, g3⟩ := h5 he
  refine ⟨h3.left.dead.2 g2, h3.right.dead.2 g3, xs, ys, h3.vleft.now, h3.vright.now, ?_⟩
  have := h3.queue
  rw [g1] at this
  cases this
  exact h2

example : Feed (fun d xs => ¬ Vacuous d xs) (items demoChainLeft) [] := by
  simp [demoChainLeft, Feed, Vacuous, VecDiff.apply, vPop, items]
example : Feed (fun d xs => ¬ Vacuous d xs) (items demoChainRight) [] := by
  simp [demoChainRight, Feed, Vacuous, VecDiff.apply, vPop, vInsert, vRemove, items]

example : (run VChain.poll (List.replicate 30 7) (VChain.init demoChainLeft demoChainRight)).any
    (fun q => q.1.getLast? == some (.ready none)) = true := by decide

/-- **C57 is false for `chain`**: `b` holds an element; `a` is empty, and its owner replaces its
contents by nothing.  The chain is polled, `a` answers `Ready(Replace [])`, the chain has nothing to
emit and answers `Pending` - but `a` was not polled again, so it keeps no waker: when `a` next
changes, nobody is woken. -/
theorem C57_chain_fails :
    ∃ left right : List (Poll (Option (VecDiff Nat))),
      (∃ z, replay (items left) [] = some z) ∧ (∃ z, replay (items right) [] = some z) ∧
      ∃ ws w outs s, ws.getLast? = some w ∧
        run VChain.poll ws (VChain.init left right) = some (outs, s) ∧
        outs.getLast? = some .pending ∧ ¬ s.left.src.ended ∧ ¬ s.left.src.armed w ∧
        s.left.src.todo = [.ready (some (.push 5))] := by
  refine ⟨[.pending, .ready (some (.replace [])), .ready (some (.push 5))],
    [.ready (some (.push 1))], ⟨[5], rfl⟩, ⟨[1], rfl⟩, [0, 0], 0, _, _, rfl, rfl, rfl, ?_, ?_, rfl⟩
  · rintro ⟨w, h⟩
    simp [VChain.init, Inp.mk', Src.mk'] at h
  · simp [Src.armed]

end Verif
