import Verif.SwitchVecProofs
import Verif.Props.Polite1

/-!
# `Signal::switch_signal_vec` and `Signal::to_signal_vec`: C22, C23, C57-C59
-/

namespace Verif

variable {α τ : Type}

theorem switch_run (g : τ → List (Poll (Option (VecDiff α)))) (script : List (Poll (Option τ)))
    (hg : ∀ v, ∃ z, replay (items (g v)) [] = some z) (ws : List Waker) :
    ∃ outs s zs, run (VSwitch.poll g) ws (VSwitch.init script) = some (outs, s) ∧
      replay (items outs) [] = some zs ∧ (.ready none ∉ outs → SwLive g s zs) ∧
      (∀ w, ws.getLast? = some w → outs.getLast? = some .pending → SwIdle g w s zs) ∧
      (.ready none ∈ outs → SwDone g s zs) :=
  vec_run_w (SwLive g) (SwIdle g) (SwDone g) (fun _ _ _ h => h.toSwLive)
    (VSwitch.step g (fun v => feed_any.2 (hg v))) ws _ [] (VSwitch.init_live g script)

/-- **C22** (partial).  For every outer signal and every callback whose `SignalVec`s are
well-formed, and every schedule of polls: `switch_signal_vec` does not panic; `s.inner` is the
`SignalVec` made from the outer signal's most recent value (if there was a value yet); the emitted
changes are applicable one after the other.  At every moment, not just at `Pending`, they describe
what that `SignalVec` has described so far — unless the end was reported and the only answer of
the last `SignalVec` was its end.

Missing for the full claim: that exception, in which the claim is false (`C22_switch_fails`). -/
theorem C22_switch_signal_vec_partial (g : τ → List (Poll (Option (VecDiff α))))
    (script : List (Poll (Option τ)))
    (hg : ∀ v, ∃ z, replay (items (g v)) [] = some z) (ws : List Waker) :
    ∃ outs s zs ys, run (VSwitch.poll g) ws (VSwitch.init script) = some (outs, s) ∧
      replay (items outs) [] = some zs ∧
      replay s.inner.src.got [] = some ys ∧
      (∀ v, s.signal.src.got.getLast? = some v → s.inner.src.all = items (g v)) ∧
      (s.signal.src.got = [] → ys = []) ∧
      (zs = ys ∨
        (.ready none ∈ outs ∧ ∃ w, s.inner.src.hist = [(w, .ready none)])) := by
  obtain ⟨outs, s, zs, h1, h2, h3, -, h5⟩ := switch_run g script hg ws
  have key : ∀ ys, SwInv g s ys →
      (∀ v, s.signal.src.got.getLast? = some v → s.inner.src.all = items (g v)) ∧
      (s.signal.src.got = [] → ys = []) := by
    intro ys h
    refine ⟨fun v hv => ?_, fun hn => ?_⟩
    · rw [h.all, h.cur, hv]; rfl
    · have h0 := h.all
      have hn' := h.valid.now
      rw [h.cur, hn] at h0
      simp only [List.getLast?_nil, scriptOf, items_nil, Src.all, List.append_eq_nil_iff] at h0
      rw [h0.1] at hn'
      cases hn'; rfl
  by_cases he : .ready none ∈ outs
  · obtain ⟨⟨ys, k1, k2⟩, k3, k4⟩ := h5 he
    refine ⟨outs, s, zs, ys, h1, h2, k1.valid.now, (key ys k1).1, (key ys k1).2, ?_⟩
    rcases k2 with k2 | k2
    · exact .inl k2
    · exact .inr ⟨he, k2⟩
  · have := h3 he
    exact ⟨outs, s, zs, zs, h1, h2, this.valid.now, (key zs this.toSwInv).1,
      (key zs this.toSwInv).2, .inl rfl⟩

/-- The inner vector for `n`. -/
def demoSwitch (n : Nat) : List (Poll (Option (VecDiff Nat))) :=
  if n = 0 then [.ready none]
  else if n = 1 then [.pending, .ready (some (.push 5)), .pending, .ready none]
  else [.ready (some (.insertAt 0 n)), .pending, .ready (some (.push (n + 1))), .pending,
    .ready (some (.move 0 1)), .pending, .ready none]

def demoSwitchOuter : List (Poll (Option Nat)) :=
  [.pending, .ready (some 7), .pending, .pending, .pending, .ready (some 1), .pending,
   .pending, .ready (some 0), .pending, .ready (some 3), .ready (some 9), .ready none]

theorem demoSwitch_ok (v : Nat) : ∃ z, replay (items (demoSwitch v)) [] = some z := by
  unfold demoSwitch
  split
  · exact ⟨_, rfl⟩
  · split
    · exact ⟨_, rfl⟩
    · exact ⟨[v + 1, v], rfl⟩

example : (run (VSwitch.poll demoSwitch) (List.replicate 30 0) (VSwitch.init demoSwitchOuter)).bind
    (fun q => replay (items q.1) []) = some [10, 9] := by decide

/-- **C22 is false** when the outer signal has ended and the last `SignalVec` ends at its first
poll, i.e. is empty: the output keeps the contents of the previous one.  Here the outer signal
yields 7 and then, together with its end, 0; the vector for 7 is `[7]`, the one for 0 is empty. -/
theorem C22_switch_fails :
    ∃ (script : List (Poll (Option Nat))) (ws : List Waker) (outs : List (Poll (Option (VecDiff Nat))))
      (s : VSwitch Nat Nat),
      run (VSwitch.poll demoSwitch) ws (VSwitch.init script) = some (outs, s) ∧
      outs.getLast? = some (.ready none) ∧ s.signal.src.got.getLast? = some 0 ∧
      demoSwitch 0 = [.ready none] ∧ replay (items outs) [] = some [7] :=
  ⟨[.ready (some 7), .pending, .ready (some 0), .ready none], [0, 0], _, _, rfl, rfl, rfl, rfl, rfl⟩

/-- **C57, C58, C59 for `switch_signal_vec`**: for every outer signal, every callback whose
`SignalVec`s are well-formed and every schedule of polls:
* neither the outer signal nor the current `SignalVec` is polled again after it reported its end;
* the end is reported only after the outer signal ended and the current `SignalVec`, if there is
  one, ended;
* after `Pending` the outer signal has ended or its last answer was `Pending`, given to a poll with
  the waker of the last poll; the same holds for the current `SignalVec`, if there is one; and not
  everything has ended. -/
theorem C57_switch_signal_vec (g : τ → List (Poll (Option (VecDiff α))))
    (script : List (Poll (Option τ)))
    (hg : ∀ v, ∃ z, replay (items (g v)) [] = some z) (ws : List Waker) :
    ∃ outs s, run (VSwitch.poll g) ws (VSwitch.init script) = some (outs, s) ∧
      s.signal.src.fused ∧ s.inner.src.fused ∧
      (.ready none ∈ outs → s.signal.src.ended ∧ (s.signal.src.got = [] ∨ s.inner.src.ended)) ∧
      (∀ w, ws.getLast? = some w → outs.getLast? = some .pending →
        (s.signal.src.ended ∨ s.signal.src.armed w) ∧
        (s.signal.src.got = [] ∨ s.inner.src.ended ∨ s.inner.src.armed w) ∧
        (s.signal.src.armed w ∨ s.inner.src.armed w)) := by
  obtain ⟨outs, s, zs, h1, h2, h3, h4, h5⟩ := switch_run g script hg ws
  have hinv : ∃ ys, SwInv g s ys := by
    by_cases he : .ready none ∈ outs
    · obtain ⟨⟨ys, h, -⟩, -⟩ := h5 he
      exact ⟨ys, h⟩
    · exact ⟨zs, (h3 he).toSwInv⟩
  obtain ⟨ys, inv⟩ := hinv
  have over : s.inner.alive = false → s.signal.src.got = [] ∨ s.inner.src.ended := by
    intro ha
    rcases inv.over ha with h | h
    · have := inv.cur
      rw [h] at this
      exact .inl (by simpa using this.symm)
    · exact .inr h
  refine ⟨outs, s, h1, inv.signal.fused, inv.fused, fun he => ?_, fun w hw hp => ?_⟩
  · have h := h5 he
    exact ⟨inv.signal.dead.2 h.outer, over h.inner⟩
  · have h := h4 w hw hp
    refine ⟨?_, ?_, ?_⟩
    · rcases h.outer with h | h
      · exact .inl (inv.signal.dead.2 h)
      · exact .inr h
    · rcases h.inn with h | h
      · rcases over h with h | h
        · exact .inl h
        · exact .inr (.inl h)
      · exact .inr (.inr h)
    · have := h.some
      rcases h.outer with h' | h'
      · rcases h.inn with h'' | h''
        · exact absurd ⟨h', h''⟩ this
        · exact .inr h''
      · exact .inl h'

example : (run (VSwitch.poll demoSwitch) (List.replicate 30 0) (VSwitch.init demoSwitchOuter)).any
    (fun q => q.1.contains .pending && q.1.getLast? == some (.ready none)) = true := by decide

/-! ## `to_signal_vec` -/

/-- **C23**, `Signal::to_signal_vec`: for every signal of vectors and every schedule of polls, the
emitted changes are applicable and describe the signal's most recent value (nothing before the
first value), and there is one change per value. -/
theorem C23_to_signal_vec (script : List (Poll (Option (List α)))) (ws : List Waker) :
    ∃ outs s, run VToVec.poll ws ⟨Src.mk' script⟩ = some (outs, s) ∧
      replay (items outs) [] = some (s.signal.got.getLast?.getD []) ∧
      (items outs).length = s.signal.got.length := by
  obtain ⟨outs, s, h1, h2⟩ := run_rule (poll := VToVec.poll (α := α))
    (fun outs s => (.ready none ∉ outs → ¬ s.signal.ended) ∧
      replay (items outs) [] = some (s.signal.got.getLast?.getD []) ∧
      (items outs).length = s.signal.got.length)
    (by
      rintro w outs s ⟨h0, h, h'⟩ hne
      obtain ⟨r, src', h1, h2, h3, h4, h5⟩ := Src.poll_rule w s.signal (h0 hne)
      cases r with
      | pending =>
        exact ⟨.pending, ⟨src'⟩, by simp [VToVec.poll, h1], fun _ => h5.1,
          by simpa [items_append, h3] using h, by simpa [items_append, h3] using h'⟩
      | ready x =>
        cases x with
        | none =>
          exact ⟨.ready none, ⟨src'⟩, by simp [VToVec.poll, h1], by simp,
            by simpa [items_append, h3] using h, by simpa [items_append, h3] using h'⟩
        | some v =>
          refine ⟨.ready (some (.replace v)), ⟨src'⟩, by simp [VToVec.poll, h1], fun _ => h5, ?_,
            by simpa [items_append, h3] using h'⟩
          rw [items_append, h3]
          exact replay_append_some h (by simp [replay, VecDiff.apply]))
    ws [] ⟨Src.mk' script⟩ ⟨fun _ => not_ended_mk' _, rfl, rfl⟩ (by simp)
  exact ⟨outs, s, h1, by simpa using h2.2⟩

example : (run VToVec.poll [0, 0, 0] ⟨Src.mk' [.ready (some [1, 2]), .pending, .ready (some [3])]⟩).map
    (·.1) = some [.ready (some (.replace [1, 2])), .pending, .ready (some (.replace [3]))] := by decide

/-- **C57, C58, C59 for `to_signal_vec`**. -/
theorem C57_to_signal_vec (script : List (Poll (Option (List α)))) :
    Polite VToVec.poll (fun s : VToVec α => s.signal) ⟨Src.mk' script⟩ := by
  refine polite_of_step (fun s => ¬ s.signal.ended) (fun s h => fused_of_not_ended h) ?_ _
    (not_ended_mk' _)
  intro w s r s' hl hp
  obtain ⟨r0, src', h1, h2, -, -, h5⟩ := Src.poll_rule w s.signal hl
  obtain (_ | v) | _ := r0 <;> simp only [VToVec.poll, h1, Option.some.injEq, Prod.mk.injEq] at hp <;>
    obtain ⟨rfl, rfl⟩ := hp
  · exact ⟨h2, h5⟩
  · exact h5
  · exact h5

end Verif
