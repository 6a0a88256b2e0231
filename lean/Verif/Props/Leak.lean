import Verif.MutableVecLeak

/-!
# A leaked `Drain` (property C96)

Model: `Verif/MutableVecLeak.lean`; vocabulary of `Verif/MutableVecSpec.lean` (`received`, `Bound.lower`, `Bound.upper`) and
`replay`.
-/

namespace Verif.MutVec

variable {α : Type}

/-- Used to show that hypotheses can be met: a leaked `drain(0..1)` between subscriptions and other operations. -/
def demoLeak : List (LEv Nat) :=
  [.ev .subscribe, .ev (.op (.push 5)), .leak .unbounded (.excluded 1), .ev .subscribe, .ev (.op (.push 6)),
   .ev (.poll 0 7), .ev (.poll 0 7), .ev (.poll 1 8)]

example : ((World.init [3, 4]).runsL demoLeak).map (fun w => (w.values, w.chans.map (·.queue), w.handles)) =
      some ([6], [[.removeAt 0, .push 6], []], 1) ∧
    receivedL 0 (World.init [3, 4]) demoLeak = [.replace [3, 4], .push 5] ∧
    receivedL 1 (World.init [3, 4]) demoLeak = [.push 6] := by decide

/-- **C96.**  Whatever happened, leaked `Drain`s included: the changes a subscriber received can be applied, and together
with those still queued for it they make a copy that equals the contents or is longer. -/
theorem C96_never_short (vs : List α) (h : List (LEv α)) (w : World α) (hr : (World.init vs).runsL h = some w)
    (id : Nat) (c : Chan α) (hc : w.chans[id]? = some c) :
    (∃ ys, replay (receivedL id (World.init vs) h) [] = some ys) ∧
    (c.rxAlive = true → ∃ shown, replay (receivedL id (World.init vs) h ++ c.queue) [] = some shown ∧
      (shown = w.values ∨ w.values.length < shown.length)) := by
  have hi := invL_runs (invR_init vs) hr
  have hl := runsL_log (invR_init vs) hr id
  simp only [World.log, hc, World.init, List.getElem?_nil, List.nil_append] at hl
  have hl' : c.delivered = receivedL id (World.init vs) h := hl
  rw [← hl']
  exact ⟨hi.sound id c hc, hi.mirror id c hc⟩

/-- **C96.**  Exactly what one leaked `Drain` does, after any history without: the `MutableVec` keeps what is before the
range, and the subscribers are told to remove the range only.  So they agree if and only if the range reaches to the
end. -/
theorem C96_leak (vs : List α) (h : List (Ev α)) (w w' : World α) (hr : (World.init vs).runs h = some w)
    (hh : w.handles ≠ 0) (lo hi : Bound) (hl : w.leak lo hi = some w') (id : Nat) (c : Chan α)
    (hc : w'.chans[id]? = some c) (ha : c.rxAlive = true) :
    w'.values = w.values.take lo.lower ∧
    replay (received id (World.init vs) h ++ c.queue) [] =
      some (w.values.take lo.lower ++ w.values.drop (hi.upper w.values.length)) ∧
    (replay (received id (World.init vs) h ++ c.queue) [] = some w'.values ↔
      hi.upper w.values.length = w.values.length) := by
  have hi' := inv_runs (inv_init vs) hr
  rw [leak_eq] at hl
  split at hl
  · rename_i hb
    cases hl
    obtain ⟨-, h2, -, -⟩ := wf_notifyAll hi'.toWF hh
      (rangeDiffs lo.lower (hi.upper w.values.length) w.values.length)
    simp only at hc ⊢
    rw [h2] at hc
    cases hx : w.chans[id]? with
    | none => simp [hx] at hc
    | some c' =>
      simp [hx] at hc; subst hc
      rw [pushAll_rxAlive] at ha
      have hlog := runs_log (inv_init vs) hr id
      simp only [World.log, hx, World.init, List.getElem?_nil, List.nil_append] at hlog
      have hlog' : c'.delivered = received id (World.init vs) h := hlog
      have hq : replay (received id (World.init vs) h ++
          (pushAll (rangeDiffs lo.lower (hi.upper w.values.length) w.values.length) c').queue) [] =
          some (w.values.take lo.lower ++ w.values.drop (hi.upper w.values.length)) := by
        rw [pushAll_queue _ _ ha, ← hlog', ← List.append_assoc]
        have := replay_append_some (hi'.mirror id c' hx ha) (replay_rangeDiffs w.values lo.lower _ hb.2)
        rwa [Nat.max_eq_right hb.1] at this
      refine ⟨trivial, hq, ?_⟩
      rw [hq]
      simp only [Option.some.injEq, List.append_right_eq_self, List.drop_eq_nil_iff]
      omega
  · cases hl

/-- The hypotheses are met, and the copy is wrong. -/
example : ∃ w w' c, (World.init [3, 4]).runs [.subscribe, .op (.push 5)] = some w ∧ w.handles ≠ 0 ∧
    w.leak (.included 1) (.excluded 2) = some w' ∧ w'.chans[0]? = some c ∧ c.rxAlive = true ∧ w'.values = [3] ∧
    replay c.queue [] = some [3, 5] := by
  exact ⟨_, _, _, rfl, by decide, rfl, rfl, by decide, by decide, by decide⟩

/-- **C96.**  A subscription made after the last leak is exact. -/
theorem C96_late (vs : List α) (h : List (LEv α)) (w : World α) (hr : (World.init vs).runsL h = some w)
    (h2 : List (Ev α)) (w' : World α) (hr2 : w.runs h2 = some w') (id : Nat) (hid : w.chans.length ≤ id) (c : Chan α)
    (hc : w'.chans[id]? = some c) (ha : c.rxAlive = true) :
    replay (received id w h2 ++ c.queue) [] = some w'.values := by
  have hi := invL_runs (invR_init vs) hr
  have hf : InvR (From w.chans.length) w := by
    refine ⟨hi.toWF, ?_, hi.sound, hi.waiting, hi.gone⟩
    intro i c hc ha
    have : i < w.chans.length := (List.getElem?_eq_some_iff.1 hc).1
    obtain ⟨m, h1, h2⟩ := hi.mirror i c hc ha
    exact ⟨m, h1, by unfold From; rw [if_neg (by omega)]; exact h2⟩
  have hf' := invR_runs (from_kept _) hf hr2
  have hl := runsR_log (from_kept _) hf hr2 id
  simp only [World.log, hc, List.getElem?_eq_none hid, List.nil_append] at hl
  obtain ⟨m, h3, h4⟩ := hf'.mirror id c hc ha
  unfold From at h4
  rw [if_pos hid] at h4
  rw [← hl, h3, h4]

example : ∃ w w' c, (World.init [3, 4]).runsL demoLeak = some w ∧
    w.runs [.subscribe, .op (.insert 0 1), .poll 2 5] = some w' ∧ w.chans.length ≤ 2 ∧ w'.chans[2]? = some c ∧
    c.rxAlive = true ∧ w'.values = [1, 6] := by
  exact ⟨_, _, _, rfl, rfl, by decide, rfl, by decide, by decide⟩

/-- A call that makes every copy exact: `replace`, or `clear` of a `MutableVec` that is not empty. -/
def Repairs (o : Op α) (l : List α) : Prop :=
  (∃ vs, o = .replace vs ∨ o = .replaceCloned vs) ∨ (o = .clear ∧ l ≠ [])

/-- **C96.**  After such a call everything is as in C01 again, for all subscribers, as long as no other `Drain` is
leaked. -/
theorem C96_repaired (vs : List α) (h : List (LEv α)) (w : World α) (hr : (World.init vs).runsL h = some w)
    (hh : w.handles ≠ 0) (o : Op α) (ho : Repairs o w.values) (h2 : List (Ev α)) (w' : World α)
    (hr2 : w.runs (.op o :: h2) = some w') (id : Nat) (c : Chan α)
    (hc : w'.chans[id]? = some c) (ha : c.rxAlive = true) :
    replay (receivedL id (World.init vs) h ++ received id w (.op o :: h2) ++ c.queue) [] = some w'.values := by
  have hi := invL_runs (invR_init vs) hr
  have hl1 := runsL_log (invR_init vs) hr id
  have hl2 := runsR_log over_kept hi hr2 id
  rw [hl1] at hl2
  simp only [World.log, hc, World.init, List.getElem?_nil, List.nil_append] at hl2
  have hl' : c.delivered = receivedL id (World.init vs) h ++ received id w (.op o :: h2) := hl2
  rw [← hl']
  simp only [World.runs, World.step, hh, ↓reduceIte, exec_eq] at hr2
  cases hs : o.spec w.values with
  | none => simp [hs] at hr2
  | some sp =>
    simp only [hs, Option.map_some] at hr2
    refine (inv_runs (inv_iff.1 (invR_notify (R' := fun _ m l => m = l) hi hh _ _ ?_)) hr2).mirror id c hc ha
    intro i m _
    rcases ho with ⟨us, rfl | rfl⟩ | ⟨rfl, hne⟩
    · cases hs; exact ⟨us, rfl, rfl⟩
    · cases hs; exact ⟨us, rfl, rfl⟩
    · cases hs
      refine ⟨[], ?_, rfl⟩
      simp [Op.diffs, hne, replay, VecDiff.apply]

example : ∃ w w', (World.init [3, 4]).runsL demoLeak = some w ∧ w.handles ≠ 0 ∧ Repairs .clear w.values ∧
    w.runs [.op .clear, .poll 0 5, .op (.push 9)] = some w' ∧ w'.values = [9] := by
  exact ⟨_, _, rfl, by decide, .inr ⟨rfl, by decide⟩, rfl, by decide⟩

/-- **C96.**  `clear` does not repair if the leaked range started at the beginning: then the `MutableVec` is empty, `clear`
tells nobody, and every subscriber keeps what was behind the range. -/
theorem C96_clear_fails (vs : List α) (h : List (Ev α)) (w w' : World α) (hr : (World.init vs).runs h = some w)
    (hh : w.handles ≠ 0) (n : Nat) (hn : n < w.values.length)
    (hl : w.leak .unbounded (.excluded n) = some w') (id : Nat) (c : Chan α)
    (hc : w'.chans[id]? = some c) (ha : c.rxAlive = true) :
    w'.exec .clear = some (.unit, w') ∧ w'.values = [] ∧
    ∃ a rest, replay (received id (World.init vs) h ++ c.queue) [] = some (a :: rest) := by
  obtain ⟨h1, h2, -⟩ := C96_leak vs h w w' hr hh _ _ hl id c hc ha
  have h1 : w'.values = [] := by rw [h1]; rfl
  refine ⟨?_, h1, ?_⟩
  · simp [World.exec, World.clear, h1]
  · have : w.values.drop n ≠ [] := by simp; omega
    obtain ⟨a, rest, he⟩ := List.exists_cons_of_ne_nil this
    refine ⟨a, rest, ?_⟩
    rw [h2, ← he]
    rfl

example : ∃ w w' c, (World.init [3, 4]).runs [.subscribe] = some w ∧ w.handles ≠ 0 ∧ 1 < w.values.length ∧
    w.leak .unbounded (.excluded 1) = some w' ∧ w'.chans[0]? = some c ∧ c.rxAlive = true := by
  exact ⟨_, _, _, rfl, by decide, by decide, rfl, rfl, by decide⟩

end Verif.MutVec
