import Verif.EnumSigProofs

/-!
# The index signals of `enumerate` (property C81)
-/

namespace Verif.EnumSig

variable {α : Type}

/-- **C81.**  No history of polls of the `Enumerate`, its drop, and uses of the cells and signals it
handed out makes it panic, whatever well-formed changes its input sends. -/
theorem C81_no_panic (script : List (Poll (Option (VecDiff α))))
    (hwf : ∃ z, replay (items script) [] = some z) (es : List Ev) :
    (World.init script).runs es ≠ .panic := by
  rcases (Inv.init hwf).runs es with h | ⟨W', ys', h, -⟩ <;> rw [h] <;> intro hp <;> cases hp

/-- **C81.**  After every history the emitted changes describe the input list; every element has its
own cell, which was made before it was handed out. -/
theorem C81_list (script : List (Poll (Option (VecDiff α))))
    (hwf : ∃ z, replay (items script) [] = some z) (es : List Ev) (W : World α)
    (h : (World.init script).runs es = .ok W) :
    ∃ ys, replay (items W.outs) [] = some ys ∧ replay W.signal.got [] = some (ys.map (·.2)) ∧
      (ys.map (·.1)).Nodup ∧ ∀ d ∈ items W.outs, ∀ y ∈ d.payload, y.1 < W.store.length := by
  obtain ⟨ys, hi⟩ := runs_inv hwf h
  exact ⟨ys, hi.outs, hi.signal.now, hi.cells.nodup, hi.given⟩

/-- **C81.**  `get` on the cell of an element answers where the element stands in the emitted list:
`Some(i)` at position `i`, `None` if it is not in it any more. -/
theorem C81_get (script : List (Poll (Option (VecDiff α))))
    (hwf : ∃ z, replay (items script) [] = some z) (es : List Ev) (id : Nat) (W : World α)
    (h : (World.init script).runs (es ++ [.use id .get]) = .ok W) :
    ∃ c, W.store[id]? = some c ∧ c.os.getLast? = some (.value (place W.outs id)) := by
  obtain ⟨ys, hi⟩ := runs_inv hwf h
  obtain ⟨W1, h1, h2⟩ := runs_snoc h
  obtain ⟨ys1, hi1⟩ := runs_inv hwf h1
  simp only [World.step, act] at h2
  cases hc : W1.store[id]? with
  | none => simp [hc] at h2
  | some c =>
    have hv := hi1.value hc
    simp only [hc, Use.ev, Cell.act, Mut.World.step, Step.ok.injEq] at h2
    subst h2
    have hlt := (List.getElem?_eq_some_iff.1 hc).1
    exact ⟨⟨c.start, c.es ++ [.get], c.os ++ [.value c.m.value], c.m⟩, by simp [hlt],
      by simp [hv]⟩

/-- **C81.**  Every index signal starts with a value.  When it has answered `Pending` or its end, the
value it reported last is where its element stands now, or the waker of that poll has been woken
since. -/
theorem C81_latest (script : List (Poll (Option (VecDiff α))))
    (hwf : ∃ z, replay (items script) [] = some z) (es : List Ev) (W : World α)
    (h : (World.init script).runs es = .ok W) (id : Nat) (c : Cell) (hc : W.store[id]? = some c)
    (i : Nat) :
    (Mut.polled i c.es c.os = [] ∨
      ∃ v, (Mut.polled i c.es c.os).head?.map (·.2) = some (.ready (some v))) ∧
    (Mut.Kept c.m i c.es c.os → ∀ o, Rest o (Mut.polled i c.es c.os) →
      (Mut.polled i c.es c.os).last = some (place W.outs id) ∨
      ∃ x, o = some x ∧ Mut.WokenSince (some c.start) i c.es c.m x) := by
  obtain ⟨ys, hi⟩ := runs_inv hwf h
  have hr := (hi.owns id c hc).1
  refine ⟨(Mut.polled_value i hr).1, fun hk o ho => ?_⟩
  rw [← hi.value hc, hr.value]
  exact Mut.polled_rest hr hk ho

/-- **C81.**  What a poll of an index signal answers: a value is where the element stands; the end is
answered only if the element is gone from the list or the `Enumerate` was dropped, and `Pending` only
if neither is so; in both cases the value reported last is where the element stands. -/
theorem C81_answer (script : List (Poll (Option (VecDiff α))))
    (hwf : ∃ z, replay (items script) [] = some z) (es : List Ev) (id i : Nat) (w : Waker)
    (W : World α) (h : (World.init script).runs (es ++ [.use id (.poll i w)]) = .ok W) :
    ∃ c r, W.store[id]? = some c ∧ c.os.getLast? = some (.poll r) ∧
      (Mut.polled i c.es c.os).last = some (place W.outs id) ∧
      (∀ v, r = .ready (some v) → v = place W.outs id) ∧
      (r = .ready none → place W.outs id = none ∨ W.gone = true) ∧
      (r = .pending → place W.outs id ≠ none ∧ W.gone = false) := by
  obtain ⟨ys, hi⟩ := runs_inv hwf h
  obtain ⟨W1, h1, h2⟩ := runs_snoc h
  obtain ⟨ys1, hi1⟩ := runs_inv hwf h1
  simp only [World.step, act] at h2
  cases hc : W1.store[id]? with
  | none => simp [hc] at h2
  | some c =>
    simp only [hc] at h2
    cases ha : c.act (Use.poll i w).ev with
    | none => simp [ha] at h2
    | some c' =>
      simp only [ha, Step.ok.injEq] at h2
      subst h2
      have hlt := (List.getElem?_eq_some_iff.1 hc).1
      have hc' : (W1.store.set id c')[id]? = some c' := by simp [hlt]
      have hr' := (hi.owns id c' hc').1
      have hval := hi.value hc'
      have hes : c'.es = c.es ++ [.poll i w] ∧ c'.start = c.start := by
        simp only [Cell.act] at ha
        split at ha
        · cases ha
        · cases ha; exact ⟨rfl, rfl⟩
      have hrun : (Mut.World.new (some c.start)).runs (c.es ++ [.poll i w]) = some (c'.os, c'.m) := by
        rw [← hes.1, ← hes.2]; exact hr'
      have hv : Mut.valueAfter (some c.start) c.es = EnumSig.place W1.outs id := by
        rw [← hi1.value hc, ((hi1.owns id c hc).1).value]
      have hh := ((hi1.owns id c hc).1).handles
      have hg := hi1.handles hc
      obtain ⟨r, n1, n2, n3, n4⟩ := Mut.C31_C32_C33_poll _ _ _ _ _ _ hrun
      refine ⟨c', r, hc', n1, ?_, ?_, ?_, ?_⟩
      · have hu : ¬ Mut.Unread (some c'.start) i c'.es := by
          rw [hes.1]
          rintro (hu | ⟨e1, e, e2, g1, g2, g3⟩)
          · exact hu w (by simp)
          · rcases snoc_split.1 g1 with ⟨rfl, rfl, rfl⟩ | ⟨e2', rfl, -⟩
            · simp [Mut.Ev.notifies] at g2
            · exact g3 w (by simp)
        rw [(Mut.polled_value i hr').2 hu, ← hr'.value, hval]
      · rintro v rfl
        by_cases hu : Mut.Unread (some c.start) i c.es
        · have := n2 hu; rw [hv] at this; simpa using this
        · by_cases h0 : Mut.handlesAfter 1 c.es = 0
          · simpa using n3 hu h0
          · simpa using n4 hu h0
      · rintro rfl
        by_cases hu : Mut.Unread (some c.start) i c.es
        · simpa using n2 hu
        · by_cases h0 : Mut.handlesAfter 1 c.es = 0
          · exact hg.1 (by rw [hh, h0])
          · simpa using n4 hu h0
      · rintro rfl
        by_cases hu : Mut.Unread (some c.start) i c.es
        · simpa using n2 hu
        · by_cases h0 : Mut.handlesAfter 1 c.es = 0
          · simpa using n3 hu h0
          · have : ¬ (EnumSig.place W1.outs id = none ∨ W1.gone = true) := fun hx =>
              h0 (by rw [← hh]; exact hg.2 hx)
            simpa [not_or] using this

/-- **C81.**  An index signal that answered `Pending` is woken when its element leaves the list and
when the `Enumerate` is dropped. -/
theorem C81_end_woken (script : List (Poll (Option (VecDiff α))))
    (hwf : ∃ z, replay (items script) [] = some z) (es : List Ev) (W : World α)
    (h : (World.init script).runs es = .ok W) (id : Nat) (c : Cell) (hc : W.store[id]? = some c)
    (i : Nat) (hh : Mut.Held c.m i) (x : Waker)
    (hp : (Mut.polled i c.es c.os).getLast? = some (x, .pending))
    (hg : place W.outs id = none ∨ W.gone = true) :
    Mut.WokenSince (some c.start) i c.es c.m x := by
  obtain ⟨ys, hi⟩ := runs_inv hwf h
  have hr := (hi.owns id c hc).1
  exact Mut.end_woken hr hh hp (by rw [← hr.handles]; exact (hi.handles hc).2 hg)

/-! ### A concrete case -/

/-- Three elements, a removal at the front, a move; then the end of the script. -/
private def demoScript : List (Poll (Option (VecDiff Nat))) :=
  [.ready (some (.replace [10, 20, 30])), .ready (some (.removeAt 0)), .ready (some (.move 1 0))]

/-- Receive the elements, watch the second one (cell 1) and the first one (cell 0), let the element 10
be removed and 30 be moved to the front, drop the `Enumerate`. -/
private def demoHist : List Ev :=
  [.poll 9, .use 1 .signal, .use 0 .signal, .use 1 (.poll 0 1), .use 1 (.poll 0 1), .use 0 (.poll 0 2),
   .use 0 (.poll 0 2), .poll 9, .use 0 (.poll 0 2), .use 0 (.poll 0 2), .use 1 (.poll 0 1),
   .use 1 (.poll 0 1), .poll 9, .use 1 (.poll 0 1), .use 1 (.poll 0 1), .drop, .use 1 (.poll 0 1),
   .use 1 .get]

/-- The answers the cells of a world gave, and whom they have woken. -/
private def demoLog : Step Nat → List (List (Mut.Obs (Option Nat)) × List Waker)
  | .ok W => W.store.map fun c => (c.os, c.m.woken)
  | _ => []

example : (∃ z, replay (items demoScript) [] = some z) ∧
    (demoLog ((World.init demoScript).runs demoHist)).map (·.2) = [[2], [1, 1, 1], []] ∧
    ((demoLog ((World.init demoScript).runs demoHist)).map (·.1))[1]? =
      some [.unit, .poll (.ready (some (some 1))), .poll .pending, .value (some 1),
        .poll (.ready (some (some 0))), .poll .pending, .value (some 0),
        .poll (.ready (some (some 1))), .poll .pending, .unit, .poll (.ready none), .value (some 1)] ∧
    ((demoLog ((World.init demoScript).runs demoHist)).map (·.1))[0]? =
      some [.unit, .poll (.ready (some (some 0))), .poll .pending, .unit, .unit,
        .poll (.ready (some none)), .poll (.ready none)] :=
  ⟨⟨_, rfl⟩, by rfl, by rfl, by rfl⟩

/-- The hypotheses of `C81_end_woken` are met: both signals wait, then the `Enumerate` is dropped. -/
example : ∃ W c, (World.init demoScript).runs
      [.poll 9, .use 1 .signal, .use 1 (.poll 0 1), .use 1 (.poll 0 1), .drop] = .ok W ∧
    W.store[1]? = some c ∧ Mut.Held c.m 0 ∧
    (Mut.polled 0 c.es c.os).getLast? = some (1, .pending) ∧ W.gone = true :=
  ⟨_, _, rfl, rfl, ⟨by decide, rfl⟩, rfl, rfl⟩

end Verif.EnumSig
