import Verif.Props.MutableVecPanic

/-!
# C73, continued: what a method that panics leaves in the contents
-/

namespace Verif.MutVecPanic

open MutVec

variable {α : Type}

/-- **C73** (half a move).  A method that panics on an index sends nothing: every live subscriber still shows the contents
before the call.  The contents themselves are unchanged too, unless the method is `move_from_to`, `swap` or `apply_vec_diff`
of a `Move`: these have already taken the element out, so it is lost from the contents but not for the subscribers.
`lock_mut` and `lock_ref` hide this, as the lock is poisoned from then on; the guard that was used for the call does not
(`/repo/src/signal_vec.rs:3211-3235`), if its holder catches the panic. -/
theorem C73_half_move (vs : List α) (es : List (PEv α)) (os : List Outcome) (p p' : PWorld α)
    (h : (PWorld.init vs).runs es = some (os, p)) (hc : ∀ e ∈ es, e.CloneOk) (o : Op α)
    (hs : p.step (.call (.op o)) = some (.panicked, p')) :
    o.spec p.w.values = none ∧ p'.poisoned = true ∧
    (∀ i j, o = .moveFromTo i j ∨ o = .swap i j ∨ o = .applyVecDiff (.move i j) →
      p'.w.values = p.w.values.eraseIdx i) ∧
    ((∀ i j, o ≠ .moveFromTo i j ∧ o ≠ .swap i j ∧ o ≠ .applyVecDiff (.move i j)) → p'.w.values = p.w.values) ∧
    ∀ (id : Nat) c, p'.w.chans[id]? = some c → c.rxAlive = true →
      replay (c.delivered ++ c.queue) [] = some p.w.values := by
  simp only [PWorld.step] at hs
  split at hs
  · cases hs
  split at hs
  · cases hs
  rename_i hpo
  rcases hw' : p.w.exec o with _ | w' <;> rw [hw'] at hs <;> cases hs
  obtain ⟨w, h1, -, -, -, -, -, h2⟩ := C73_as_if_partial vs es os p h hc
  have hw := h2 (by simpa using hpo)
  subst hw
  have hi := inv_runs (inv_init vs) h1
  have hn : o.spec p.w.values = none := by
    rw [← C02_ops, hw']
    rfl
  have ht : ∀ i j, i ≠ j → tornMove p.w.values i j = p.w.values.eraseIdx i := by
    intro i j hij
    rw [tornMove, if_neg hij, vRemove]
    rcases hl : p.w.values[i]? with _ | a
    · exact (List.eraseIdx_of_length_le (List.getElem?_eq_none_iff.1 hl)).symm
    · rfl
  refine ⟨hn, rfl, ?_, ?_, fun id c hc' ha => hi.mirror id c hc' ha⟩
  · intro i j ho
    have hij : i ≠ j := by
      rintro rfl
      rcases ho with rfl | rfl | rfl <;> simp [Op.spec] at hn
    rcases ho with rfl | rfl | rfl <;> exact ht i j hij
  · intro ho
    cases o with
    | moveFromTo i j => exact absurd rfl (ho i j).1
    | swap i j => exact absurd rfl (ho i j).2.1
    | applyVecDiff d =>
      cases d with
      | move i j => exact absurd rfl (ho i j).2.2
      | _ => rfl
    | _ => rfl

/-- `swap(0, 7)` of a list of three takes the first element out; the subscriber still shows it. -/
example : ∃ os p p', (PWorld.init [1, 2]).runs [.call .subscribe, .call (.op (.push 3))] = some (os, p) ∧
    p.step (.call (.op (.swap 0 7))) = some (.panicked, p') ∧ p'.w.values = [2, 3] ∧
    p'.w.chans.map (fun c => c.delivered ++ c.queue) = [[.replace [1, 2], .push 3]] :=
  ⟨_, _, _, rfl, rfl, rfl, rfl⟩

/-- `remove(7)` leaves the contents as they are. -/
example : ∃ os p p', (PWorld.init [1, 2]).runs [.call .subscribe, .call (.op (.push 3))] = some (os, p) ∧
    p.step (.call (.op (.remove 7))) = some (.panicked, p') ∧ p'.w.values = [1, 2, 3] :=
  ⟨_, _, _, rfl, rfl, rfl⟩

/-- **C73** (half a `retain`).  If the closure of `retain` panics at element `n`, then the elements before it which it did
not keep are lost from the contents, all others are there in their order, and every live subscriber still shows the
contents before the call. -/
theorem C73_half_retain (vs : List α) (es : List (PEv α)) (os : List Outcome) (p p' : PWorld α)
    (h : (PWorld.init vs).runs es = some (os, p)) (hc : ∀ e ∈ es, e.CloneOk) (f : α → Bool) (n : Nat)
    (hs : p.step (.retainPanics f n) = some (.panicked, p')) :
    n < p.w.values.length ∧ p'.poisoned = true ∧
    (∃ gone kept, p.w.values = gone ++ kept ∧ gone.length = n ∧ p'.w.values = gone.filter f ++ kept) ∧
    ((p'.w.values = p.w.values) ↔ ∀ a ∈ p.w.values.take n, f a = true) ∧
    ∀ (id : Nat) c, p'.w.chans[id]? = some c → c.rxAlive = true →
      replay (c.delivered ++ c.queue) [] = some p.w.values := by
  simp only [PWorld.step] at hs
  split at hs
  · cases hs
  split at hs
  · cases hs
  rename_i hpo
  split at hs
  · rename_i hn
    cases hs
    obtain ⟨w, h1, -, -, -, -, -, h2⟩ := C73_as_if_partial vs es os p h hc
    have hw := h2 (by simpa using hpo)
    subst hw
    have hi := inv_runs (inv_init vs) h1
    refine ⟨hn, rfl, ⟨_, _, (List.take_append_drop n _).symm, ?_, rfl⟩, ?_, fun id c hc' ha => hi.mirror id c hc' ha⟩
    · rw [List.length_take]
      omega
    · show (p.w.values.take n).filter f ++ p.w.values.drop n = p.w.values ↔ _
      rw [← List.filter_eq_self]
      constructor
      · intro e
        exact List.append_cancel_right (e.trans (List.take_append_drop n _).symm)
      · intro e
        rw [e, List.take_append_drop]
  · cases hs

/-- The closure panics at the third element, having kept only the first. -/
example : ∃ os p p', (PWorld.init [1, 2, 3, 4]).runs [.call .subscribe] = some (os, p) ∧
    p.step (.retainPanics (· == 1) 2) = some (.panicked, p') ∧ p'.w.values = [1, 3, 4] ∧
    p'.w.chans.map (fun c => c.delivered ++ c.queue) = [[.replace [1, 2, 3, 4]]] :=
  ⟨_, _, _, rfl, rfl, rfl, rfl⟩

/-- **C73** (a panic that is caught under the guard).  If the holder of the guard of `lock_mut` catches the panic of
`move_from_to`, then the lock is not poisoned when the guard is dropped (`std::sync::RwLock`, external) and the `MutableVec`
stays in use, without the element; a `push` reaches all subscribers, but they still show the lost element as well. -/
theorem C73_caught (vs : List α) (es : List (Ev α)) (w : World α) (h : (World.init vs).runs es = some w)
    (hh : w.handles ≠ 0) (i j : Nat) (hi : i < w.values.length) (hj : w.values.length ≤ j) (a : α) :
    w.exec (.moveFromTo i j) = none ∧
    ∃ r w', { w with values := torn w.values (.moveFromTo i j) }.exec (.push a) = some (r, w') ∧
      w'.values = w.values.eraseIdx i ++ [a] ∧
      ∀ (id : Nat) c, w'.chans[id]? = some c → c.rxAlive = true →
        replay (c.delivered ++ c.queue) [] = some (w.values ++ [a]) := by
  have hv := inv_runs (inv_init vs) h
  have hij : i ≠ j := by omega
  have ht : torn w.values (.moveFromTo i j) = w.values.eraseIdx i := by
    simp [torn, tornMove, hij, vRemove, List.getElem?_eq_getElem hi]
  refine ⟨?_, ?_⟩
  · have hl : (w.values.eraseIdx i).length < j := by
      rw [List.length_eraseIdx_of_lt hi]
      omega
    simp [World.exec, World.moveFromTo, hij, vRemove, List.getElem?_eq_getElem hi, vInsert, Nat.not_le.2 hl]
  · rw [ht, exec_eq]
    obtain ⟨-, g2, -⟩ := wf_notifyAll (w := { w with values := w.values.eraseIdx i }) (wf_values hv.toWF _) hh
      [VecDiff.push a]
    refine ⟨_, _, rfl, rfl, fun id c hc ha => ?_⟩
    have hc' := (g2 id).symm.trans hc
    obtain ⟨c0, hc0, rfl⟩ := Option.map_eq_some_iff.1 hc'
    have ha0 : c0.rxAlive = true := by
      cases hb : c0.rxAlive
      · simp [pushAll, hb] at ha
      · rfl
    have hm := hv.mirror id c0 hc0 ha0
    rw [pushAll, if_pos ⟨ha0, by simp⟩]
    show replay (c0.delivered ++ (c0.queue ++ [VecDiff.push a])) [] = _
    rw [← List.append_assoc, replay_append, hm]
    rfl

/-- `move_from_to(0, 5)` of `[1, 2]`, caught, then `push(3)`: the contents are `[2, 3]`, the subscriber shows `[1, 2, 3]`. -/
example : ∃ w, (World.init [1, 2]).runs [.subscribe] = some w ∧ w.handles ≠ 0 ∧ 0 < w.values.length ∧ w.values.length ≤ 5 ∧
    ∃ r w', { w with values := torn w.values (.moveFromTo 0 5) }.exec (.push 3) = some (r, w') ∧ w'.values = [2, 3] ∧
      w'.chans.map (fun c => replay (c.delivered ++ c.queue) []) = [some [1, 2, 3]] :=
  ⟨_, rfl, by decide, by decide, by decide, _, _, rfl, rfl, rfl⟩

end Verif.MutVecPanic
