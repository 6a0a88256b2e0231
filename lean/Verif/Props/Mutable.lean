import Verif.MutableProofs

/-!
# C31–C34: `Mutable` and its signals, operations not overlapping

`(World.new a).runs es = some (os, m)` says that the history `es` of a `Mutable` created with the
value `a` is possible (methods need a handle, polls need a signal) and has the answers `os`.
`valueAfter`, `handlesAfter`, `Unread` and the machine `Spec` are in `Verif/MutableSpec.lean`.
-/

namespace Verif.Mut

variable {α β : Type}

/-- Every history of a `Mutable` has the answers and wakes the wakers that the specification says,
in the same order.  In particular (C34) `set`, `replace` and `replace_with` always notify, `set_if`
iff the predicate accepts, `lock_mut` iff the guard was dereferenced mutably, nothing else does, and
`replace` and `replace_with` answer the previous value. -/
theorem C34_refines (a : α) (es : List (Ev α)) (os : List (Obs α)) (m : World α)
    (h : (World.new a).runs es = some (os, m)) :
    os = (Spec.new a).trace es ∧ m.woken = (Spec.new a).wakeLog es ∧ m.value = valueAfter a es := by
  obtain ⟨h1, h2, h3⟩ := (sim_new a).runs h
  exact ⟨h2, by simpa [World.new] using h3, by rw [h1.value, after_value]; rfl⟩

/-- The last answer, when it is that of a poll. -/
theorem C31_C32_C33_poll (a : α) (es : List (Ev α)) (i : Nat) (w : Waker) (os : List (Obs α))
    (m : World α) (h : (World.new a).runs (es ++ [.poll i w]) = some (os, m)) :
    ∃ r, os.getLast? = some (.poll r) ∧
      (Unread a i es → r = .ready (some (valueAfter a es))) ∧
      (¬ Unread a i es → handlesAfter 1 es = 0 → r = .ready none) ∧
      (¬ Unread a i es → handlesAfter 1 es ≠ 0 → r = .pending) := by
  obtain ⟨os1, o, m1, h1, h2, rfl⟩ := runs_snoc h
  have hs := sim_runs_new h1
  obtain ⟨h3, h4, -⟩ := hs.step h2
  have hi : i < m1.cells ∧ (m1.cell i).alive = true := by
    simp only [World.step] at h2
    split at h2
    · assumption
    · simp at h2
  obtain ⟨x, hx⟩ : ∃ x, ((Spec.new a).after es).subs[i]? = some x :=
    ⟨_, List.getElem?_eq_getElem (by rw [← hs.cells]; exact hi.1)⟩
  have hd : x.dropped = false := by simpa [hs.cell i x hx, Sub.cell] using hi.2
  have hf := (fresh_iff h1 (i := i)).1 x hx hd
  have hh : ((Spec.new a).after es).handles = handlesAfter 1 es := after_handles _ _
  have hv : ((Spec.new a).after es).value = valueAfter a es := after_value _ _
  refine ⟨((Spec.new a).after es).answer x, by simp [h4, Spec.obs, hx], ?_, ?_, ?_⟩
  · intro hu
    simp [Spec.answer, hf.2 hu, hv]
  · intro hu h0
    have : x.fresh = false := by simpa using mt hf.1 hu
    simp [Spec.answer, this, hh, h0]
  · intro hu h0
    have : x.fresh = false := by simpa using mt hf.1 hu
    simp [Spec.answer, this, hh, h0]

/-- C31: a value produced by a signal is the value of the `Mutable` at that moment, and the first
poll of a signal produces a value. -/
theorem C31_current (a : α) (es : List (Ev α)) (i : Nat) (w : Waker) (os : List (Obs α))
    (m : World α) (h : (World.new a).runs (es ++ [.poll i w]) = some (os, m)) :
    (∀ b, os.getLast? = some (.poll (.ready (some b))) → b = valueAfter a es) ∧
    ((∀ w', .poll i w' ∉ es) → os.getLast? = some (.poll (.ready (some (valueAfter a es))))) := by
  obtain ⟨r, h1, h2, h3, h4⟩ := C31_C32_C33_poll a es i w os m h
  refine ⟨fun b hb => ?_, fun hn => by rw [h1, h2 (.inl hn)]⟩
  rw [h1] at hb
  simp only [Option.some.injEq, Obs.poll.injEq] at hb
  by_cases hu : Unread a i es
  · rw [h2 hu] at hb
    simpa using hb.symm
  · by_cases h0 : handlesAfter 1 es = 0
    · rw [h3 hu h0] at hb; simp at hb
    · rw [h4 hu h0] at hb; simp at hb

/-- C32: if a notifying write happened since the last poll of a signal, its next poll produces a
value; if not (and it was polled before) it does not. -/
theorem C32_no_missed_update (a : α) (es : List (Ev α)) (i : Nat) (w : Waker) (os : List (Obs α))
    (m : World α) (h : (World.new a).runs (es ++ [.poll i w]) = some (os, m)) :
    (∃ b, os.getLast? = some (.poll (.ready (some b)))) ↔ Unread a i es := by
  obtain ⟨r, h1, h2, h3, h4⟩ := C31_C32_C33_poll a es i w os m h
  constructor
  · rintro ⟨b, hb⟩
    rw [h1] at hb
    simp only [Option.some.injEq, Obs.poll.injEq] at hb
    apply Classical.byContradiction
    intro hu
    by_cases h0 : handlesAfter 1 es = 0
    · rw [h3 hu h0] at hb; simp at hb
    · rw [h4 hu h0] at hb; simp at hb
  · intro hu
    exact ⟨valueAfter a es, by rw [h1, h2 hu]⟩

/-- C33: a signal ends iff no handle is left and the last value was delivered. -/
theorem C33_end (a : α) (es : List (Ev α)) (i : Nat) (w : Waker) (os : List (Obs α))
    (m : World α) (h : (World.new a).runs (es ++ [.poll i w]) = some (os, m)) :
    os.getLast? = some (.poll (.ready none)) ↔ handlesAfter 1 es = 0 ∧ ¬ Unread a i es := by
  obtain ⟨r, h1, h2, h3, h4⟩ := C31_C32_C33_poll a es i w os m h
  rw [h1]
  simp only [Option.some.injEq, Obs.poll.injEq]
  constructor
  · rintro rfl
    by_cases hu : Unread a i es
    · simpa using h2 hu
    · by_cases h0 : handlesAfter 1 es = 0
      · exact ⟨h0, hu⟩
      · simpa using h4 hu h0
  · rintro ⟨h0, hu⟩
    exact h3 hu h0

/-- The counter `senders` is the number of handles. -/
theorem C33_senders (a : α) (es : List (Ev α)) (os : List (Obs α)) (m : World α)
    (h : (World.new a).runs es = some (os, m)) :
    m.senders = handlesAfter 1 es ∧ m.handles = handlesAfter 1 es := by
  have hs := sim_runs_new h
  have hh : ((Spec.new a).after es).handles = handlesAfter 1 es := after_handles _ _
  exact ⟨by rw [hs.senders, hh], by rw [hs.handles, hh]⟩

/-- A waiting signal is woken by the next notifying event. -/
theorem waiting_woken {s : Spec α} {i : Nat} {w : Waker} {x : Sub} (hx : s.subs[i]? = some x)
    (hw : x.waiting = some w) (hd : x.dropped = false) (es es' : List (Ev α)) (e : Ev α)
    (hp : ∀ w', .poll i w' ∉ es) (hds : .dropSignal i ∉ es)
    (he : e.notifies (valueAfter s.value es) = true ∨ (e = .drop ∧ handlesAfter s.handles es = 1)) :
    w ∈ s.wakeLog (es ++ e :: es') := by
  induction es generalizing s x with
  | nil =>
    simp only [List.nil_append, Spec.wakeLog, List.mem_append]
    left
    have hm : w ∈ s.subs.flatMap Sub.wakes := by
      refine List.mem_flatMap.2 ⟨x, List.mem_iff_getElem?.2 ⟨i, hx⟩, ?_⟩
      simp [Sub.wakes, hd, hw]
    simp only [valueAfter, handlesAfter, List.foldl_nil] at he
    rcases he with he | ⟨rfl, he⟩
    · cases e <;> simp only [Ev.notifies, Bool.false_eq_true] at he <;>
        simp [Spec.wakes, Ev.notifies, he, List.mem_flatMap] <;> simpa using hm
    · simpa [Spec.wakes, he] using hm
  | cons e1 es ih =>
    simp only [List.cons_append, Spec.wakeLog, List.mem_append]
    have hm : w ∈ s.subs.flatMap Sub.wakes := by
      refine List.mem_flatMap.2 ⟨x, List.mem_iff_getElem?.2 ⟨i, hx⟩, ?_⟩
      simp [Sub.wakes, hd, hw]
    have key : w ∈ s.wakes e1 ∨ (s.next e1).subs[i]? = some x := by
      have hlt := (List.getElem?_eq_some_iff.1 hx).1
      cases e1 with
      | signal => right; simp only [Spec.next]; rw [List.getElem?_append_left hlt]; exact hx
      | poll j w' =>
        right
        have hj : j ≠ i := fun h => hp w' (by simp [h])
        simp only [Spec.next, List.getElem?_modify, hj]
        simpa using hx
      | dropSignal j =>
        right
        have hj : j ≠ i := fun h => hds (by simp [h])
        simp only [Spec.next, List.getElem?_modify, hj]
        simpa using hx
      | drop =>
        by_cases h1 : s.handles = 1
        · left; simpa [Spec.wakes, h1] using hm
        · right; simpa [Spec.next, h1] using hx
      | set b => left; simpa [Spec.wakes, Ev.notifies] using hm
      | replace b => left; simpa [Spec.wakes, Ev.notifies] using hm
      | replaceWith b => left; simpa [Spec.wakes, Ev.notifies] using hm
      | setIf b f =>
        by_cases hn : f s.value b = true
        · left; simpa [Spec.wakes, Ev.notifies, hn] using hm
        · right; simpa [Spec.next, Ev.notifies, hn] using hx
      | lockMut us =>
        by_cases hn : usesMut us = true
        · left; simpa [Spec.wakes, Ev.notifies, hn] using hm
        · right; simpa [Spec.next, Ev.notifies, hn] using hx
      | get => right; simpa [Spec.next, Ev.notifies] using hx
      | clone => right; simpa [Spec.next, Ev.notifies] using hx
    rcases key with key | key
    · exact .inl key
    · right
      refine ih key hw hd ?_ ?_ ?_
      · exact fun w' h' => hp w' (by simp [h'])
      · exact fun h' => hds (by simp [h'])
      · simpa [valueAfter, handlesAfter, Spec.next] using he

/-- C32, C33: if a poll of a signal answered `Pending` then the next notifying write, or the drop of
the last handle, wakes its waker (unless the signal is polled again or dropped before). -/
theorem C32_C33_woken (a : α) (es1 es2 es3 : List (Ev α)) (e : Ev α) (i : Nat) (w : Waker)
    (os1 os2 : List (Obs α)) (m1 m2 : World α)
    (h1 : (World.new a).runs (es1 ++ [.poll i w]) = some (os1, m1))
    (hpend : os1.getLast? = some (.poll .pending))
    (h2 : m1.runs (es2 ++ e :: es3) = some (os2, m2))
    (hp : ∀ w', .poll i w' ∉ es2) (hd : .dropSignal i ∉ es2)
    (he : e.notifies (valueAfter a (es1 ++ [.poll i w] ++ es2)) = true ∨
      (e = .drop ∧ handlesAfter 1 (es1 ++ [.poll i w] ++ es2) = 1)) :
    ∃ l, m2.woken = m1.woken ++ l ∧ w ∈ l := by
  have hs1 := sim_runs_new h1
  obtain ⟨-, -, h3⟩ := hs1.runs h2
  refine ⟨_, h3, ?_⟩
  -- what the signal is waiting for
  obtain ⟨os0, o, m0, g1, g2, rfl⟩ := runs_snoc h1
  have hs0 := sim_runs_new g1
  obtain ⟨-, g4, -⟩ := hs0.step g2
  have hi : i < m0.cells ∧ (m0.cell i).alive = true := by
    simp only [World.step] at g2
    split at g2
    · assumption
    · simp at g2
  obtain ⟨x, hx⟩ : ∃ x, ((Spec.new a).after es1).subs[i]? = some x :=
    ⟨_, List.getElem?_eq_getElem (by rw [← hs0.cells]; exact hi.1)⟩
  have hdx : x.dropped = false := by simpa [hs0.cell i x hx, Sub.cell] using hi.2
  have hans : ((Spec.new a).after es1).answer x = .pending := by
    have : ((Spec.new a).after es1).obs (.poll i w) = .poll .pending := by
      rw [← g4]
      simpa using hpend
    simpa [Spec.obs, hx] using this
  have hfresh : x.fresh = false ∧ ((Spec.new a).after es1).handles ≠ 0 := by
    unfold Spec.answer at hans
    split at hans
    · simp at hans
    · split at hans
      · simp at hans
      · rename_i k1 k2
        exact ⟨by simpa using k1, k2⟩
  have hnext : (Spec.new a).after (es1 ++ [.poll i w]) = ((Spec.new a).after es1).next (.poll i w) := by
    simp [Spec.after]
  have hx' : ((Spec.new a).after (es1 ++ [.poll i w])).subs[i]? = some ⟨false, some w, x.dropped⟩ := by
    rw [hnext]
    simp [Spec.next, hx, hfresh.1, hfresh.2]
  refine waiting_woken hx' rfl hdx es2 es3 e hp hd ?_
  rw [after_value, after_handles]
  simpa [valueAfter, handlesAfter, Spec.new] using he

/-- A history with two signals: polled, written, conditionally written, dropped. -/
def demoHistory : List (Ev Nat) :=
  [.signal, .poll 0 7, .poll 0 8, .signal, .setIf 3 (fun a b => a != b), .setIf 3 (fun a b => a != b),
    .poll 0 9, .poll 0 9, .poll 1 5, .clone, .drop, .lockMut [.deref, .derefMut (· + 1)], .drop,
    .poll 0 9, .poll 0 9, .poll 1 4]

example : ((World.new 1).runs demoHistory).map (fun p => (p.1, p.2.woken)) =
    some ([.unit, .poll (.ready (some 1)), .poll .pending, .unit, .unit, .unit,
      .poll (.ready (some 3)), .poll .pending, .poll (.ready (some 3)), .unit, .unit, .unit, .unit,
      .poll (.ready (some 4)), .poll (.ready none), .poll (.ready (some 4))], [8, 9]) := by rfl

/-- The hypotheses of `C32_C33_woken` are met: signal 0 waits with waker 8 and is woken by `set`. -/
example : ∃ os1 m1 os2 m2, (World.new 1).runs ([.signal, .poll 0 7] ++ [.poll 0 8]) = some (os1, m1) ∧
    os1.getLast? = some (.poll .pending) ∧ m1.runs ([.get] ++ Ev.set 2 :: []) = some (os2, m2) ∧
    m2.woken = [8] := ⟨_, _, _, _, rfl, rfl, rfl, rfl⟩

/-- C34: `set_neq` is `set` if the new value differs from the old one, and otherwise does nothing. -/
theorem C34_set_neq [BEq α] [LawfulBEq α] (m : World α) (b : α) :
    (m.value = b → m.setNeq b = m) ∧ (m.value ≠ b → m.setNeq b = m.set b) := by
  constructor
  · rintro rfl
    simp [World.setNeq, World.setIf]
  · intro h
    simp [World.setNeq, World.setIf, h, World.set]

/-- C34: `swap` of two `Mutable`s acts on each of them like `set` with the value of the other one. -/
theorem C34_swap (a b : α) (es1 es2 : List (Ev α)) (os1 os2 : List (Obs α)) (m1 m2 : World α)
    (h1 : (World.new a).runs es1 = some (os1, m1)) (h2 : (World.new b).runs es2 = some (os2, m2))
    (hh1 : handlesAfter 1 es1 ≠ 0) (hh2 : handlesAfter 1 es2 ≠ 0) :
    (World.new a).runs (es1 ++ [.set (valueAfter b es2)]) =
        some (os1 ++ [.unit], (World.swap m1 m2).1) ∧
    (World.new b).runs (es2 ++ [.set (valueAfter a es1)]) =
        some (os2 ++ [.unit], (World.swap m1 m2).2) := by
  obtain ⟨-, -, v1⟩ := C34_refines a es1 os1 m1 h1
  obtain ⟨-, -, v2⟩ := C34_refines b es2 os2 m2 h2
  have k1 := (C33_senders a es1 os1 m1 h1).2
  have k2 := (C33_senders b es2 os2 m2 h2).2
  refine ⟨runs_append_of h1 ?_, runs_append_of h2 ?_⟩
  · simp [World.runs, World.step, k1, hh1, World.swap, World.set, v2]
  · simp [World.runs, World.step, k2, hh2, World.swap, World.set, v1]

/-- `signal_ref`: a poll with a callback answers the callback applied to what `signal` answers, and
leaves the same state. -/
theorem C31_signal_ref (m : World α) (i : Nat) (w : Waker) (f : α → β) :
    (m.pollChange i w f).2 = (m.pollChange i w id).2 ∧
    (m.pollChange i w f).1 = (match (m.pollChange i w id).1 with
      | .ready (some a) => .ready (some (f a))
      | .ready none => .ready none
      | .pending => .pending) := by
  unfold World.pollChange
  rcases h : (m.cell i).isChanged with ⟨_ | _, c⟩
  · by_cases h0 : m.senders = 0 <;> simp [h0]
  · simp

end Verif.Mut
