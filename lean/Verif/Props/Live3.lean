import Verif.Props.Live2
import Verif.SignalVec2
import Verif.SignalVec3
import Verif.DelayProofs

/-!
# C64: `SignalVec` combinators with several inputs report the end

The end is due once the outer input ended and all the inner inputs still held did.
-/

namespace Verif

variable {α β ι τ : Type}

/-! ## Lists all of whose elements satisfy a condition -/

theorem all_insert {P : α → Prop} {l l' : List α} {i : Nat} {a : α} (h : ∀ x ∈ l, P x) (ha : P a)
    (e : vInsert l i a = some l') : ∀ x ∈ l', P x := by
  obtain ⟨p, q, rfl, -, rfl⟩ := vInsert_eq_some.1 e
  intro x hx
  simp only [List.mem_append, List.mem_cons] at hx
  rcases hx with hx | rfl | hx
  · exact h x (by simp [hx])
  · exact ha
  · exact h x (by simp [hx])

theorem all_set {P : α → Prop} {l l' : List α} {i : Nat} {a : α} (h : ∀ x ∈ l, P x) (ha : P a)
    (e : vSet l i a = some l') : ∀ x ∈ l', P x := by
  obtain ⟨p, b, q, rfl, -, rfl⟩ := vSet_eq_some.1 e
  intro x hx
  simp only [List.mem_append, List.mem_cons] at hx
  rcases hx with hx | rfl | hx
  · exact h x (by simp [hx])
  · exact ha
  · exact h x (by simp [hx])

theorem all_remove {P : α → Prop} {l l' : List α} {i : Nat} {a : α} (h : ∀ x ∈ l, P x)
    (e : vRemove l i = some (a, l')) : P a ∧ ∀ x ∈ l', P x := by
  obtain ⟨p, q, rfl, -, rfl⟩ := vRemove_eq_some.1 e
  refine ⟨h a (by simp), fun x hx => h x ?_⟩
  simp only [List.mem_append, List.mem_cons] at hx ⊢
  rcases hx with hx | hx <;> simp [hx]

theorem all_pop {P : α → Prop} {l l' : List α} {a : α} (h : ∀ x ∈ l, P x)
    (e : vPop l = (some a, l')) : ∀ x ∈ l', P x := by
  have := vPop_eq_some.1 e
  subst this
  exact fun x hx => h x (by simp [hx])

theorem all_snoc {P : α → Prop} {l : List α} {a : α} (h : ∀ x ∈ l, P x) (ha : P a) :
    ∀ x ∈ l ++ [a], P x := by
  intro x hx
  rcases List.mem_append.1 hx with hx | hx
  · exact h x hx
  · simp at hx; exact hx ▸ ha

/-! ## `chain` -/

theorem VChain.processRightChange_inputs {c : Option (Poll (Option (VecDiff α)))} {s s' : VChain α}
    {o : Option (VecDiff α)} (e : s.processRightChange c = some (o, s')) :
    s'.left = s.left ∧ s'.right = s.right := by
  unfold VChain.processRightChange at e
  repeat' split at e
  all_goals first
    | (cases e; exact ⟨rfl, rfl⟩)
    | (simp only at e; split at e <;> cases e <;> exact ⟨rfl, rfl⟩)
    | cases e

theorem VChain.processReplace_inputs {w : Waker} {vs : List α} {s s' : VChain α}
    {o : Option (VecDiff α)} (e : s.processReplace w vs = some (o, s')) :
    s'.left = s.left ∧ s'.right = (s.right.poll w).2 := by
  unfold VChain.processReplace at e
  obtain ⟨c, i, hi⟩ : ∃ c i, s.right.poll w = (c, i) := ⟨_, _, rfl⟩
  simp only [hi] at e ⊢
  split at e
  · cases e; exact ⟨rfl, rfl⟩
  · split at e
    · cases e
    · rename_i heq
      have := VChain.processRightChange_inputs heq
      cases e
      by_cases hz : s.rightLen = 0 <;> simpa [hz] using this
    · rename_i heq
      have := VChain.processRightChange_inputs heq
      cases e
      by_cases hz : s.rightLen = 0 <;> simpa [hz] using this

theorem VChain.processClear_inputs {w : Waker} {s s' : VChain α}
    {o : Option (VecDiff α)} (e : s.processClear w = some (o, s')) :
    s'.left = s.left ∧ s'.right = (s.right.poll w).2 := by
  unfold VChain.processClear at e
  obtain ⟨c, i, hi⟩ : ∃ c i, s.right.poll w = (c, i) := ⟨_, _, rfl⟩
  simp only [hi] at e ⊢
  split at e
  · cases e; exact ⟨rfl, rfl⟩
  · split at e
    · cases e
    · rename_i heq
      have := VChain.processRightChange_inputs heq
      cases e
      by_cases hz : s.rightLen = 0 <;> simpa [hz] using this
    · rename_i heq
      have := VChain.processRightChange_inputs heq
      cases e
      by_cases hz : s.rightLen = 0 <;> simpa [hz] using this

theorem VChain.processLeftChange_inputs {w : Waker} {d : VecDiff α} {s s' : VChain α}
    {o : Option (VecDiff α)} (e : s.processLeftChange w d = some (o, s')) :
    s'.left = s.left ∧ (s'.right = s.right ∨ s'.right = (s.right.poll w).2) := by
  unfold VChain.processLeftChange at e
  split at e
  case h_1 => exact ⟨(VChain.processReplace_inputs e).1, .inr (VChain.processReplace_inputs e).2⟩
  case h_8 => exact ⟨(VChain.processClear_inputs e).1, .inr (VChain.processClear_inputs e).2⟩
  all_goals
    repeat' split at e
    all_goals first
      | (cases e; exact ⟨rfl, .inl rfl⟩)
      | (simp only at e; split at e <;> cases e <;> exact ⟨rfl, .inl rfl⟩)
      | cases e

theorem Inp.poll_le {i : Inp (Option α)} {w : Waker} (h : i.Due) :
    (i.poll w).2.Due ∧ (i.poll w).2.left ≤ i.left := by
  obtain ⟨c, i', e⟩ : ∃ c i', i.poll w = (c, i') := ⟨_, _, rfl⟩
  rw [e]
  obtain ⟨h1, h2 | h2⟩ := Inp.poll_due e h
  · exact ⟨h1, Nat.le_of_lt h2.1⟩
  · exact ⟨h1, by rw [h2.1]; exact Nat.le_refl _⟩

theorem VChain.processLeft_live {w : Waker} {s s' : VChain α} {o : Option (VecDiff α)}
    (e : s.processLeft w = some (o, s')) (hl : s.left.Due) (hr : s.right.Due) :
    (s'.left.Due ∧ s'.right.Due) ∧ (s'.left.left + s'.right.left < s.left.left + s.right.left ∨
      o = none ∧ s' = s ∧ s.left.alive = false) := by
  unfold VChain.processLeft at e
  obtain ⟨c, i, hi⟩ : ∃ c i, s.left.poll w = (c, i) := ⟨_, _, rfl⟩
  obtain ⟨h1, h2⟩ := Inp.poll_due hi hl
  simp only [hi] at e
  rcases h2 with ⟨h2, h3, -⟩ | ⟨rfl, rfl, h4⟩
  · have key : s'.left = i ∧ (s'.right = s.right ∨ s'.right = (s.right.poll w).2) := by
      match c with
      | some (.ready (some d)) => exact VChain.processLeftChange_inputs e
      | some (.ready none) => cases e; exact ⟨rfl, .inl rfl⟩
      | some .pending => cases e; exact ⟨rfl, .inl rfl⟩
      | none => exact absurd rfl h3
    obtain ⟨k1, k2⟩ := key
    have hr' := Inp.poll_le (w := w) hr
    rw [k1]
    rcases k2 with k2 | k2 <;> rw [k2]
    · exact ⟨⟨h1, hr⟩, .inl (by omega)⟩
    · exact ⟨⟨h1, hr'.1⟩, .inl (by omega)⟩
  · cases e
    exact ⟨⟨hl, hr⟩, .inr ⟨rfl, rfl, h4⟩⟩

theorem VChain.processRight_live {w : Waker} {s s' : VChain α} {o : Option (VecDiff α)}
    (e : s.processRight w = some (o, s')) (hl : s.left.Due) (hr : s.right.Due) :
    (s'.left.Due ∧ s'.right.Due) ∧ (s'.left.left + s'.right.left < s.left.left + s.right.left ∨
      o = none ∧ s' = s ∧ s.right.alive = false) := by
  unfold VChain.processRight at e
  obtain ⟨c, i, hi⟩ : ∃ c i, s.right.poll w = (c, i) := ⟨_, _, rfl⟩
  obtain ⟨h1, h2⟩ := Inp.poll_due hi hr
  simp only [hi] at e
  rcases h2 with ⟨h2, h3, -⟩ | ⟨rfl, rfl, h4⟩
  · have key := VChain.processRightChange_inputs e
    simp only at key
    rw [key.1, key.2]
    exact ⟨⟨hl, h1⟩, .inl (by omega)⟩
  · cases e
    exact ⟨⟨hl, hr⟩, .inr ⟨rfl, rfl, h4⟩⟩

/-- `chain`: the end is reported once both inputs ended. -/
theorem C64_chain (left right : List (Poll (Option (VecDiff α)))) (hl : Finite left)
    (hr : Finite right) : EndsSoon VChain.poll (VChain.init left right) := by
  refine ends_lex (fun s => s.left.left + s.right.left) (fun s => s.pending.length) (fun _ => 0)
    (fun s => s.left.Due ∧ s.right.Due) ?_ _ ⟨Inp.due_mk' hl, Inp.due_mk' hr⟩
  intro w s r s' ⟨hl, hr⟩ hp
  unfold VChain.poll at hp
  cases hpe : s.pending with
  | cons d rest =>
    simp only [hpe] at hp
    cases hp
    exact .inr ⟨⟨hl, hr⟩, .inr ⟨rfl, .inl (by simp [hpe])⟩⟩
  | nil =>
    simp only [hpe] at hp
    cases h1 : s.processLeft w with
    | none => simp [h1] at hp
    | some q =>
      obtain ⟨o, s1⟩ := q
      obtain ⟨⟨hl1, hr1⟩, h2⟩ := VChain.processLeft_live h1 hl hr
      rw [h1] at hp
      rcases h2 with h2 | ⟨rfl, rfl, h3⟩
      · -- the left input was polled
        suffices s'.left.Due ∧ s'.right.Due ∧
            s'.left.left + s'.right.left ≤ s1.left.left + s1.right.left from
          .inr ⟨⟨this.1, this.2.1⟩, .inl (Nat.lt_of_le_of_lt this.2.2 h2)⟩
        cases o with
        | some d => cases hp; exact ⟨hl1, hr1, Nat.le_refl _⟩
        | none =>
          simp only at hp
          cases hpe1 : s1.pending with
          | cons d rest => simp only [hpe1] at hp; cases hp; exact ⟨hl1, hr1, Nat.le_refl _⟩
          | nil =>
            simp only [hpe1] at hp
            cases h4 : s1.processRight w with
            | none => simp [h4] at hp
            | some q =>
              obtain ⟨o, s2⟩ := q
              obtain ⟨⟨hl2, hr2⟩, h5⟩ := VChain.processRight_live h4 hl1 hr1
              have h5' : s2.left.left + s2.right.left ≤ s1.left.left + s1.right.left := by
                rcases h5 with h5 | ⟨-, rfl, -⟩
                · exact Nat.le_of_lt h5
                · exact Nat.le_refl _
              rw [h4] at hp
              cases o with
              | some d => cases hp; exact ⟨hl2, hr2, h5'⟩
              | none =>
                simp only at hp
                cases hpe2 : s2.pending with
                | cons d rest => simp only [hpe2] at hp; cases hp; exact ⟨hl2, hr2, h5'⟩
                | nil =>
                  simp only [hpe2] at hp
                  split at hp <;> cases hp <;> exact ⟨hl2, hr2, h5'⟩
      · simp only [hpe] at hp
        cases h4 : s1.processRight w with
        | none => simp [h4] at hp
        | some q =>
          obtain ⟨o, s2⟩ := q
          obtain ⟨⟨hl2, hr2⟩, h5⟩ := VChain.processRight_live h4 hl1 hr1
          rw [h4] at hp
          rcases h5 with h5 | ⟨rfl, rfl, h6⟩
          · suffices s'.left = s2.left ∧ s'.right = s2.right by
              refine .inr ⟨by rw [this.1, this.2]; exact ⟨hl2, hr2⟩, .inl ?_⟩
              simp only [this.1, this.2]
              exact h5
            cases o with
            | some d => cases hp; exact ⟨rfl, rfl⟩
            | none =>
              simp only at hp
              cases hpe2 : s2.pending with
              | cons d rest => simp only [hpe2] at hp; cases hp; exact ⟨rfl, rfl⟩
              | nil =>
                simp only [hpe2] at hp
                split at hp <;> cases hp <;> exact ⟨rfl, rfl⟩
          · simp [hpe, h3, h6] at hp
            exact .inl hp.1.symm

/-! ## `flatten` -/

/-- What is left of the scripts of a list of inner inputs. -/
def leftSum {γ δ : Type} (inp : γ → Inp (Option δ)) (l : List γ) : Nat :=
  (l.map fun x => (inp x).left).sum

@[simp] theorem leftSum_nil {γ δ : Type} (inp : γ → Inp (Option δ)) : leftSum inp [] = 0 := rfl
@[simp] theorem leftSum_cons {γ δ : Type} (inp : γ → Inp (Option δ)) (x : γ) (l : List γ) :
    leftSum inp (x :: l) = (inp x).left + leftSum inp l := by simp [leftSum]

theorem FState.pollValues_due {w : Waker} {s s' : FState ι β} {vs : List β}
    (e : s.pollValues w = some (vs, s')) (h : s.signalVec.Due) : s'.signalVec.Due := by
  unfold FState.pollValues at e
  obtain ⟨st, t, i, hi⟩ : ∃ st t i, s.signalVec.loop w pollValuesBody (s.len, []) = (st, t, i) :=
    ⟨_, _, _, rfl⟩
  have := Inp.loop_due hi h
  rw [hi] at e
  cases st <;> cases e <;> exact this.1

theorem pollAllValues_due {w : Waker} {l l' : List (FState ι β)} {vs : List β}
    (e : pollAllValues w l = some (vs, l')) (h : ∀ x ∈ l, x.signalVec.Due) :
    ∀ x ∈ l', x.signalVec.Due := by
  induction l generalizing l' vs with
  | nil => simp only [pollAllValues] at e; cases e; simp
  | cons s l ih =>
    simp only [pollAllValues] at e
    cases h1 : s.pollValues w with
    | none => simp [h1] at e
    | some q =>
      obtain ⟨v, s1⟩ := q
      simp only [h1] at e
      cases h2 : pollAllValues w l with
      | none => simp [h2] at e
      | some q =>
        obtain ⟨vs', l1⟩ := q
        simp only [h2] at e
        cases e
        intro x hx
        rcases List.mem_cons.1 hx with rfl | hx
        · exact FState.pollValues_due h1 (h s (by simp))
        · exact ih h2 (fun y hy => h y (by simp [hy])) x hx

theorem FState.pollPending_due {w : Waker} {n : Nat} {p p' : List (VecDiff β)} {s s' : FState ι β}
    {done : Bool} (e : s.pollPending w n p = some (done, p', s')) (h : s.signalVec.Due) :
    s'.signalVec.Due ∧ (s'.signalVec.left < s.signalVec.left ∨
      s'.signalVec = s.signalVec ∧ p' = p ∧ done = true) := by
  unfold FState.pollPending at e
  obtain ⟨st, t, i, hi⟩ : ∃ st t i, s.signalVec.loop w (pollPendingBody n) (s.len, p) = (st, t, i) :=
    ⟨_, _, _, rfl⟩
  obtain ⟨h1, h2⟩ := Inp.loop_due hi h
  rw [hi] at e
  cases st with
  | panic => cases e
  | ret _ => cases e
  | ended =>
    cases e
    refine ⟨h1, h2.imp id fun hh => ⟨hh.1, by rw [hh.2.1], rfl⟩⟩
  | pending =>
    cases e
    exact ⟨h1, h2.imp id fun hh => absurd hh.2.2 (by simp)⟩

theorem pollAllPending_due {w : Waker} {n : Nat} {p p' : List (VecDiff β)} {l l' : List (FState ι β)}
    {done : Bool} (e : pollAllPending w n p l = some (done, p', l'))
    (h : ∀ x ∈ l, x.signalVec.Due) :
    (∀ x ∈ l', x.signalVec.Due) ∧
    (leftSum (·.signalVec) l' < leftSum (·.signalVec) l ∨
      leftSum (·.signalVec) l' = leftSum (·.signalVec) l ∧ p' = p ∧ done = true) := by
  induction l generalizing n p l' done with
  | nil => simp only [pollAllPending] at e; cases e; simp
  | cons s l ih =>
    simp only [pollAllPending] at e
    cases h1 : s.pollPending w n p with
    | none => simp [h1] at e
    | some q =>
      obtain ⟨d1, p1, s1⟩ := q
      simp only [h1] at e
      cases h2 : pollAllPending w (n + s1.len) p1 l with
      | none => simp [h2] at e
      | some q =>
        obtain ⟨d2, p2, l2⟩ := q
        simp only [h2] at e
        cases e
        obtain ⟨a1, a2⟩ := FState.pollPending_due h1 (h s (by simp))
        obtain ⟨b1, b2⟩ := ih h2 (fun y hy => h y (by simp [hy]))
        refine ⟨?_, ?_⟩
        · intro x hx
          rcases List.mem_cons.1 hx with rfl | hx
          · exact a1
          · exact b1 x hx
        · simp only [leftSum_cons]
          rcases a2 with a2 | ⟨a2, a3, a4⟩ <;> rcases b2 with b2 | ⟨b2, b3, b4⟩
          · exact .inl (by omega)
          · exact .inl (by omega)
          · rw [a2]; exact .inl (by omega)
          · rw [a2]; exact .inr ⟨by omega, by rw [b3, a3], by simp [a4, b4]⟩

theorem flattenBody_due {g : ι → List (Poll (Option (VecDiff β)))} (hg : ∀ t, Finite (g t))
    {w : Waker} {l : List (FState ι β)} {d : VecDiff ι} (h : ∀ x ∈ l, x.signalVec.Due) :
    (∀ l', flattenBody g w l d = .cont l' → ∀ x ∈ l', x.signalVec.Due) ∧
    (∀ l' r, flattenBody g w l d = .ret l' r → ∀ x ∈ l', x.signalVec.Due) := by
  have hnew : ∀ t, (FState.new g t).signalVec.Due := fun t => Inp.due_mk' (hg t)
  cases d with
  | replace vs =>
    simp only [flattenBody]
    cases hv : pollAllValues w (vs.map (FState.new g)) with
    | none => simp
    | some q =>
      refine ⟨by simp, fun l' r e => ?_⟩
      cases e
      refine pollAllValues_due hv ?_
      intro x hx
      obtain ⟨t, -, rfl⟩ := List.mem_map.1 hx
      exact hnew t
  | insertAt i t =>
    simp only [flattenBody]
    cases hv : vInsert l i (FState.new g t) with
    | none => simp
    | some q => exact ⟨fun l' e => by cases e; exact all_insert h (hnew t) hv, by simp⟩
  | updateAt i t =>
    simp only [flattenBody]
    cases hv : vSet l i (FState.new g t) with
    | none => simp
    | some q => exact ⟨fun l' e => by cases e; exact all_set h (hnew t) hv, by simp⟩
  | removeAt i =>
    simp only [flattenBody]
    cases hv : vRemove l i with
    | none => simp
    | some q => exact ⟨fun l' e => by cases e; exact (all_remove h hv).2, by simp⟩
  | move i j =>
    simp only [flattenBody]
    cases hv : vRemove l i with
    | none => simp
    | some q =>
      have h2 := all_remove h hv
      simp only
      cases hv' : vInsert q.2 j q.1 with
      | none => simp
      | some q' => exact ⟨fun l' e => by cases e; exact all_insert h2.2 h2.1 hv', by simp⟩
  | push t =>
    simp only [flattenBody]
    exact ⟨fun l' e => by cases e; exact all_snoc h (hnew t), by simp⟩
  | pop =>
    simp only [flattenBody]
    cases hv : vPop l with
    | mk a q =>
      cases a with
      | none => simp
      | some a => exact ⟨fun l' e => by cases e; exact all_pop h hv, by simp⟩
  | clear => simp [flattenBody]

/-- `flatten`: the end is reported once the outer input and all inner ones held ended. -/
theorem C64_flatten (g : ι → List (Poll (Option (VecDiff β))))
    (script : List (Poll (Option (VecDiff ι)))) (h : Finite script) (hg : ∀ t, Finite (g t)) :
    EndsSoon (VFlatten.poll g) (VFlatten.init script) := by
  refine ends_lex (fun s => s.signal.left) (fun s => leftSum (·.signalVec) s.inner)
    (fun s => s.pending.length)
    (fun s => s.signal.Due ∧ ∀ x ∈ s.inner, x.signalVec.Due) ?_ _ ⟨Inp.due_mk' h, by simp [VFlatten.init]⟩
  intro w s r s' ⟨hs, hi⟩ hp
  unfold VFlatten.poll at hp
  cases hpe : s.pending with
  | cons d rest =>
    simp only [hpe] at hp
    cases hp
    exact .inr ⟨⟨hs, hi⟩, .inr ⟨rfl, .inr ⟨rfl, by simp [hpe]⟩⟩⟩
  | nil =>
    simp only [hpe] at hp
    obtain ⟨st, l, i, e⟩ : ∃ st l i, s.signal.loop w (flattenBody g w) s.inner = (st, l, i) :=
      ⟨_, _, _, rfl⟩
    obtain ⟨h1, h2⟩ := Inp.loop_due e hs
    have h3 : ∀ x ∈ l, x.signalVec.Due := Inp.loop_inv e (fun l => ∀ x ∈ l, x.signalVec.Due)
      (fun s a s' hh he => (flattenBody_due hg hh).1 s' he)
      (fun s a s' r hh he => (flattenBody_due hg hh).2 s' r he) hi
    rw [e] at hp
    have hfin : ∀ top, VFlatten.finish w top i l = some (r, s') → s'.signal = i ∧
        (∀ x ∈ s'.inner, x.signalVec.Due) ∧
        (leftSum (·.signalVec) s'.inner < leftSum (·.signalVec) l ∨
          (top = true → r = .ready none)) := by
      intro top hf
      unfold VFlatten.finish at hf
      cases hq : pollAllPending w 0 [] l with
      | none => simp [hq] at hf
      | some q =>
        obtain ⟨done, add, xs⟩ := q
        obtain ⟨b1, b2⟩ := pollAllPending_due hq h3
        rw [hq] at hf
        cases add with
        | cons d rest =>
          cases hf
          refine ⟨rfl, b1, .inl ?_⟩
          rcases b2 with b2 | ⟨-, b3, -⟩
          · exact b2
          · cases b3
        | nil =>
          simp only at hf
          have hs' : s'.signal = i ∧ s'.inner = xs := by split at hf <;> cases hf <;> exact ⟨rfl, rfl⟩
          refine ⟨hs'.1, by rw [hs'.2]; exact b1, ?_⟩
          rw [hs'.2]
          rcases b2 with b2 | ⟨-, -, b4⟩
          · exact .inl b2
          · refine .inr fun ht => ?_
            simp [ht, b4] at hf
            exact hf.1.symm
    cases st with
    | panic => cases hp
    | ret d =>
      cases hp
      rcases h2 with h2 | ⟨-, -, h2⟩
      · exact .inr ⟨⟨h1, h3⟩, .inl h2⟩
      · cases h2
    | pending =>
      obtain ⟨f1, f2, -⟩ := hfin false hp
      rcases h2 with h2 | ⟨-, -, h2⟩
      · exact .inr ⟨⟨by rw [f1]; exact h1, f2⟩, .inl (by simp only [f1]; exact h2)⟩
      · cases h2
    | ended =>
      obtain ⟨f1, f2, f3⟩ := hfin true hp
      rcases h2 with h2 | ⟨h2, h4, -⟩
      · exact .inr ⟨⟨by rw [f1]; exact h1, f2⟩, .inl (by simp only [f1]; exact h2)⟩
      · rcases f3 with f3 | f3
        · refine .inr ⟨⟨by rw [f1]; exact h1, f2⟩, .inr ⟨by simp only [f1, h2], .inl ?_⟩⟩
          rw [h4] at f3
          exact f3
        · exact .inl (f3 rfl)

/-! ## `map_signal` -/

theorem MState.new_due {g : ι → List (Poll (Option β))} {w : Waker} {t : ι} {b : β} {s : MState ι β}
    (e : MState.new g w t = some (b, s)) (hg : Finite (g t)) : s.sig.Due := by
  unfold MState.new at e
  obtain ⟨r, src, h⟩ : ∃ r src, (Src.mk' (g t)).poll w = (r, src) := ⟨_, _, rfl⟩
  have := Src.poll_mem h (x := .ready none) hg
  rw [h] at e
  match r with
  | .ready (some v) => cases e; exact fun _ => this.2 (by simp)
  | .ready none => cases e
  | .pending => cases e

theorem mapNewAll_due {g : ι → List (Poll (Option β))} {w : Waker} {ts : List ι} {bs : List β}
    {l : List (MState ι β)} (e : mapNewAll g w ts = some (bs, l)) (hg : ∀ t, Finite (g t)) :
    ∀ x ∈ l, x.sig.Due := by
  induction ts generalizing bs l with
  | nil => simp only [mapNewAll] at e; cases e; simp
  | cons t ts ih =>
    simp only [mapNewAll] at e
    cases h1 : MState.new g w t with
    | none => simp [h1] at e
    | some q =>
      obtain ⟨b, s⟩ := q
      simp only [h1] at e
      cases h2 : mapNewAll g w ts with
      | none => simp [h2] at e
      | some q =>
        obtain ⟨bs', l'⟩ := q
        simp only [h2] at e
        cases e
        intro x hx
        rcases List.mem_cons.1 hx with rfl | hx
        · exact MState.new_due h1 (hg t)
        · exact ih h2 x hx

theorem pollSignals_due {w : Waker} {n : Nat} {p p' : List (VecDiff β)} {l l' : List (MState ι β)}
    {hp : Bool} (e : pollSignals w n p l = (hp, p', l')) (h : ∀ x ∈ l, x.sig.Due) :
    (∀ x ∈ l', x.sig.Due) ∧
    (leftSum (·.sig) l' < leftSum (·.sig) l ∨
      leftSum (·.sig) l' = leftSum (·.sig) l ∧ p' = p ∧ hp = false) := by
  induction l generalizing n p p' l' hp with
  | nil => simp only [pollSignals] at e; cases e; simp
  | cons s l ih =>
    obtain ⟨c, i, hi⟩ : ∃ c i, s.sig.poll w = (c, i) := ⟨_, _, rfl⟩
    obtain ⟨a1, a2⟩ := Inp.poll_due hi (h s (by simp))
    have ih' := fun n p p' l' hp e => ih (n := n) (p := p) (p' := p') (l' := l') (hp := hp) e
      (fun y hy => h y (by simp [hy]))
    simp only [pollSignals, hi] at e
    have key : ∃ p1 hp2 p2 l2, pollSignals w (n + 1) p1 l = (hp2, p2, l2) ∧ p' = p2 ∧
        l' = ⟨s.tag, i⟩ :: l2 ∧ (c = none → p1 = p ∧ hp = hp2) := by
      match c with
      | some (.ready (some v)) => cases e; exact ⟨_, _, _, _, rfl, rfl, rfl, by simp⟩
      | some (.ready none) => cases e; exact ⟨p, _, _, _, rfl, rfl, rfl, by simp⟩
      | some .pending => cases e; exact ⟨p, _, _, _, rfl, rfl, rfl, by simp⟩
      | none => cases e; exact ⟨p, _, _, _, rfl, rfl, rfl, by simp⟩
    obtain ⟨p1, hp2, p2, l2, k1, rfl, rfl, k2⟩ := key
    obtain ⟨b1, b2⟩ := ih' _ _ _ _ _ k1
    refine ⟨?_, ?_⟩
    · intro x hx
      rcases List.mem_cons.1 hx with rfl | hx
      · exact a1
      · exact b1 x hx
    · simp only [leftSum_cons]
      rcases a2 with ⟨a2, -⟩ | ⟨a2, a3, -⟩
      · rcases b2 with b2 | ⟨b2, -⟩ <;> exact .inl (by omega)
      · obtain ⟨k3, k4⟩ := k2 a3
        rw [a2]
        rcases b2 with b2 | ⟨b2, b3, b4⟩
        · exact .inl (by omega)
        · exact .inr ⟨by omega, by rw [b3, k3], by rw [k4, b4]⟩

theorem mapSignalBody_due {g : ι → List (Poll (Option β))} (hg : ∀ t, Finite (g t)) {w : Waker}
    {s s' : List (MState ι β) × List (VecDiff β)} {d : VecDiff ι} (h : ∀ x ∈ s.1, x.sig.Due)
    (e : mapSignalBody g w s d = .cont s') : ∀ x ∈ s'.1, x.sig.Due := by
  obtain ⟨l, np⟩ := s
  have hnew : ∀ t b s, MState.new g w t = some (b, s) → s.sig.Due :=
    fun t b s e => MState.new_due e (hg t)
  cases d with
  | replace vs =>
    simp only [mapSignalBody] at e
    split at e
    · cases e
    · rename_i hv; cases e; exact mapNewAll_due hv hg
  | insertAt i t =>
    simp only [mapSignalBody] at e
    split at e
    · cases e
    · rename_i hv
      split at e
      · cases e
      · rename_i hv'; cases e; exact all_insert h (hnew _ _ _ hv) hv'
  | updateAt i t =>
    simp only [mapSignalBody] at e
    split at e
    · cases e
    · rename_i hv
      split at e
      · cases e
      · rename_i hv'; cases e; exact all_set h (hnew _ _ _ hv) hv'
  | push t =>
    simp only [mapSignalBody] at e
    split at e
    · cases e
    · rename_i hv; cases e; exact all_snoc h (hnew _ _ _ hv)
  | move i j =>
    simp only [mapSignalBody] at e
    split at e
    · cases e
    · rename_i hv
      split at e
      · cases e
      · rename_i hv'; cases e; exact all_insert (all_remove h hv).2 (all_remove h hv).1 hv'
  | removeAt i =>
    simp only [mapSignalBody] at e
    split at e
    · cases e
    · rename_i hv; cases e; exact (all_remove h hv).2
  | pop =>
    simp only [mapSignalBody] at e
    split at e
    · cases e
    · rename_i hv; cases e; exact all_pop h hv
  | clear => simp only [mapSignalBody] at e; cases e; simp

/-- `map_signal`. -/
theorem C64_map_signal (g : ι → List (Poll (Option β)))
    (script : List (Poll (Option (VecDiff ι)))) (h : Finite script) (hg : ∀ t, Finite (g t)) :
    EndsSoon (VMapSignal.poll g) (VMapSignal.init script) := by
  refine ends_lex (fun s => s.signal.left) (fun s => leftSum (·.sig) s.signals)
    (fun s => s.pending.length)
    (fun s => s.signal.Due ∧ ∀ x ∈ s.signals, x.sig.Due) ?_ _
    ⟨Inp.due_mk' h, by simp [VMapSignal.init]⟩
  intro w s r s' ⟨hs, hi⟩ hp
  unfold VMapSignal.poll at hp
  cases hpe : s.pending with
  | cons d rest =>
    simp only [hpe] at hp
    cases hp
    exact .inr ⟨⟨hs, hi⟩, .inr ⟨rfl, .inr ⟨rfl, by simp [hpe]⟩⟩⟩
  | nil =>
    simp only [hpe] at hp
    obtain ⟨st, ⟨l, np⟩, i, e⟩ :
        ∃ st l i, s.signal.loop w (mapSignalBody g w) (s.signals, []) = (st, l, i) := ⟨_, _, _, rfl⟩
    obtain ⟨h1, h2⟩ := Inp.loop_due e hs
    have h3 : ∀ x ∈ l, x.sig.Due := Inp.loop_inv e (fun l => ∀ x ∈ l.1, x.sig.Due)
      (fun s a s' hh he => mapSignalBody_due hg hh he) (fun s a s' r => r.elim) hi
    rw [e] at hp
    have hfin : ∀ top, some (VMapSignal.finish w top i l np) = some (r, s') → s'.signal = i ∧
        (∀ x ∈ s'.signals, x.sig.Due) ∧
        (leftSum (·.sig) s'.signals < leftSum (·.sig) l ∨
          (top = true → np = [] → r = .ready none)) := by
      intro top hf
      unfold VMapSignal.finish at hf
      obtain ⟨hp, add, xs, hq⟩ : ∃ a b c, pollSignals w 0 np l = (a, b, c) := ⟨_, _, _, rfl⟩
      obtain ⟨b1, b2⟩ := pollSignals_due hq h3
      rw [hq] at hf
      cases add with
      | cons d rest =>
        cases hf
        refine ⟨rfl, b1, b2.imp id ?_⟩
        rintro ⟨-, rfl, -⟩ - h'
        cases h'
      | nil =>
        simp only at hf
        have hs' : s'.signal = i ∧ s'.signals = xs := by split at hf <;> cases hf <;> exact ⟨rfl, rfl⟩
        refine ⟨hs'.1, by rw [hs'.2]; exact b1, ?_⟩
        rw [hs'.2]
        refine b2.imp id ?_
        rintro ⟨-, -, b4⟩ ht -
        simp [ht, b4] at hf
        exact hf.1.symm
    cases st with
    | panic => cases hp
    | ret d => cases d
    | pending =>
      obtain ⟨f1, f2, -⟩ := hfin false hp
      rcases h2 with h2 | ⟨-, -, h2⟩
      · exact .inr ⟨⟨by rw [f1]; exact h1, f2⟩, .inl (by simp only [f1]; exact h2)⟩
      · cases h2
    | ended =>
      obtain ⟨f1, f2, f3⟩ := hfin true hp
      rcases h2 with h2 | ⟨h2, h4, -⟩
      · exact .inr ⟨⟨by rw [f1]; exact h1, f2⟩, .inl (by simp only [f1]; exact h2)⟩
      · cases h4
        rcases f3 with f3 | f3
        · exact .inr ⟨⟨by rw [f1]; exact h1, f2⟩, .inr ⟨by simp only [f1, h2], .inl f3⟩⟩
        · exact .inl (f3 rfl rfl)

/-! ## `filter_signal_cloned` -/

theorem FCState.new_due {g : α → List (Poll (Option Bool))} {w : Waker} {t : α} {s : FCState α}
    (e : FCState.new g w t = some s) (hg : Finite (g t)) : s.signal.Due := by
  unfold FCState.new at e
  obtain ⟨r, src, h⟩ : ∃ r src, (Src.mk' (g t)).poll w = (r, src) := ⟨_, _, rfl⟩
  have := Src.poll_mem h (x := .ready none) hg
  rw [h] at e
  match r with
  | .ready (some v) => cases e; exact fun _ => this.2 (by simp)
  | .ready none => cases e
  | .pending => cases e

theorem fcNewAll_due {g : α → List (Poll (Option Bool))} {w : Waker} {ts : List α} {bs : List α}
    {l : List (FCState α)} (e : fcNewAll g w ts = some (bs, l)) (hg : ∀ t, Finite (g t)) :
    ∀ x ∈ l, x.signal.Due := by
  induction ts generalizing bs l with
  | nil => simp only [fcNewAll] at e; cases e; simp
  | cons t ts ih =>
    simp only [fcNewAll] at e
    cases h1 : FCState.new g w t with
    | none => simp [h1] at e
    | some s =>
      simp only [h1] at e
      cases h2 : fcNewAll g w ts with
      | none => simp [h2] at e
      | some q =>
        obtain ⟨bs', l'⟩ := q
        simp only [h2] at e
        cases e
        intro x hx
        rcases List.mem_cons.1 hx with rfl | hx
        · exact FCState.new_due h1 (hg t)
        · exact ih h2 x hx

theorem FCState.drain_due {w : Waker} {s s' : FCState α} {p : Bool} (e : s.drain w = (p, s'))
    (h : s.signal.Due) : s'.signal.Due ∧ (s'.signal.left < s.signal.left ∨
      s'.signal = s.signal ∧ s'.isIn = s.isIn ∧ p = false) := by
  unfold FCState.drain at e
  obtain ⟨st, t, i, hi⟩ : ∃ st t i, s.signal.loop w
    (fun (_ : Bool) (b : Bool) => (Ctl.cont b : Ctl Bool Empty)) s.isIn = (st, t, i) :=
    ⟨_, _, _, rfl⟩
  obtain ⟨h1, h2⟩ := Inp.loop_due hi h
  rw [hi] at e
  cases st with
  | panic => cases e; exact ⟨h1, h2.imp id fun hh => ⟨hh.1, hh.2.1, rfl⟩⟩
  | ret d => cases d
  | ended => cases e; exact ⟨h1, h2.imp id fun hh => ⟨hh.1, hh.2.1, rfl⟩⟩
  | pending => cases e; exact ⟨h1, h2.imp id fun hh => by simp at hh⟩

theorem drainSignals_due {w : Waker} {n : Nat} {p p' : List (VecDiff α)} {l l' : List (FCState α)}
    {hp : Bool} (e : drainSignals w n p l = (hp, p', l')) (h : ∀ x ∈ l, x.signal.Due) :
    (∀ x ∈ l', x.signal.Due) ∧
    (leftSum (·.signal) l' < leftSum (·.signal) l ∨
      leftSum (·.signal) l' = leftSum (·.signal) l ∧ p' = p ∧ hp = false) := by
  induction l generalizing n p p' l' hp with
  | nil => simp only [drainSignals] at e; cases e; simp
  | cons s l ih =>
    obtain ⟨c, i, hi⟩ : ∃ c i, s.drain w = (c, i) := ⟨_, _, rfl⟩
    obtain ⟨a1, a2⟩ := FCState.drain_due hi (h s (by simp))
    have ih' := fun n p p' l' hp e => ih (n := n) (p := p) (p' := p') (l' := l') (hp := hp) e
      (fun y hy => h y (by simp [hy]))
    simp only [drainSignals, hi] at e
    have key : ∃ n1 p1 hp2 p2 l2, drainSignals w n1 p1 l = (hp2, p2, l2) ∧ p' = p2 ∧
        l' = i :: l2 ∧ (i.isIn = s.isIn → p1 = p) ∧ hp = (c || hp2) := by
      cases e
      exact ⟨_, _, _, _, _, rfl, rfl, rfl, fun h => by simp [h], rfl⟩
    obtain ⟨n1, p1, hp2, p2, l2, k1, rfl, rfl, k2, k5⟩ := key
    obtain ⟨b1, b2⟩ := ih' _ _ _ _ _ k1
    refine ⟨?_, ?_⟩
    · intro x hx
      rcases List.mem_cons.1 hx with rfl | hx
      · exact a1
      · exact b1 x hx
    · simp only [leftSum_cons]
      rcases a2 with a2 | ⟨a2, a3, a4⟩
      · rcases b2 with b2 | ⟨b2, -⟩ <;> exact .inl (by omega)
      · have k3 := k2 a3
        rw [a2]
        rcases b2 with b2 | ⟨b2, b3, b4⟩
        · exact .inl (by omega)
        · exact .inr ⟨by omega, by rw [b3, k3], by rw [k5, b4, a4]; rfl⟩

theorem filterSignalBody_due {g : α → List (Poll (Option Bool))} (hg : ∀ t, Finite (g t))
    {w : Waker} {s s' : List (FCState α) × List (VecDiff α)} {d : VecDiff α}
    (h : ∀ x ∈ s.1, x.signal.Due)
    (e : filterSignalBody g w s d = .cont s') : ∀ x ∈ s'.1, x.signal.Due := by
  obtain ⟨l, np⟩ := s
  have hnew : ∀ t s, FCState.new g w t = some s → s.signal.Due :=
    fun t s e => FCState.new_due e (hg t)
  cases d with
  | replace vs =>
    simp only [filterSignalBody] at e
    split at e
    · cases e
    · rename_i hv; cases e; exact fcNewAll_due hv hg
  | insertAt i t =>
    simp only [filterSignalBody] at e
    split at e
    · cases e
    · rename_i hv
      split at e
      · cases e
      · rename_i hv'
        have := all_insert h (hnew _ _ hv) hv'
        repeat' split at e
        all_goals first | (cases e; exact this) | cases e
  | updateAt i t =>
    simp only [filterSignalBody] at e
    split at e
    · cases e
    · rename_i st hv
      split at e
      · cases e
      · rename_i old hv'
        have hlt : i < l.length := (List.getElem?_eq_some_iff.1 hv').1
        have := all_set (i := i) (l' := l.set i st) h (hnew _ _ hv) (by simp [vSet, hlt])
        repeat' split at e
        all_goals first | (cases e; exact this) | cases e
  | push t =>
    simp only [filterSignalBody] at e
    split at e
    · cases e
    · rename_i hv
      split at e <;> cases e <;> exact all_snoc h (hnew _ _ hv)
  | move i j =>
    simp only [filterSignalBody] at e
    split at e
    · cases e
    · rename_i hv
      split at e
      · cases e
      · rename_i hv'
        have := all_insert (all_remove h hv).2 (all_remove h hv).1 hv'
        repeat' split at e
        all_goals first | (cases e; exact this) | cases e
  | removeAt i =>
    simp only [filterSignalBody] at e
    split at e
    · cases e
    · rename_i hv
      have := (all_remove h hv).2
      repeat' split at e
      all_goals first | (cases e; exact this) | cases e
  | pop =>
    simp only [filterSignalBody] at e
    split at e
    · cases e
    · rename_i hv
      have := all_pop h hv
      split at e <;> cases e <;> exact this
  | clear => simp only [filterSignalBody] at e; cases e; simp

/-- `filter_signal_cloned`. -/
theorem C64_filter_signal (g : α → List (Poll (Option Bool)))
    (script : List (Poll (Option (VecDiff α)))) (h : Finite script) (hg : ∀ t, Finite (g t)) :
    EndsSoon (VFilterSignal.poll g) (VFilterSignal.init script) := by
  refine ends_lex (fun s => s.signal.left) (fun s => leftSum (·.signal) s.signals)
    (fun s => s.pending.length)
    (fun s => s.signal.Due ∧ ∀ x ∈ s.signals, x.signal.Due) ?_ _
    ⟨Inp.due_mk' h, by simp [VFilterSignal.init]⟩
  intro w s r s' ⟨hs, hi⟩ hp
  unfold VFilterSignal.poll at hp
  cases hpe : s.pending with
  | cons d rest =>
    simp only [hpe] at hp
    cases hp
    exact .inr ⟨⟨hs, hi⟩, .inr ⟨rfl, .inr ⟨rfl, by simp [hpe]⟩⟩⟩
  | nil =>
    simp only [hpe] at hp
    obtain ⟨st, ⟨l, np⟩, i, e⟩ :
        ∃ st l i, s.signal.loop w (filterSignalBody g w) (s.signals, []) = (st, l, i) := ⟨_, _, _, rfl⟩
    obtain ⟨h1, h2⟩ := Inp.loop_due e hs
    have h3 : ∀ x ∈ l, x.signal.Due := Inp.loop_inv e (fun l => ∀ x ∈ l.1, x.signal.Due)
      (fun s a s' hh he => filterSignalBody_due hg hh he) (fun s a s' r => r.elim) hi
    rw [e] at hp
    have hfin : ∀ top, some (VFilterSignal.finish w top i l np) = some (r, s') → s'.signal = i ∧
        (∀ x ∈ s'.signals, x.signal.Due) ∧
        (leftSum (·.signal) s'.signals < leftSum (·.signal) l ∨
          (top = true → np = [] → r = .ready none)) := by
      intro top hf
      unfold VFilterSignal.finish at hf
      obtain ⟨hp, add, xs, hq⟩ : ∃ a b c, drainSignals w 0 np l = (a, b, c) := ⟨_, _, _, rfl⟩
      obtain ⟨b1, b2⟩ := drainSignals_due hq h3
      rw [hq] at hf
      cases add with
      | cons d rest =>
        cases hf
        refine ⟨rfl, b1, b2.imp id ?_⟩
        rintro ⟨-, rfl, -⟩ - h'
        cases h'
      | nil =>
        simp only at hf
        have hs' : s'.signal = i ∧ s'.signals = xs := by split at hf <;> cases hf <;> exact ⟨rfl, rfl⟩
        refine ⟨hs'.1, by rw [hs'.2]; exact b1, ?_⟩
        rw [hs'.2]
        refine b2.imp id ?_
        rintro ⟨-, -, b4⟩ ht -
        simp [ht, b4] at hf
        exact hf.1.symm
    cases st with
    | panic => cases hp
    | ret d => cases d
    | pending =>
      obtain ⟨f1, f2, -⟩ := hfin false hp
      rcases h2 with h2 | ⟨-, -, h2⟩
      · exact .inr ⟨⟨by rw [f1]; exact h1, f2⟩, .inl (by simp only [f1]; exact h2)⟩
      · cases h2
    | ended =>
      obtain ⟨f1, f2, f3⟩ := hfin true hp
      rcases h2 with h2 | ⟨h2, h4, -⟩
      · exact .inr ⟨⟨by rw [f1]; exact h1, f2⟩, .inl (by simp only [f1]; exact h2)⟩
      · cases h4
        rcases f3 with f3 | f3
        · exact .inr ⟨⟨by rw [f1]; exact h1, f2⟩, .inr ⟨by simp only [f1, h2], .inl f3⟩⟩
        · exact .inl (f3 rfl rfl)

/-! ## `delay_remove` -/

/-- What is left of the scripts of the futures. -/
def delaySum (l : List (DState α)) : Nat := (l.map fun s => s.future.todo.length).sum

theorem Completes.poll {src src' : Src β} {w : Waker} {r : Poll β} (e : src.poll w = (r, src'))
    (h : Completes src.todo) :
    src'.todo.length < src.todo.length ∧ (r = .pending → Completes src'.todo) := by
  obtain ⟨b, hb⟩ := h
  have := Src.poll_mem e hb
  exact ⟨this.1, fun hr => ⟨b, this.2 (by simp [hr])⟩⟩

theorem stay_cons_true (s : DState α) (l : List (DState α × Bool)) : stay ((s, true) :: l) = stay l := rfl
theorem stay_cons_false (s : DState α) (l : List (DState α × Bool)) :
    stay ((s, false) :: l) = s :: stay l := rfl

theorem markExisting_live (w : Waker) {fs : List (DState α)}
    (h : ∀ s ∈ fs, Completes s.future.todo) :
    ∀ s ∈ stay (markExisting w fs), Completes s.future.todo := by
  induction fs with
  | nil => simp [markExisting, stay]
  | cons s fs ih =>
    have ih := ih fun t ht => h t (by simp [ht])
    have hs := h s (by simp)
    simp only [markExisting, DState.shouldRemove]
    cases hr : s.isRemoving with
    | true =>
      simp only [if_true, stay_cons_false]
      intro x hx
      rcases List.mem_cons.1 hx with rfl | hx
      · exact hs
      · exact ih x hx
    | false =>
      obtain ⟨r, f, hp⟩ : ∃ r f, s.future.poll w = (r, f) := ⟨_, _, rfl⟩
      have := hs.poll hp
      simp only [hp, Bool.false_eq_true, if_false]
      cases r with
      | ready u => simpa only [stay_cons_true] using ih
      | pending =>
        simp only [stay_cons_false]
        intro x hx
        rcases List.mem_cons.1 hx with rfl | hx
        · exact this.2 rfl
        · exact ih x hx

theorem removeExisting_live {w : Waker} {v v' : DVars α} (e : v.removeExisting w = some v')
    (h : ∀ s ∈ v.futures, Completes s.future.todo) : ∀ s ∈ v'.futures, Completes s.future.todo := by
  obtain ⟨ds, dead, h1, -⟩ := removeAll_spec [] (markExisting w v.futures) v.newPending v.gone
  simp only [DVars.removeExisting] at e
  simp only [List.nil_append, List.length_nil] at h1
  rw [h1] at e
  cases e
  exact markExisting_live w h

theorem removeOne_live {w : Waker} {v v' : DVars α} {n : Nat} (e : v.removeOne w n = some v')
    (h : ∀ s ∈ v.futures, Completes s.future.todo) : ∀ s ∈ v'.futures, Completes s.future.todo := by
  unfold DVars.removeOne at e
  cases hn : v.futures[n]? with
  | none => simp [hn] at e
  | some s =>
    obtain ⟨hlt, hs⟩ := List.getElem?_eq_some_iff.1 hn
    have hmem : s ∈ v.futures := hs ▸ List.getElem_mem hlt
    have hsplit : v.futures = v.futures.take n ++ s :: v.futures.drop (n + 1) := by
      rw [← hs, List.getElem_cons_drop, List.take_append_drop]
    have hlen : (v.futures.take n).length = n := by simp; omega
    have hset : ∀ x, v.futures.set n x = v.futures.take n ++ x :: v.futures.drop (n + 1) := by
      intro x
      rw [List.set_eq_take_append_cons_drop, if_pos hlt]
    simp only [hn, DState.shouldRemove] at e
    cases hr : s.isRemoving with
    | true => simp [hr] at e
    | false =>
      obtain ⟨r, f, hp⟩ : ∃ r f, s.future.poll w = (r, f) := ⟨_, _, rfl⟩
      have hc := (h s hmem).poll hp
      simp only [hr, hp, Bool.false_eq_true, if_false] at e
      cases r with
      | ready u =>
        simp only at e
        obtain ⟨d, e1, -⟩ := removeIndex_spec (v.futures.take n) (v.futures.drop (n + 1))
          ⟨s.tag, f, false⟩ v.newPending v.gone
        rw [hlen, ← hset] at e1
        rw [e1] at e
        cases e
        intro x hx
        rcases List.mem_append.1 hx with hx | hx
        · exact h x (List.mem_of_mem_take hx)
        · exact h x (List.mem_of_mem_drop hx)
      | pending =>
        simp only at e
        cases e
        intro x hx
        rcases List.mem_or_eq_of_mem_set hx with hx | rfl
        · exact h x hx
        · exact hc.2 rfl

theorem delayBody_live {g : α → List (Poll Unit)} (hg : ∀ a, Completes (g a)) {w : Waker}
    {v v' : DVars α} {d : VecDiff α} (h : ∀ s ∈ v.futures, Completes s.future.todo)
    (e : delayBody g w v d = .cont v') : ∀ s ∈ v'.futures, Completes s.future.todo := by
  have hnew : ∀ a, Completes (DState.new g a).future.todo := hg
  have hmap : ∀ vs : List α, ∀ s ∈ vs.map (DState.new g), Completes s.future.todo := by
    intro vs s hs
    obtain ⟨a, -, rfl⟩ := List.mem_map.1 hs
    exact hnew a
  cases d with
  | replace vs =>
    simp only [delayBody] at e
    split at e
    · cases e; exact hmap vs
    · split at e
      · cases e
      · rename_i hv
        cases e
        intro s hs
        rcases List.mem_append.1 hs with hs | hs
        · exact removeExisting_live hv h s hs
        · exact hmap vs s hs
  | insertAt i a =>
    simp only [delayBody] at e
    split at e
    · cases e
    · rename_i hv; cases e; exact all_insert h (hnew a) hv
  | push a => simp only [delayBody] at e; cases e; exact all_snoc h (hnew a)
  | updateAt i a =>
    simp only [delayBody] at e
    split at e
    · cases e
    · split at e
      · cases e
      · rename_i hv; cases e; exact all_set h (hnew a) hv
  | move i j =>
    simp only [delayBody] at e
    split at e
    · cases e
    · split at e
      · cases e
      · rename_i hv
        split at e
        · cases e
        · rename_i hv'; cases e; exact all_insert (all_remove h hv).2 (all_remove h hv).1 hv'
  | removeAt i =>
    simp only [delayBody] at e
    split at e
    · cases e
    · rename_i n _
      cases hv : v.removeOne w n with
      | none => simp [hv, goOn] at e
      | some u => simp only [hv, goOn] at e; cases e; exact removeOne_live hv h
  | pop =>
    simp only [delayBody] at e
    split at e
    · cases e
    · rename_i n _
      cases hv : v.removeOne w n with
      | none => simp [hv, goOn] at e
      | some u => simp only [hv, goOn] at e; cases e; exact removeOne_live hv h
  | clear =>
    simp only [delayBody] at e
    cases hv : v.removeExisting w with
    | none => simp [hv, goOn] at e
    | some u => simp only [hv, goOn] at e; cases e; exact removeExisting_live hv h

theorem pollRemoving_live (w : Waker) {fs : List (DState α)}
    (h : ∀ s ∈ fs, Completes s.future.todo) :
    (∀ s ∈ stay (pollRemoving w fs).1, Completes s.future.todo) ∧
    (delaySum (stay (pollRemoving w fs).1) < delaySum fs ∨
      delaySum (stay (pollRemoving w fs).1) = delaySum fs ∧ (pollRemoving w fs).2 = false ∧
        ∀ x ∈ (pollRemoving w fs).1, x.2 = false) := by
  induction fs with
  | nil => simp [pollRemoving, stay, delaySum]
  | cons s fs ih =>
    obtain ⟨h1, h2⟩ := ih fun t ht => h t (by simp [ht])
    have hs := h s (by simp)
    obtain ⟨l, p, hq⟩ : ∃ l p, pollRemoving w fs = (l, p) := ⟨_, _, rfl⟩
    rw [hq] at h1 h2
    simp only [pollRemoving, hq]
    cases hr : s.isRemoving with
    | false =>
      simp only [Bool.false_eq_true, if_false, stay_cons_false]
      refine ⟨?_, ?_⟩
      · intro x hx
        rcases List.mem_cons.1 hx with rfl | hx
        · exact hs
        · exact h1 x hx
      · simp only [delaySum, List.map_cons, List.sum_cons] at h2 ⊢
        rcases h2 with h2 | ⟨h2, h3, h4⟩
        · exact .inl (by omega)
        · exact .inr ⟨by omega, h3, by simpa using h4⟩
    | true =>
      obtain ⟨r, f, hp⟩ : ∃ r f, s.future.poll w = (r, f) := ⟨_, _, rfl⟩
      have hc := hs.poll hp
      simp only [if_true, hp]
      cases r with
      | ready u =>
        simp only [stay_cons_true]
        refine ⟨h1, .inl ?_⟩
        simp only [delaySum, List.map_cons, List.sum_cons] at h2 ⊢
        rcases h2 with h2 | ⟨h2, -⟩ <;> omega
      | pending =>
        simp only [stay_cons_false]
        refine ⟨?_, .inl ?_⟩
        · intro x hx
          rcases List.mem_cons.1 hx with rfl | hx
          · exact hc.2 rfl
          · exact h1 x hx
        · simp only [delaySum, List.map_cons, List.sum_cons] at h2 ⊢
          rcases h2 with h2 | ⟨h2, -⟩ <;> omega

theorem indexesOf_nil {σ : Type} (n : Nat) (l : List (σ × Bool)) (h : ∀ x ∈ l, x.2 = false) :
    indexesOf n l = [] := by
  induction l generalizing n with
  | nil => rfl
  | cons x l ih =>
    obtain ⟨s, b⟩ := x
    have : b = false := h (s, b) (by simp)
    subst this
    exact ih _ fun y hy => h y (by simp [hy])

/-- `delay_remove`: the end is reported once the input ended and the futures of the elements being
removed completed. -/
theorem C64_delay_remove (g : α → List (Poll Unit)) (script : List (Poll (Option (VecDiff α))))
    (h : Finite script) (hg : ∀ a, Completes (g a)) :
    EndsSoon (VDelay.poll g) (VDelay.init script) := by
  refine ends_lex (fun s => s.signal.left) (fun s => delaySum s.futures)
    (fun s => s.pending.length)
    (fun s => s.signal.Due ∧ ∀ x ∈ s.futures, Completes x.future.todo) ?_ _
    ⟨Inp.due_mk' h, by simp [VDelay.init]⟩
  intro w s r s' ⟨hs, hi⟩ hp
  unfold VDelay.poll at hp
  cases hpe : s.pending with
  | cons d rest =>
    simp only [hpe] at hp
    cases hp
    exact .inr ⟨⟨hs, hi⟩, .inr ⟨rfl, .inr ⟨rfl, by simp [hpe]⟩⟩⟩
  | nil =>
    simp only [hpe] at hp
    obtain ⟨st, v, i, e⟩ :
        ∃ st l i, s.signal.loop w (delayBody g w) ⟨s.futures, [], s.gone⟩ = (st, l, i) :=
      ⟨_, _, _, rfl⟩
    obtain ⟨h1, h2⟩ := Inp.loop_due e hs
    have h3 : ∀ x ∈ v.futures, Completes x.future.todo :=
      Inp.loop_inv e (fun v => ∀ x ∈ v.futures, Completes x.future.todo)
      (fun s a s' hh he => delayBody_live hg hh he) (fun s a s' r => r.elim) hi
    rw [e] at hp
    have hfin : ∀ top, VDelay.finish w top i v = some (r, s') → s'.signal = i ∧
        (∀ x ∈ s'.futures, Completes x.future.todo) ∧
        (delaySum s'.futures < delaySum v.futures ∨
          (top = true → v.newPending = [] → r = .ready none)) := by
      intro top hf
      unfold VDelay.finish at hf
      obtain ⟨b1, b2⟩ := pollRemoving_live w h3
      obtain ⟨l, p, hq⟩ : ∃ l p, pollRemoving w v.futures = (l, p) := ⟨_, _, rfl⟩
      rw [hq] at b1 b2
      obtain ⟨ds, dead, c1, -⟩ := removeAll_spec [] l v.newPending v.gone
      simp only [List.nil_append, List.length_nil] at c1
      simp only [hq, c1] at hf
      have hs' : s'.signal = i ∧ s'.futures = stay l := by
        split at hf
        · cases hf; exact ⟨rfl, rfl⟩
        · split at hf <;> cases hf <;> exact ⟨rfl, rfl⟩
      refine ⟨hs'.1, by rw [hs'.2]; exact b1, ?_⟩
      rw [hs'.2]
      refine b2.imp id ?_
      rintro ⟨-, b3, b4⟩ rfl hnp
      rw [indexesOf_nil 0 l b4] at c1
      simp only [List.reverse_nil, DVars.removeAll] at c1
      have : v.newPending ++ ds = v.newPending := by
        injection c1 with c1
        injection c1 with c1 c2 c3
        exact c2.symm
      rw [this, hnp] at hf
      have b3' : p = false := b3
      simp [b3'] at hf
      exact hf.1.symm
    cases st with
    | panic => cases hp
    | ret d => cases d
    | pending =>
      obtain ⟨f1, f2, -⟩ := hfin false hp
      rcases h2 with h2 | ⟨-, -, h2⟩
      · exact .inr ⟨⟨by rw [f1]; exact h1, f2⟩, .inl (by simp only [f1]; exact h2)⟩
      · cases h2
    | ended =>
      obtain ⟨f1, f2, f3⟩ := hfin true hp
      rcases h2 with h2 | ⟨h2, h4, -⟩
      · exact .inr ⟨⟨by rw [f1]; exact h1, f2⟩, .inl (by simp only [f1]; exact h2)⟩
      · cases h4
        rcases f3 with f3 | f3
        · exact .inr ⟨⟨by rw [f1]; exact h1, f2⟩, .inr ⟨by simp only [f1, h2], .inl f3⟩⟩
        · exact .inl (f3 rfl rfl)

/-! ## `switch_signal_vec` -/

/-- `switch_signal_vec`: the end is reported once the outer signal and the last inner vector
ended. -/
theorem C64_switch_signal_vec (g : τ → List (Poll (Option (VecDiff α))))
    (script : List (Poll (Option τ))) (h : Finite script) (hg : ∀ t, Finite (g t)) :
    EndsSoon (VSwitch.poll g) (VSwitch.init script) := by
  refine ends_lex (fun s => s.signal.left) (fun s => s.inner.left) (fun _ => 0)
    (fun s => s.signal.Due ∧ s.inner.Due) ?_ _
    ⟨Inp.due_mk' h, by simp [VSwitch.init, Inp.Due]⟩
  intro w s r s' ⟨hs, hi⟩ hp
  unfold VSwitch.poll at hp
  obtain ⟨st, v, i, e⟩ : ∃ st v i, s.signal.loop w lastValue none = (st, v, i) := ⟨_, _, _, rfl⟩
  obtain ⟨h1, h2⟩ := Inp.loop_due e hs
  rw [e] at hp
  have hfin : ∀ top, VSwitch.finish g w top v i s = some (r, s') → s'.signal = i ∧ s'.inner.Due ∧
      (v = none → s'.inner.left < s.inner.left ∨ (top = true → r = .ready none)) := by
    intro top hf
    unfold VSwitch.finish at hf
    cases v with
    | some t =>
      obtain ⟨c, i', hc⟩ : ∃ c i', (Inp.mk' (g t)).poll w = (c, i') := ⟨_, _, rfl⟩
      have hd := (Inp.poll_due hc (Inp.due_mk' (hg t))).1
      simp only [hc] at hf
      have : s'.signal = i ∧ s'.inner = i' := by
        repeat' split at hf
        all_goals first
          | (cases hf; simp_all; done)
          | cases hf
      exact ⟨this.1, by rw [this.2]; exact hd, by simp⟩
    | none =>
      obtain ⟨c, i', hc⟩ : ∃ c i', s.inner.poll w = (c, i') := ⟨_, _, rfl⟩
      obtain ⟨hd, hd2⟩ := Inp.poll_due hc hi
      simp only [hc] at hf
      have : s'.signal = i ∧ s'.inner = i' := by
        repeat' split at hf
        all_goals first
          | (cases hf; simp_all; done)
          | cases hf
      refine ⟨this.1, by rw [this.2]; exact hd, fun _ => ?_⟩
      rw [this.2]
      rcases hd2 with hd2 | ⟨-, rfl, -⟩
      · exact .inl hd2.1
      · refine .inr ?_
        rintro rfl
        simp at hf
        exact hf.1.symm
  cases st with
  | panic => cases hp
  | ret d => cases d
  | pending =>
    obtain ⟨f1, f2, -⟩ := hfin false hp
    rcases h2 with h2 | ⟨-, -, h2⟩
    · exact .inr ⟨⟨by rw [f1]; exact h1, f2⟩, .inl (by simp only [f1]; exact h2)⟩
    · cases h2
  | ended =>
    obtain ⟨f1, f2, f3⟩ := hfin true hp
    rcases h2 with h2 | ⟨h2, h4, -⟩
    · exact .inr ⟨⟨by rw [f1]; exact h1, f2⟩, .inl (by simp only [f1]; exact h2)⟩
    · rcases f3 h4 with f3 | f3
      · exact .inr ⟨⟨by rw [f1]; exact h1, f2⟩, .inr ⟨by simp only [f1, h2], .inl f3⟩⟩
      · exact .inl (f3 rfl)

end Verif
