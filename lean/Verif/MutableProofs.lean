import Verif.MutableSpec

/-!
# Lemmas for `Mutable`
-/

namespace Verif.Mut

variable {α β : Type}

/-- The wakers in a cell, if its signal is alive. -/
def ChangedWaker.wakers (c : ChangedWaker) : List Waker := if c.alive then c.waker.toList else []

theorem flatMap_congr {γ δ : Type} {l : List γ} {f g : γ → List δ} (h : ∀ x ∈ l, f x = g x) :
    l.flatMap f = l.flatMap g := by
  induction l with
  | nil => rfl
  | cons x l ih => simp [List.flatMap_cons, h x (by simp), ih fun y hy => h y (by simp [hy])]

theorem retain_spec (hc : Bool) (l : List Nat) (m : World α) (hn : l.Nodup) :
    World.retain hc l m = (l.filter (fun i => (m.cell i).alive),
      { m with
        cell := fun j => if j ∈ l ∧ (m.cell j).alive then ((m.cell j).wake hc).1 else m.cell j
        woken := m.woken ++ l.flatMap (fun i => (m.cell i).wakers) }) := by
  induction l generalizing m with
  | nil => simp [World.retain]
  | cons i l ih =>
    obtain ⟨hi, hn⟩ := List.nodup_cons.1 hn
    unfold World.retain
    by_cases ha : (m.cell i).alive = true
    · simp only [ha, if_true, ChangedWaker.wake]
      rw [ih _ hn]
      have hcell : ∀ j ∈ l, j ≠ i := fun j hj h => hi (h ▸ hj)
      have e1 : l.filter (fun j => ((m.setCell i ⟨if hc = true then true else (m.cell i).changed, none,
          (m.cell i).alive⟩).cell j).alive) = l.filter (fun j => (m.cell j).alive) := by
        apply List.filter_congr
        intro j hj
        simp [World.setCell, hcell j hj]
      have e2 : l.flatMap (fun j => ((m.setCell i ⟨if hc = true then true else (m.cell i).changed, none,
          (m.cell i).alive⟩).cell j).wakers) = l.flatMap (fun j => (m.cell j).wakers) := by
        apply flatMap_congr
        intro j hj
        simp [World.setCell, hcell j hj]
      have e3 : (m.cell i).wakers = (m.cell i).waker.toList := by simp [ChangedWaker.wakers, ha]
      simp only [Prod.mk.injEq, World.mk.injEq]
      refine ⟨?_, rfl, rfl, rfl, ?_, rfl, rfl, ?_⟩
      · simpa [ha] using e1
      · funext j
        by_cases hj : j = i
        · subst hj
          simp [World.setCell, hi, ha]
        · simp [World.setCell, hj, ChangedWaker.wake]
      · rw [List.flatMap_cons, e3, ← e2, ha]
        exact List.append_assoc _ _ _
    · simp only [ha, Bool.false_eq_true, if_false]
      rw [ih _ hn]
      simp only [Prod.mk.injEq, World.mk.injEq]
      refine ⟨by simp [ha], trivial, trivial, trivial, ?_, trivial, trivial, ?_⟩
      · funext j
        by_cases hj : j = i
        · subst hj
          simp [ha]
        · simp [hj]
      · simp [List.flatMap_cons, ChangedWaker.wakers, ha]

theorem flatMap_filter {γ δ : Type} (p : γ → Bool) (g : γ → List δ) (l : List γ)
    (h : ∀ x ∈ l, p x = false → g x = []) : (l.filter p).flatMap g = l.flatMap g := by
  induction l with
  | nil => rfl
  | cons x l ih =>
    have ih := ih fun y hy => h y (by simp [hy])
    by_cases hp : p x = true
    · simp [hp, ih]
    · simp [hp, ih, h x (by simp) (by simpa using hp)]

theorem flatMap_range {γ δ : Type} (g : γ → List δ) (f : Nat → List δ) (l : List γ)
    (h : ∀ i x, l[i]? = some x → f i = g x) : (List.range l.length).flatMap f = l.flatMap g := by
  induction l generalizing f with
  | nil => rfl
  | cons x l ih =>
    rw [List.length_cons, List.range_succ_eq_map, List.flatMap_cons, List.flatMap_map, List.flatMap_cons,
      h 0 x (by simp), ih (fun i => f (i + 1)) fun i y hy => h (i + 1) y (by simpa using hy)]

/-- The cell that a signal of the specification stands for. -/
def Sub.cell (s : Sub) : ChangedWaker := ⟨s.fresh, s.waiting, !s.dropped⟩

/-- The model is in the state the user knows. -/
structure Sim (m : World α) (s : Spec α) : Prop where
  value : m.value = s.value
  senders : m.senders = s.handles
  handles : m.handles = s.handles
  cells : m.cells = s.subs.length
  cell : ∀ (i : Nat) (x : Sub), s.subs[i]? = some x → m.cell i = x.cell
  reg : ∃ p : Nat → Bool, m.signals = (List.range m.cells).filter p ∧
    ∀ (i : Nat) (x : Sub), s.subs[i]? = some x → x.dropped = false → p i = true ∨ s.handles = 0
  quiet : s.handles = 0 → m.signals = [] ∧ ∀ (i : Nat) (x : Sub), s.subs[i]? = some x → x.dropped = false →
    x.waiting = none

theorem sim_new (a : α) : Sim (World.new a) (Spec.new a) :=
  ⟨rfl, rfl, rfl, rfl, by simp [Spec.new], ⟨fun _ => true, by simp [World.new]⟩, by simp [Spec.new]⟩

theorem Sim.notify {m : World α} {s : Spec α} (h : Sim m s) (hs : s.handles ≠ 0) (hc : Bool) (a : α) :
    ∃ p : Nat → Bool,
    ({ m with value := a }.notify hc) = { m with
      value := a
      signals := (List.range m.cells).filter p
      cell := fun j => if (j ∈ m.signals ∧ (m.cell j).alive) then ((m.cell j).wake hc).1 else m.cell j
      woken := m.woken ++ s.subs.flatMap Sub.wakes } ∧
    (∀ (i : Nat) (x : Sub), s.subs[i]? = some x → x.dropped = false → p i = true) ∧
    (∀ (i : Nat) (x : Sub), s.subs[i]? = some x →
      (if (i ∈ m.signals ∧ (m.cell i).alive) then ((m.cell i).wake hc).1 else m.cell i) =
        (x.told hc).cell) := by
  obtain ⟨p, hp, hreg⟩ := h.reg
  have hn : m.signals.Nodup := by
    rw [hp]; exact List.nodup_range.sublist List.filter_sublist
  have hmem : ∀ (i : Nat) (x : Sub), s.subs[i]? = some x → x.dropped = false → i ∈ m.signals := by
    intro i x hx hd
    rw [hp, List.mem_filter, List.mem_range, h.cells]
    exact ⟨(List.getElem?_eq_some_iff.1 hx).1, (hreg i x hx hd).resolve_right hs⟩
  have hret := retain_spec hc m.signals ({ m with value := a } : World α) hn
  refine ⟨fun i => p i && (m.cell i).alive, ?_, ?_, ?_⟩
  · unfold World.notify
    simp only [hret, World.mk.injEq, true_and, and_true]
    refine ⟨?_, ?_⟩
    · rw [hp, List.filter_filter]
      apply List.filter_congr
      intro i _
      cases p i <;> simp
    · congr 1
      rw [hp, flatMap_filter, h.cells, flatMap_range Sub.wakes]
      · intro i x hx
        rw [h.cell i x hx]
        cases hd : x.dropped <;> simp [ChangedWaker.wakers, Sub.cell, Sub.wakes, hd]
      · intro i hi hpi
        have hi' : i < s.subs.length := by rw [← h.cells]; simpa using hi
        have hx : s.subs[i]? = some s.subs[i] := List.getElem?_eq_getElem hi'
        cases hd : s.subs[i].dropped with
        | false =>
          have := (hreg i _ hx hd).resolve_right hs
          rw [hpi] at this; simp at this
        | true =>
          rw [h.cell i _ hx]
          simp [ChangedWaker.wakers, Sub.cell, hd]
  · intro i x hx hd
    have := (hreg i x hx hd).resolve_right hs
    simp [this, h.cell i x hx, Sub.cell, hd]
  · intro i x hx
    rw [h.cell i x hx]
    cases hd : x.dropped with
    | false =>
      have := hmem i x hx hd
      cases hc <;> simp [Sub.cell, Sub.told, hd, this, ChangedWaker.wake]
    | true => simp [Sub.cell, Sub.told, hd]

/-- A notifying write. -/
theorem Sim.write {m : World α} {s : Spec α} (h : Sim m s) (hs : s.handles ≠ 0) (a : α) :
    Sim ({ m with value := a }.notify true) ⟨a, s.handles, s.subs.map (Sub.told true)⟩ ∧
    ({ m with value := a }.notify true).woken = m.woken ++ s.subs.flatMap Sub.wakes := by
  obtain ⟨p, h1, h2, h3⟩ := h.notify hs true a
  rw [h1]
  refine ⟨⟨rfl, h.senders, h.handles, by simp [h.cells], ?_, ⟨p, rfl, ?_⟩, fun h0 => absurd h0 hs⟩, rfl⟩
  · intro i x hx
    simp only [List.getElem?_map, Option.map_eq_some_iff] at hx
    obtain ⟨y, hy, rfl⟩ := hx
    exact h3 i y hy
  · intro i x hx hd
    simp only [List.getElem?_map, Option.map_eq_some_iff] at hx
    obtain ⟨y, hy, rfl⟩ := hx
    refine .inl (h2 i y hy ?_)
    cases hyd : y.dropped with
    | false => rfl
    | true => simp [Sub.told, hyd] at hd

theorem useAll_eq (us : List (Use α)) (b : Bool) (a : α) :
    useAll us b a = (b || usesMut us, usesValue us a) := by
  induction us generalizing b a with
  | nil => simp [useAll, usesMut, usesValue]
  | cons u us ih => cases u <;> simp [useAll, usesMut, usesValue, ih]

theorem usesValue_of_not_mut (us : List (Use α)) (h : usesMut us = false) (a : α) :
    usesValue us a = a := by
  induction us with
  | nil => rfl
  | cons u us ih =>
    cases u with
    | deref => exact ih h
    | derefMut f => simp [usesMut] at h

theorem getElem?_modify_some {γ : Type} {l : List γ} {i j : Nat} {f : γ → γ} {x : γ}
    (h : (l.modify i f)[j]? = some x) : ∃ y, l[j]? = some y ∧ x = if i = j then f y else y := by
  rw [List.getElem?_modify] at h
  rw [Option.map_eq_map, Option.map_eq_some_iff] at h
  obtain ⟨y, hy, he⟩ := h
  exact ⟨y, hy, by rw [← he]⟩

/-- Every step of the model is a step of the specification. -/
theorem Sim.step {m m' : World α} {s : Spec α} {e : Ev α} {o : Obs α} (h : Sim m s)
    (hs : m.step e = some (o, m')) :
    Sim m' (s.next e) ∧ o = s.obs e ∧ m'.woken = m.woken ++ s.wakes e := by
  cases e with
  | set a =>
    simp only [World.step] at hs
    split at hs
    · simp at hs
    · rename_i h0
      cases hs
      obtain ⟨k1, k2⟩ := h.write (by rw [← h.handles]; exact h0) a
      exact ⟨by simpa [World.set, Spec.next, Ev.newValue, Ev.newHandles, Ev.notifies] using k1, rfl,
        by simpa [World.set, Spec.wakes, Ev.notifies] using k2⟩
  | replace a =>
    simp only [World.step, World.replace] at hs
    split at hs
    · simp at hs
    · rename_i h0
      cases hs
      obtain ⟨k1, k2⟩ := h.write (by rw [← h.handles]; exact h0) a
      exact ⟨by simpa [Spec.next, Ev.newValue, Ev.newHandles, Ev.notifies] using k1,
        by simp [Spec.obs, h.value], by simpa [Spec.wakes, Ev.notifies] using k2⟩
  | replaceWith f =>
    simp only [World.step, World.replaceWith] at hs
    split at hs
    · simp at hs
    · rename_i h0
      cases hs
      obtain ⟨k1, k2⟩ := h.write (by rw [← h.handles]; exact h0) (f m.value).1
      exact ⟨by simpa [Spec.next, Ev.newValue, Ev.newHandles, Ev.notifies, h.value] using k1,
        by simp [Spec.obs, h.value], by simpa [Spec.wakes, Ev.notifies] using k2⟩
  | setIf a f =>
    simp only [World.step, World.setIf] at hs
    split at hs
    · simp at hs
    · rename_i h0
      cases hs
      by_cases hf : f m.value a = true
      · obtain ⟨k1, k2⟩ := h.write (by rw [← h.handles]; exact h0) a
        rw [h.value] at hf
        simp only [h.value, hf, if_true]
        exact ⟨by simpa [Spec.next, Ev.newValue, Ev.newHandles, Ev.notifies, hf] using k1, rfl,
          by simpa [Spec.wakes, Ev.notifies, hf] using k2⟩
      · rw [h.value] at hf
        simp only [h.value, hf, if_false, Bool.false_eq_true]
        exact ⟨by simpa [Spec.next, Ev.newValue, Ev.newHandles, Ev.notifies, hf] using h, rfl,
          by simp [Spec.wakes, Ev.notifies, hf]⟩
  | lockMut us =>
    simp only [World.step, World.lockMut, useAll_eq] at hs
    split at hs
    · simp at hs
    · rename_i h0
      cases hf : usesMut us with
      | true =>
        simp only [hf, Bool.or_true] at hs
        cases hs
        obtain ⟨k1, k2⟩ := h.write (by rw [← h.handles]; exact h0) (usesValue us m.value)
        exact ⟨by simpa [Spec.next, Ev.newValue, Ev.newHandles, Ev.notifies, hf, h.value] using k1, rfl,
          by simpa [Spec.wakes, Ev.notifies, hf] using k2⟩
      | false =>
        simp only [hf, Bool.or_false] at hs
        cases hs
        rw [usesValue_of_not_mut us hf]
        exact ⟨by simpa [Spec.next, Ev.newValue, Ev.newHandles, Ev.notifies, hf,
          usesValue_of_not_mut us hf] using h, rfl, by simp [Spec.wakes, Ev.notifies, hf]⟩
  | get =>
    simp only [World.step] at hs
    cases hs
    exact ⟨by simpa [Spec.next, Ev.newValue, Ev.newHandles, Ev.notifies] using h,
      by simp [Spec.obs, h.value], by simp [Spec.wakes, Ev.notifies]⟩
  | clone =>
    simp only [World.step, World.clone] at hs
    split at hs
    · simp at hs
    · rename_i h0
      cases hs
      refine ⟨?_, rfl, by simp [Spec.wakes, Ev.notifies]⟩
      obtain ⟨p, hp, hreg⟩ := h.reg
      have hs0 : s.handles ≠ 0 := by rw [← h.handles]; exact h0
      exact ⟨h.value, by simp [Spec.next, Ev.newHandles, h.senders],
        by simp [Spec.next, Ev.newHandles, h.handles], h.cells, h.cell,
        ⟨p, hp, fun i x hx hd => .inl ((hreg i x hx hd).resolve_right hs0)⟩,
        fun h1 => by simp [Spec.next, Ev.newHandles] at h1⟩
  | drop =>
    simp only [World.step, World.drop] at hs
    split at hs
    · simp at hs
    · rename_i h0
      have hs0 : s.handles ≠ 0 := by rw [← h.handles]; exact h0
      obtain ⟨p, hp, hreg⟩ := h.reg
      by_cases h1 : m.senders = 1
      · have hs1 : s.handles = 1 := by rw [← h.senders]; exact h1
        obtain ⟨q, k1, k2, k3⟩ := h.notify hs0 false m.value
        by_cases hl : m.signals.length > 0
        · simp only [h1, hl, if_true] at hs
          cases hs
          have key : ({ m with senders := 1 - 1, handles := m.handles - 1 } : World α).notify false =
              { (m.notify false) with senders := 1 - 1, handles := m.handles - 1 } := by
            obtain ⟨p, hp, hreg⟩ := h.reg
            have hn : m.signals.Nodup := by
              rw [hp]; exact List.nodup_range.sublist List.filter_sublist
            unfold World.notify
            simp only [retain_spec false m.signals _ hn]
          rw [key]
          have k1' : m.notify false = _ := k1
          rw [k1']
          refine ⟨⟨h.value, by simp [Spec.next, Ev.newHandles, hs1],
            by simp [Spec.next, Ev.newHandles, hs1, h.handles], by simp [Spec.next, h.cells, hs1],
            ?_, ⟨fun _ => false, by simp, fun i x hx hd => .inr (by simp [Spec.next, Ev.newHandles, hs1])⟩,
            fun _ => ⟨rfl, ?_⟩⟩, rfl, by simp [Spec.wakes, hs1]⟩
          · intro i x hx
            simp only [Spec.next, hs1, if_true, List.getElem?_map, Option.map_eq_some_iff] at hx
            obtain ⟨y, hy, rfl⟩ := hx
            exact k3 i y hy
          · intro i x hx hd
            simp only [Spec.next, hs1, if_true, List.getElem?_map, Option.map_eq_some_iff] at hx
            obtain ⟨y, hy, rfl⟩ := hx
            cases hyd : y.dropped with
            | false => simp [Sub.told, hyd]
            | true => simp [Sub.told, hyd] at hd
        · simp only [h1, hl, if_true, if_false] at hs
          cases hs
          have hnil : m.signals = [] := List.eq_nil_of_length_eq_zero (by omega)
          have hall : ∀ (i : Nat) (x : Sub), s.subs[i]? = some x → x.dropped = true := by
            intro i x hx
            cases hd : x.dropped with
            | true => rfl
            | false =>
              have h2 := (hreg i x hx hd).resolve_right hs0
              have : i ∈ m.signals := by
                rw [hp, List.mem_filter, List.mem_range, h.cells]
                exact ⟨(List.getElem?_eq_some_iff.1 hx).1, h2⟩
              rw [hnil] at this
              simp at this
          have hmap : s.subs.map (Sub.told false) = s.subs := by
            apply List.ext_getElem?
            intro i
            rw [List.getElem?_map]
            cases hx : s.subs[i]? with
            | none => rfl
            | some x => simp [Sub.told, hall i x hx]
          have hw : s.subs.flatMap Sub.wakes = [] := by
            rw [List.flatMap_eq_nil_iff]
            intro x hx
            obtain ⟨i, hi⟩ := List.mem_iff_getElem?.1 hx
            simp [Sub.wakes, hall i x hi]
          refine ⟨⟨h.value, by simp [Spec.next, Ev.newHandles, hs1],
            by simp [Spec.next, Ev.newHandles, hs1, h.handles], by simp [Spec.next, h.cells, hs1],
            ?_, ⟨p, hp, fun i x hx hd => .inr (by simp [Spec.next, Ev.newHandles, hs1])⟩,
            fun _ => ⟨hnil, ?_⟩⟩, rfl, by simp [Spec.wakes, hs1, hw]⟩
          · intro i x hx
            simp only [Spec.next, hs1, if_true, hmap] at hx
            exact h.cell i x hx
          · intro i x hx hd
            simp only [Spec.next, hs1, if_true, hmap] at hx
            rw [hall i x hx] at hd
            simp at hd
      · have hs1 : s.handles ≠ 1 := by rw [← h.senders]; exact h1
        simp only [h1, if_false] at hs
        cases hs
        refine ⟨⟨h.value, by simp [Spec.next, Ev.newHandles, h.senders],
          by simp [Spec.next, Ev.newHandles, h.handles], by simp [Spec.next, h.cells, hs1],
          by simpa [Spec.next, hs1] using h.cell, ⟨p, hp, ?_⟩, ?_⟩, rfl, by simp [Spec.wakes, hs1]⟩
        · intro i x hx hd
          simp only [Spec.next, hs1, if_false] at hx
          exact .inl ((hreg i x hx hd).resolve_right hs0)
        · intro h2
          simp only [Spec.next, Ev.newHandles] at h2
          omega
  | signal =>
    simp only [World.step] at hs
    cases hs
    obtain ⟨p, hp, hreg⟩ := h.reg
    have hcell : ∀ i x, (s.subs ++ [⟨true, none, false⟩])[i]? = some x →
        (if i = m.cells then ChangedWaker.new else m.cell i) = x.cell := by
      intro i x hx
      rw [List.getElem?_append] at hx
      split at hx
      · rename_i hi
        rw [if_neg (by rw [h.cells]; omega)]
        exact h.cell i x hx
      · rename_i hi
        have hi2 : i - s.subs.length = 0 := by
          have := (List.getElem?_eq_some_iff.1 hx).1
          simp at this
          omega
        rw [hi2] at hx
        simp only [List.getElem?_cons_zero, Option.some.injEq] at hx
        rw [if_pos (by rw [h.cells]; omega), ← hx]
        rfl
    by_cases h0 : m.senders = 0
    · have hs0 : s.handles = 0 := by rw [← h.senders]; exact h0
      have hm' : m.signalState = { m.setCell m.cells ChangedWaker.new with cells := m.cells + 1 } := by
        simp [World.signalState, h0]
      rw [hm']
      refine ⟨⟨h.value, h.senders, h.handles, by simp [Spec.next, h.cells], hcell, ⟨fun _ => false, ?_,
        fun i x hx hd => .inr hs0⟩, fun _ => ⟨(h.quiet hs0).1, ?_⟩⟩, rfl,
        by simp [Spec.wakes, Ev.notifies, World.setCell]⟩
      · have : ∀ l : List Nat, l.filter (fun _ => false) = [] := by simp
        rw [this]
        exact (h.quiet hs0).1
      · intro i x hx hd
        simp only [Spec.next] at hx
        rw [List.getElem?_append] at hx
        split at hx
        · exact (h.quiet hs0).2 i x hx hd
        · rename_i hi
          have hi2 : i - s.subs.length = 0 := by
            have := (List.getElem?_eq_some_iff.1 hx).1
            simp at this
            omega
          rw [hi2] at hx
          simp only [List.getElem?_cons_zero, Option.some.injEq] at hx
          rw [← hx]
    · have hs0 : s.handles ≠ 0 := by rw [← h.senders]; exact h0
      have hm' : m.signalState = { m.setCell m.cells ChangedWaker.new with
          cells := m.cells + 1, signals := m.signals ++ [m.cells] } := by
        simp [World.signalState, h0]
      rw [hm']
      refine ⟨⟨h.value, h.senders, h.handles, by simp [Spec.next, h.cells], hcell,
        ⟨fun i => p i || i == m.cells, ?_, ?_⟩, fun h2 => absurd h2 hs0⟩, rfl,
        by simp [Spec.wakes, Ev.notifies, World.setCell]⟩
      · simp only [List.range_succ, List.filter_append]
        congr 1
        · rw [hp]
          apply List.filter_congr
          intro i hi
          have : i < m.cells := by simpa using hi
          have : (i == m.cells) = false := by simp; omega
          simp [this]
        · simp
      · intro i x hx hd
        left
        simp only [Spec.next] at hx
        rw [List.getElem?_append] at hx
        split at hx
        · simp [(hreg i x hx hd).resolve_right hs0]
        · rename_i hi
          have : i = m.cells := by
            have := (List.getElem?_eq_some_iff.1 hx).1
            simp at this
            rw [h.cells]
            omega
          simp [this]
  | poll i w =>
    simp only [World.step] at hs
    split at hs
    · rename_i hi
      cases hs
      obtain ⟨p, hp, hreg⟩ := h.reg
      have hi' : i < s.subs.length := by rw [← h.cells]; exact hi.1
      have hx : s.subs[i]? = some s.subs[i] := List.getElem?_eq_getElem hi'
      generalize s.subs[i] = x at hx
      have hcx := h.cell i x hx
      have hreg' : ∀ (c : Nat → Option Waker → Option Waker) j y, (s.subs.modify i fun s =>
          ⟨false, c 0 s.waiting, s.dropped⟩)[j]? = some y → y.dropped = false →
          p j = true ∨ s.handles = 0 := by
        intro c j y hy hd
        obtain ⟨z, hz, rfl⟩ := getElem?_modify_some hy
        refine hreg j z hz ?_
        split at hd <;> exact hd
      have hw : s.wakes (.poll i w) = [] := by simp [Spec.wakes, Ev.notifies]
      cases hf : x.fresh with
      | true =>
        have hm' : m.pollChange i w id = (.ready (some m.value), m.setCell i ⟨false, x.waiting, !x.dropped⟩) := by
          simp [World.pollChange, hcx, ChangedWaker.isChanged, Sub.cell, hf]
        rw [hm']
        refine ⟨⟨h.value, h.senders, h.handles, by simp [Spec.next, h.cells, World.setCell], ?_,
          ⟨p, hp, ?_⟩, fun h0 => ⟨(h.quiet h0).1, ?_⟩⟩,
          by simp [Spec.obs, hx, Spec.answer, hf, h.value], by simp [hw, World.setCell]⟩
        · intro j y hy
          obtain ⟨z, hz, rfl⟩ := getElem?_modify_some hy
          by_cases hj : j = i
          · subst hj
            rw [hx] at hz
            cases hz
            simp [World.setCell, Sub.cell, hf]
          · simp [World.setCell, hj, Ne.symm hj, h.cell j z hz]
        · intro j y hy hd
          obtain ⟨z, hz, rfl⟩ := getElem?_modify_some hy
          refine hreg j z hz ?_
          split at hd <;> exact hd
        · intro j y hy hd
          obtain ⟨z, hz, rfl⟩ := getElem?_modify_some hy
          by_cases hj : i = j
          · subst hj
            rw [hx] at hz
            cases hz
            simp only [if_true] at hd ⊢
            simp [hf, (h.quiet h0).2 i x hx hd]
          · simp only [hj, if_false] at hd ⊢
            exact (h.quiet h0).2 j z hz hd
      | false =>
        by_cases h0 : s.handles = 0
        · have hs0 : m.senders = 0 := by rw [h.senders]; exact h0
          have hm' : m.pollChange i w id = (.ready none, m.setCell i ⟨false, x.waiting, !x.dropped⟩) := by
            simp [World.pollChange, hcx, ChangedWaker.isChanged, Sub.cell, hf, hs0]
          rw [hm']
          refine ⟨⟨h.value, h.senders, h.handles, by simp [Spec.next, h.cells, World.setCell], ?_,
            ⟨p, hp, fun j y hy hd => .inr h0⟩, fun _ => ⟨(h.quiet h0).1, ?_⟩⟩,
            by simp [Spec.obs, hx, Spec.answer, hf, h0], by simp [hw, World.setCell]⟩
          · intro j y hy
            obtain ⟨z, hz, rfl⟩ := getElem?_modify_some hy
            by_cases hj : j = i
            · subst hj
              rw [hx] at hz
              cases hz
              simp [World.setCell, Sub.cell, h0]
            · simp [World.setCell, hj, Ne.symm hj, h.cell j z hz]
          · intro j y hy hd
            obtain ⟨z, hz, rfl⟩ := getElem?_modify_some hy
            by_cases hj : i = j
            · subst hj
              rw [hx] at hz
              cases hz
              simp only [if_true] at hd ⊢
              simp [h0, (h.quiet h0).2 i x hx hd]
            · simp only [hj, if_false] at hd ⊢
              exact (h.quiet h0).2 j z hz hd
        · have hs0 : m.senders ≠ 0 := by rw [h.senders]; exact h0
          have hm' : m.pollChange i w id = (.pending, m.setCell i ⟨false, some w, !x.dropped⟩) := by
            simp [World.pollChange, hcx, ChangedWaker.isChanged, Sub.cell, hf, hs0,
              ChangedWaker.setWaker]
          rw [hm']
          refine ⟨⟨h.value, h.senders, h.handles, by simp [Spec.next, h.cells, World.setCell], ?_,
            ⟨p, hp, ?_⟩, fun h1 => absurd h1 h0⟩,
            by simp [Spec.obs, hx, Spec.answer, hf, h0], by simp [hw, World.setCell]⟩
          · intro j y hy
            obtain ⟨z, hz, rfl⟩ := getElem?_modify_some hy
            by_cases hj : j = i
            · subst hj
              rw [hx] at hz
              cases hz
              simp [World.setCell, Sub.cell, hf, h0]
            · simp [World.setCell, hj, Ne.symm hj, h.cell j z hz]
          · intro j y hy hd
            obtain ⟨z, hz, rfl⟩ := getElem?_modify_some hy
            refine hreg j z hz ?_
            split at hd <;> exact hd
    · simp at hs
  | dropSignal i =>
    simp only [World.step] at hs
    split at hs
    · rename_i hi
      cases hs
      obtain ⟨p, hp, hreg⟩ := h.reg
      refine ⟨⟨h.value, h.senders, h.handles, by simp [Spec.next, h.cells, World.setCell, World.dropSignal], ?_,
        ⟨p, hp, ?_⟩, fun h0 => ⟨(h.quiet h0).1, ?_⟩⟩, rfl,
        by simp [Spec.wakes, Ev.notifies, World.setCell, World.dropSignal]⟩
      · intro j y hy
        obtain ⟨z, hz, rfl⟩ := getElem?_modify_some hy
        by_cases hj : j = i
        · subst hj
          simp [World.setCell, World.dropSignal, h.cell j z hz, Sub.cell]
        · simp [World.setCell, World.dropSignal, hj, Ne.symm hj, h.cell j z hz]
      · intro j y hy hd
        obtain ⟨z, hz, rfl⟩ := getElem?_modify_some hy
        by_cases hj : i = j
        · simp [hj] at hd
        · simp only [hj, if_false] at hd
          exact hreg j z hz hd
      · intro j y hy hd
        obtain ⟨z, hz, rfl⟩ := getElem?_modify_some hy
        by_cases hj : i = j
        · simp [hj] at hd
        · simp only [hj, if_false] at hd ⊢
          exact (h.quiet h0).2 j z hz hd
    · simp at hs

/-! ## Histories -/

theorem snocRec {γ : Type} {P : List γ → Prop} (nil : P []) (snoc : ∀ l x, P l → P (l ++ [x])) :
    ∀ l, P l := by
  intro l
  have key : ∀ n (l : List γ), l.length = n → P l := by
    intro n
    induction n with
    | zero => intro l hl; rw [List.eq_nil_of_length_eq_zero hl]; exact nil
    | succ n ih =>
      intro l hl
      rcases List.eq_nil_or_concat l with rfl | ⟨l, x, rfl⟩
      · simp at hl
      · rw [List.concat_eq_append] at hl ⊢
        exact snoc l x (ih l (by simpa using hl))
  exact key _ l rfl

theorem runs_append {m m' : World α} {es es' : List (Ev α)} {os : List (Obs α)}
    (h : m.runs (es ++ es') = some (os, m')) :
    ∃ os1 os2 m1, m.runs es = some (os1, m1) ∧ m1.runs es' = some (os2, m') ∧ os = os1 ++ os2 := by
  induction es generalizing m os with
  | nil => exact ⟨[], os, m, rfl, h, rfl⟩
  | cons e es ih =>
    simp only [List.cons_append, World.runs] at h ⊢
    cases hs : m.step e with
    | none => simp [hs] at h
    | some p =>
      obtain ⟨o, m1⟩ := p
      simp only [hs] at h
      cases hr : m1.runs (es ++ es') with
      | none => simp [hr] at h
      | some q =>
        obtain ⟨os', m2⟩ := q
        simp only [hr, Option.some.injEq, Prod.mk.injEq] at h
        obtain ⟨rfl, rfl⟩ := h
        obtain ⟨os1, os2, m3, h1, h2, rfl⟩ := ih hr
        exact ⟨o :: os1, os2, m3, by simp [h1], h2, rfl⟩

theorem runs_append_of {m m1 m' : World α} {es es' : List (Ev α)} {os1 os2 : List (Obs α)}
    (h1 : m.runs es = some (os1, m1)) (h2 : m1.runs es' = some (os2, m')) :
    m.runs (es ++ es') = some (os1 ++ os2, m') := by
  induction es generalizing m os1 with
  | nil => cases h1; exact h2
  | cons e es ih =>
    simp only [List.cons_append, World.runs] at h1 ⊢
    cases hs : m.step e with
    | none => simp [hs] at h1
    | some p =>
      obtain ⟨o, m2⟩ := p
      simp only [hs] at h1 ⊢
      cases hr : m2.runs es with
      | none => simp [hr] at h1
      | some q =>
        obtain ⟨os', m3⟩ := q
        simp only [hr, Option.some.injEq, Prod.mk.injEq] at h1
        obtain ⟨rfl, rfl⟩ := h1
        simp [ih hr]

theorem runs_snoc {m m' : World α} {es : List (Ev α)} {e : Ev α} {os : List (Obs α)}
    (h : m.runs (es ++ [e]) = some (os, m')) :
    ∃ os1 o m1, m.runs es = some (os1, m1) ∧ m1.step e = some (o, m') ∧ os = os1 ++ [o] := by
  obtain ⟨os1, os2, m1, h1, h2, rfl⟩ := runs_append h
  simp only [World.runs] at h2
  cases hs : m1.step e with
  | none => simp [hs] at h2
  | some p =>
    obtain ⟨o, m2⟩ := p
    simp only [hs, Option.some.injEq, Prod.mk.injEq] at h2
    obtain ⟨rfl, rfl⟩ := h2
    exact ⟨os1, o, m2 |> fun _ => m1, h1, hs, rfl⟩

theorem Sim.runs {m m' : World α} {s : Spec α} {es : List (Ev α)} {os : List (Obs α)} (h : Sim m s)
    (hr : m.runs es = some (os, m')) :
    Sim m' (s.after es) ∧ os = s.trace es ∧ m'.woken = m.woken ++ s.wakeLog es := by
  induction es generalizing m s os with
  | nil => cases hr; exact ⟨h, rfl, by simp [Spec.wakeLog]⟩
  | cons e es ih =>
    simp only [World.runs] at hr
    cases hs : m.step e with
    | none => simp [hs] at hr
    | some p =>
      obtain ⟨o, m1⟩ := p
      simp only [hs] at hr
      cases hr1 : m1.runs es with
      | none => simp [hr1] at hr
      | some q =>
        obtain ⟨os', m2⟩ := q
        simp only [hr1, Option.some.injEq, Prod.mk.injEq] at hr
        obtain ⟨rfl, rfl⟩ := hr
        obtain ⟨h1, rfl, h3⟩ := h.step hs
        obtain ⟨g1, rfl, g3⟩ := ih h1 hr1
        exact ⟨g1, rfl, by rw [g3, h3, List.append_assoc]; rfl⟩

theorem after_append (s : Spec α) (es es' : List (Ev α)) :
    s.after (es ++ es') = (s.after es).after es' := by simp [Spec.after]

theorem after_value (s : Spec α) (es : List (Ev α)) : (s.after es).value = valueAfter s.value es := by
  induction es generalizing s with
  | nil => rfl
  | cons e es ih => exact ih _

theorem after_handles (s : Spec α) (es : List (Ev α)) :
    (s.after es).handles = handlesAfter s.handles es := by
  induction es generalizing s with
  | nil => rfl
  | cons e es ih => exact ih _

theorem unread_snoc (a : α) (i : Nat) (es : List (Ev α)) (e : Ev α) :
    Unread a i (es ++ [e]) ↔
      (∀ w, e ≠ .poll i w) ∧ (e.notifies (valueAfter a es) = true ∨ Unread a i es) := by
  constructor
  · rintro (h | ⟨es1, e1, es2, he, hn, hp⟩)
    · exact ⟨fun w hw => h w (by simp [hw]), .inr (.inl fun w hw => h w (by simp [hw]))⟩
    · rcases List.eq_nil_or_concat es2 with rfl | ⟨es3, e3, rfl⟩
      · obtain ⟨rfl, h2⟩ := List.append_inj' he rfl
        simp only [List.cons.injEq, and_true] at h2
        subst h2
        exact ⟨fun w hw => by subst hw; simp [Ev.notifies] at hn, .inl hn⟩
      · rw [List.concat_eq_append, ← List.cons_append, ← List.append_assoc] at he
        obtain ⟨rfl, h2⟩ := List.append_inj' he rfl
        simp only [List.cons.injEq, and_true] at h2
        subst h2
        refine ⟨fun w hw => hp w (by simp [hw]), .inr (.inr ⟨es1, e1, es3, rfl, hn, fun w hw => hp w (by simp [hw])⟩)⟩
  · rintro ⟨h1, h2 | h2 | ⟨es1, e1, es2, rfl, hn, hp⟩⟩
    · exact .inr ⟨es, e, [], rfl, h2, by simp⟩
    · refine .inl fun w hw => ?_
      rcases List.mem_append.1 hw with hw | hw
      · exact h2 w hw
      · exact h1 w (List.mem_singleton.1 hw).symm
    · refine .inr ⟨es1, e1, es2 ++ [e], by simp, hn, fun w hw => ?_⟩
      rcases List.mem_append.1 hw with hw | hw
      · exact hp w hw
      · exact h1 w (List.mem_singleton.1 hw).symm

theorem sim_runs_new {a : α} {es : List (Ev α)} {os : List (Obs α)} {m : World α}
    (h : (World.new a).runs es = some (os, m)) : Sim m ((Spec.new a).after es) :=
  ((sim_new a).runs h).1

/-- One event of the specification, seen by one signal. -/
theorem next_sub {s : Spec α} {e : Ev α} {i : Nat} {x : Sub} (h : (s.next e).subs[i]? = some x)
    (hd : x.dropped = false) :
    (i = s.subs.length ∧ e = .signal ∧ x.fresh = true) ∨
    ∃ y, s.subs[i]? = some y ∧ y.dropped = false ∧ e ≠ .dropSignal i ∧
      ((∃ w, e = .poll i w ∧ x.fresh = false) ∨
       ((∀ w, e ≠ .poll i w) ∧ x.fresh = (y.fresh || e.notifies s.value))) := by
  have told : ∀ b, (s.subs.map (Sub.told b))[i]? = some x →
      ∃ y, s.subs[i]? = some y ∧ y.dropped = false ∧ x.fresh = (y.fresh || b) := by
    intro b hb
    simp only [List.getElem?_map, Option.map_eq_some_iff] at hb
    obtain ⟨y, hy, rfl⟩ := hb
    cases hyd : y.dropped with
    | false => exact ⟨y, hy, hyd, by simp [Sub.told, hyd]⟩
    | true => simp [Sub.told, hyd] at hd
  have write : ∀ e : Ev α, (∀ w, e ≠ .poll i w) → (e ≠ .dropSignal i) →
      (if e.notifies s.value then s.subs.map (Sub.told true) else s.subs)[i]? = some x →
      ∃ y, s.subs[i]? = some y ∧ y.dropped = false ∧ e ≠ .dropSignal i ∧
      ((∃ w, e = .poll i w ∧ x.fresh = false) ∨
       ((∀ w, e ≠ .poll i w) ∧ x.fresh = (y.fresh || e.notifies s.value))) := by
    intro e h1 h2 h3
    cases hn : e.notifies s.value with
    | true =>
      simp only [hn, if_true] at h3
      obtain ⟨y, hy, hyd, hf⟩ := told _ h3
      exact ⟨y, hy, hyd, h2, .inr ⟨h1, hf⟩⟩
    | false =>
      simp only [hn, Bool.false_eq_true, if_false] at h3
      exact ⟨x, h3, hd, h2, .inr ⟨h1, by simp⟩⟩
  cases e with
  | signal =>
    simp only [Spec.next] at h
    rw [List.getElem?_append] at h
    split at h
    · exact .inr ⟨x, h, hd, by simp, .inr ⟨by simp, by simp [Ev.notifies]⟩⟩
    · rename_i hi
      have : i - s.subs.length = 0 := by
        have := (List.getElem?_eq_some_iff.1 h).1
        simp at this
        omega
      rw [this] at h
      simp only [List.getElem?_cons_zero, Option.some.injEq] at h
      exact .inl ⟨by omega, rfl, by rw [← h]⟩
  | poll j w =>
    obtain ⟨z, hz, rfl⟩ := getElem?_modify_some h
    right
    by_cases hj : j = i
    · subst hj
      simp only [if_true] at hd ⊢
      exact ⟨z, hz, hd, by simp, .inl ⟨w, by simp⟩⟩
    · simp only [hj, if_false] at hd ⊢
      exact ⟨z, hz, hd, by simp, .inr ⟨by simp [hj], by simp [Ev.notifies]⟩⟩
  | dropSignal j =>
    obtain ⟨z, hz, rfl⟩ := getElem?_modify_some h
    right
    by_cases hj : j = i
    · simp [hj] at hd
    · simp only [hj, if_false] at hd ⊢
      exact ⟨z, hz, hd, by simp [hj], .inr ⟨by simp, by simp [Ev.notifies]⟩⟩
  | drop =>
    right
    simp only [Spec.next] at h
    split at h
    · obtain ⟨y, hy, hyd, hf⟩ := told _ h
      exact ⟨y, hy, hyd, by simp, .inr ⟨by simp, by simp [hf, Ev.notifies]⟩⟩
    · exact ⟨x, h, hd, by simp, .inr ⟨by simp, by simp [Ev.notifies]⟩⟩
  | set b => exact .inr (write _ (by simp) (by simp) h)
  | replace b => exact .inr (write _ (by simp) (by simp) h)
  | replaceWith f => exact .inr (write _ (by simp) (by simp) h)
  | setIf b f => exact .inr (write _ (by simp) (by simp) h)
  | lockMut us => exact .inr (write _ (by simp) (by simp) h)
  | get => exact .inr (write _ (by simp) (by simp) h)
  | clone => exact .inr (write _ (by simp) (by simp) h)

/-- In a history that can happen, `fresh` says whether there is something unread. -/
theorem fresh_iff {a : α} {es : List (Ev α)} {os : List (Obs α)} {m : World α}
    (h : (World.new a).runs es = some (os, m)) {i : Nat} :
    (∀ x, ((Spec.new a).after es).subs[i]? = some x → x.dropped = false →
      (x.fresh = true ↔ Unread a i es)) ∧
    (((Spec.new a).after es).subs[i]? = none → ∀ w, .poll i w ∉ es) := by
  induction es using snocRec generalizing os m with
  | nil => simp [Spec.after, Spec.new]
  | snoc es e ih =>
    obtain ⟨os1, o, m1, h1, h2, rfl⟩ := runs_snoc h
    obtain ⟨ih1, ih2⟩ := ih h1
    have hsim := sim_runs_new h1
    have hnext : (Spec.new a).after (es ++ [e]) = ((Spec.new a).after es).next e := by
      simp [Spec.after]
    have hval : ((Spec.new a).after es).value = valueAfter a es := after_value _ _
    rw [hnext]
    refine ⟨fun x hx hd => ?_, fun hnone w hw => ?_⟩
    · rw [unread_snoc]
      rcases next_sub hx hd with ⟨hi, rfl, hf⟩ | ⟨y, hy, hyd, -, h3⟩
      · have : ((Spec.new a).after es).subs[i]? = none := by rw [hi]; simp
        simp only [hf, true_iff]
        exact ⟨by simp, .inr (.inl (ih2 this))⟩
      · rcases h3 with ⟨w, rfl, hf⟩ | ⟨hne, hf⟩
        · simp only [hf, Bool.false_eq_true, false_iff]
          exact fun hc => hc.1 w rfl
        · rw [hf, Bool.or_eq_true, ih1 y hy hyd, hval]
          exact ⟨fun h => ⟨hne, h.symm⟩, fun h => h.2.symm⟩
    · have hlen : ((Spec.new a).after es).subs[i]? = none := by
        rw [List.getElem?_eq_none_iff] at hnone ⊢
        refine Nat.le_trans ?_ hnone
        cases e <;> simp [Spec.next] <;> split <;> simp
      rcases List.mem_append.1 hw with hw | hw
      · exact ih2 hlen w hw
      · simp only [List.mem_singleton] at hw
        subst hw
        simp only [World.step] at h2
        split at h2
        · rename_i hc
          rw [List.getElem?_eq_none_iff, ← hsim.cells] at hlen
          omega
        · simp at h2

end Verif.Mut
