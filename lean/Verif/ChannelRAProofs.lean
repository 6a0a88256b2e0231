import Verif.ChannelRASpec

/-!
# `channel`, release/acquire model: proofs
-/

namespace Verif.ChanRA

variable {α : Type}

theorem runs_runE {m m' : World α} {es : List (Ev α)} (h : m.runs es = some m') :
    ∃ os, runE World.step m es = some (os, m') := by
  simp only [World.runs, Option.map_eq_some_iff] at h
  obtain ⟨⟨os, m1⟩, h, rfl⟩ := h
  exact ⟨os, h⟩

theorem runs_of_runE {m m' : World α} {es : List (Ev α)} {os : List Unit}
    (h : runE World.step m es = some (os, m')) : m.runs es = some m' := by simp [World.runs, h]

theorem Along.prefix {init : α} {es : List (Ev α)} {e : Ev α} {P : World α → Ev α → Prop}
    (h : Along init (es ++ [e]) P) : Along init es P := by
  intro i e' m he hr
  obtain ⟨hlt, -⟩ := List.getElem?_eq_some_iff.1 he
  refine h i e' m (by rw [List.getElem?_append_left hlt]; exact he) ?_
  rw [List.take_append_of_le_length (by omega)]; exact hr

theorem Along.last {init : α} {es : List (Ev α)} {e : Ev α} {P : World α → Ev α → Prop} {m : World α}
    (h : Along init (es ++ [e]) P) (hr : (World.init init).runs es = some m) : P m e :=
  h es.length e m (by simp) (by simpa using hr)

/-- An invariant of the executions along which `P` holds. -/
theorem along_inv {init : α} {P : World α → Ev α → Prop} {Inv : World α → Prop} (h0 : Inv (World.init init))
    (hstep : ∀ m e m', Inv m → P m e → m.step e = some ((), m') → Inv m')
    {es : List (Ev α)} {m : World α} (ha : Along init es P) (h : (World.init init).runs es = some m) : Inv m := by
  obtain ⟨os, h⟩ := runs_runE h
  have := runE_inv (step := World.step) (Inv := fun es os m =>
    runE World.step (World.init init) es = some (os, m) ∧ (Along init es P → Inv m)) ⟨rfl, fun _ => h0⟩
    (by
      rintro es os m e ⟨⟩ m' ⟨hr, hi⟩ hs
      exact ⟨runE_snoc_of hr hs, fun ha => hstep m e m' (hi ha.prefix) (ha.last (runs_of_runE hr)) hs⟩) h
  exact this.2 ha

theorem Along.trivial {init : α} {es : List (Ev α)} : Along init es fun _ _ => True := fun _ _ _ _ _ => True.intro

theorem Along.and {init : α} {es : List (Ev α)} {P Q : World α → Ev α → Prop} (h1 : Along init es P)
    (h2 : Along init es Q) : Along init es fun m e => P m e ∧ Q m e :=
  fun i e m he hr => ⟨h1 i e m he hr, h2 i e m he hr⟩

/-- The call `c` makes a step: its new state, if any, and the new state of the world. -/
theorem step_split {m m' : World α} {i k : Nat} (hs : m.step (.step i k) = some ((), m')) :
    ∃ l1 c l2 m1 v o, m.calls = l1 ++ c :: l2 ∧ m.calls[i]? = some c ∧
      m.exec c.view k c.pc = some (m1, v, o) ∧
      m' = { m1 with calls := l1 ++ (o.map fun pc => Call.mk pc v).toList ++ l2,
                     returned := if o.isNone then max m.returned v else m1.returned } := by
  simp only [World.step] at hs
  cases hc : m.calls[i]? with
  | none => simp [hc] at hs
  | some c =>
    obtain ⟨l1, l2, hl, h1, h2⟩ := split_idx hc
    simp only [hc] at hs
    cases he : m.exec c.view k c.pc with
    | none => simp [he] at hs
    | some p =>
      obtain ⟨m1, v, o⟩ := p
      cases o with
      | none =>
        simp only [he, Option.some.injEq, Prod.mk.injEq, true_and] at hs
        exact ⟨l1, c, l2, m1, v, none, hl, rfl, he, by rw [← hs, h2]; simp⟩
      | some pc' =>
        simp only [he, Option.some.injEq, Prod.mk.injEq, true_and] at hs
        exact ⟨l1, c, l2, m1, v, some pc', hl, rfl, he, by rw [← hs, h1]; simp⟩

theorem exec_frame {m m1 : World α} {v k v' : Nat} {pc : Pc α} {o : Option (Pc α)}
    (he : m.exec v k pc = some (m1, v', o)) :
    m1.calls = m.calls ∧ m1.r = m.r ∧ m1.rview = m.rview ∧ m1.returned = m.returned ∧
      m1.answers = m.answers ∧ m1.regAt = m.regAt := by
  cases pc <;> simp only [World.exec] at he <;> (repeat split at he) <;> cases he <;>
    simp [World.write]

theorem load_le {m : World α} {v k : Nat} {n : Int} (h : m.load v k = some n) :
    v ≤ k ∧ k ≤ m.last ∧ (m.old ++ [m.cur])[k]? = some n := by
  simp only [World.load] at h
  split at h
  · rename_i hk
    obtain ⟨hlt, -⟩ := List.getElem?_eq_some_iff.1 h
    simp at hlt
    exact ⟨hk, by simp only [World.last]; omega, h⟩
  · cases h

theorem exec_view {m m1 : World α} {v k v' : Nat} {pc : Pc α} {o : Option (Pc α)}
    (he : m.exec v k pc = some (m1, v', o)) (hv : v ≤ m.last) : v ≤ v' := by
  cases pc <;> simp only [World.exec] at he <;> (repeat split at he) <;> cases he
  all_goals first
    | exact Nat.le_refl _
    | exact Nat.le_max_left _ _
    | omega
    | exact (load_le (by assumption)).1

/-- Every execution. -/
structure Base (m : World α) : Prop where
  borrow : (∃ c ∈ m.calls, c.pc.owns = false) → m.handles ≠ 0
  view : ∀ c ∈ m.calls, c.view ≤ m.last
  rview : m.rview ≤ m.last
  vview : m.valueView ≤ m.last
  wview : m.wakerView ≤ m.last
  rett : m.returned ≤ m.last

theorem base_step {m m' : World α} {e : Ev α} (h : Base m) (hs : m.step e = some ((), m')) : Base m' := by
  obtain ⟨hb, h1, h2, h3, h4, h5⟩ := h
  cases e with
  | callSend a v =>
    simp only [World.step] at hs
    split at hs <;> cases hs
    rename_i hh
    simp only [not_or, Nat.not_lt] at hh
    refine ⟨fun _ => hh.1, ?_, h2, h3, h4, h5⟩
    intro c hc
    rcases List.mem_append.1 hc with hc | hc
    · exact h1 c hc
    · rw [List.mem_singleton.1 hc]; exact hh.2
  | callClose v =>
    simp only [World.step] at hs
    split at hs <;> cases hs
    rename_i hh
    simp only [not_or, Nat.not_lt] at hh
    refine ⟨fun _ => hh.1, ?_, h2, h3, h4, h5⟩
    intro c hc
    rcases List.mem_append.1 hc with hc | hc
    · exact h1 c hc
    · rw [List.mem_singleton.1 hc]; exact hh.2
  | callClone v =>
    simp only [World.step] at hs
    split at hs <;> cases hs
    rename_i hh
    simp only [not_or, Nat.not_lt] at hh
    refine ⟨fun _ => hh.1, ?_, h2, h3, h4, h5⟩
    intro c hc
    rcases List.mem_append.1 hc with hc | hc
    · exact h1 c hc
    · rw [List.mem_singleton.1 hc]; exact hh.2
  | callDrop v =>
    simp only [World.step] at hs
    split at hs <;> cases hs
    rename_i hc
    refine ⟨?_, ?_, h2, h3, h4, h5⟩
    · rintro ⟨c, hc1, hc2⟩
      rw [List.mem_append, List.mem_singleton] at hc1
      simp only
      rcases hc.1 with hc | ⟨_, hc⟩
      · omega
      · rcases hc1 with hc1 | rfl
        · rw [hc c hc1] at hc2; cases hc2
        · cases hc2
    · intro c hc'
      rcases List.mem_append.1 hc' with hc' | hc'
      · exact h1 c hc'
      · rw [List.mem_singleton.1 hc']; exact hc.2
  | step i k =>
    obtain ⟨l1, c, l2, m1, v, o, hl, -, he, rfl⟩ := step_split hs
    have hcv : c.view ≤ m.last := h1 c (by rw [hl]; simp)
    have hmono : m.handles ≤ m1.handles ∧ m.last ≤ m1.last := by
      rcases c with ⟨pc, vw⟩
      cases pc <;> simp only [World.exec] at he <;> (repeat split at he) <;> cases he <;>
        simp [World.write, World.last]
    have hview : v ≤ m1.last ∧ m1.valueView ≤ m1.last ∧ m1.wakerView ≤ m1.last := by
      rcases c with ⟨pc, vw⟩
      simp only at hcv
      cases pc <;> simp only [World.exec] at he <;> (repeat split at he) <;> cases he
      all_goals first
        | (have := (load_le (by assumption)).2.1; exact ⟨this, h3, h4⟩)
        | (simp only [World.write, World.last, List.length_append, List.length_singleton] at hcv h3 h4 ⊢; omega)
    have hown : ∀ pc', o = some pc' → pc'.owns = false → c.pc.owns = false := by
      rcases c with ⟨pc, vw⟩
      intro pc' ho hpo
      cases pc <;> simp only [World.exec] at he <;> (repeat split at he) <;> cases he <;>
        (repeat split at ho) <;> first | (cases ho; first | rfl | exact hpo | cases hpo) | cases ho
    obtain ⟨-, f2, f3, f4, -, -⟩ := exec_frame he
    refine ⟨?_, ?_, ?_, hview.2.1, hview.2.2, ?_⟩
    · rintro ⟨c', hc1, hc2⟩
      have : m.handles ≠ 0 := by
        refine hb ?_
        simp only [List.mem_append, Option.mem_toList, Option.map_eq_some_iff] at hc1
        rcases hc1 with (hc1 | ⟨pc', ho, rfl⟩) | hc1
        · exact ⟨c', by rw [hl]; simp [hc1], hc2⟩
        · exact ⟨c, by rw [hl]; simp, hown pc' ho hc2⟩
        · exact ⟨c', by rw [hl]; simp [hc1], hc2⟩
      simp only
      omega
    · intro c' hc1
      simp only [List.mem_append, Option.mem_toList, Option.map_eq_some_iff] at hc1
      rcases hc1 with (hc1 | ⟨pc', ho, rfl⟩) | hc1
      · exact Nat.le_trans (h1 c' (by rw [hl]; simp [hc1])) hmono.2
      · exact hview.1
      · exact Nat.le_trans (h1 c' (by rw [hl]; simp [hc1])) hmono.2
    · simp only [f3]; exact Nat.le_trans h2 hmono.2
    · have k1 := Nat.le_trans h5 hmono.2
      have k2 := hview.1
      simp only [f4]
      split
      · exact Nat.max_le.2 ⟨k1, k2⟩
      · exact k1
  | callPoll w v =>
    simp only [World.step] at hs
    split at hs <;> cases hs
    rename_i hh
    exact ⟨hb, h1, Nat.max_le.2 ⟨h2, hh.2⟩, h3, h4, h5⟩
  | rstep k =>
    simp only [World.step] at hs
    split at hs
    · cases hs
    · split at hs <;> cases hs
      · exact ⟨hb, h1, Nat.max_le.2 ⟨h2, h3⟩, Nat.max_le.2 ⟨h2, h3⟩, h4, h5⟩
      · exact ⟨hb, h1, Nat.max_le.2 ⟨h2, h3⟩, Nat.max_le.2 ⟨h2, h3⟩, h4, h5⟩
    · split at hs
      · cases hs
      · rename_i hk
        have := (load_le hk).2.1
        split at hs <;> cases hs <;> exact ⟨hb, h1, this, h3, h4, h5⟩
    · cases hs
      exact ⟨hb, h1, Nat.max_le.2 ⟨h2, h4⟩, h3, Nat.max_le.2 ⟨h2, h4⟩, h5⟩

theorem base_runs {init : α} {es : List (Ev α)} {m : World α} (h : (World.init init).runs es = some m) : Base m :=
  along_inv (P := fun _ _ => True) ⟨by simp [World.init], by simp [World.init], by simp [World.init],
    by simp [World.init], by simp [World.init], by simp [World.init]⟩ (fun _ _ _ hi _ hs => base_step hi hs)
    Along.trivial h

/-! ## The values -/

/-- The waiting value is the last one stored, unless a poll has produced it. -/
structure Vals (m : World α) : Prop where
  sub : ∃ l, m.stored = l ++ m.value.toList ∧ (produced m.answers).Sublist l
  last : m.value = none → (produced m.answers).getLast? = m.stored.getLast?

theorem produced_append (l1 l2 : List (Waker × Poll (Option α))) :
    produced (l1 ++ l2) = produced l1 ++ produced l2 := by simp [produced]

theorem vals_step {m m' : World α} {e : Ev α} (h : Vals m) (hs : m.step e = some ((), m')) : Vals m' := by
  obtain ⟨⟨l, h1, h2⟩, h3⟩ := h
  cases e with
  | callSend a v => simp only [World.step] at hs; split at hs <;> cases hs; exact ⟨⟨l, h1, h2⟩, h3⟩
  | callClose v => simp only [World.step] at hs; split at hs <;> cases hs; exact ⟨⟨l, h1, h2⟩, h3⟩
  | callClone v => simp only [World.step] at hs; split at hs <;> cases hs; exact ⟨⟨l, h1, h2⟩, h3⟩
  | callDrop v => simp only [World.step] at hs; split at hs <;> cases hs; exact ⟨⟨l, h1, h2⟩, h3⟩
  | callPoll w v => simp only [World.step] at hs; split at hs <;> cases hs; exact ⟨⟨l, h1, h2⟩, h3⟩
  | step i k =>
    obtain ⟨l1, c, l2, m1, v, o, hl, -, he, rfl⟩ := step_split hs
    obtain ⟨-, f2, f3, f4, f5, -⟩ := exec_frame he
    have key : (m1.value = m.value ∧ m1.stored = m.stored) ∨
        ∃ a, m1.value = some a ∧ m1.stored = m.stored ++ [a] := by
      rcases c with ⟨pc, vw⟩
      cases pc <;> simp only [World.exec] at he <;> (repeat split at he) <;> cases he
      case sendStore a => exact .inr ⟨a, rfl, rfl⟩
      all_goals exact .inl ⟨rfl, rfl⟩
    rcases key with ⟨k1, k2⟩ | ⟨a, k1, k2⟩
    · exact ⟨⟨l, by simp only [k1, k2, h1], by simpa only [f5] using h2⟩, by simpa only [f5, k1, k2] using h3⟩
    · refine ⟨⟨m.stored, by simp [k1, k2], ?_⟩, by simp [k1]⟩
      simp only [f5]
      rw [h1]
      exact h2.trans (List.sublist_append_left _ _)
  | rstep k =>
    simp only [World.step] at hs
    split at hs
    · cases hs
    · rename_i w hw
      cases hv : m.value with
      | some a =>
        simp only [hv, Option.some.injEq, Prod.mk.injEq, true_and] at hs
        subst hs
        rw [hv] at h1
        refine ⟨⟨m.stored, by simp, ?_⟩, ?_⟩
        · simp only [produced_append]
          rw [h1]
          exact h2.append (List.Sublist.refl _)
        · intro _
          rw [h1]
          simp [produced_append, produced]
      | none =>
        simp only [hv, Option.some.injEq, Prod.mk.injEq, true_and] at hs
        subst hs
        exact ⟨⟨l, by simpa [hv] using h1, h2⟩, fun _ => h3 hv⟩
    · split at hs
      · cases hs
      · split at hs <;> cases hs
        · refine ⟨⟨l, h1, ?_⟩, ?_⟩
          · simpa [produced_append, produced] using h2
          · simpa [produced_append, produced] using h3
        · exact ⟨⟨l, h1, h2⟩, h3⟩
    · cases hs
      refine ⟨⟨l, h1, ?_⟩, ?_⟩
      · simpa [produced_append, produced] using h2
      · simpa [produced_append, produced] using h3

theorem vals_runs {init : α} {es : List (Ev α)} {m : World α} (h : (World.init init).runs es = some m) : Vals m :=
  along_inv (P := fun _ _ => True) ⟨⟨[], by simp [World.init], by simp [World.init, produced]⟩, by simp [World.init]⟩
    (fun _ _ _ hi _ hs => vals_step hi hs) Along.trivial h

/-! ## The counter -/

/-- The counted handles: those that exist, those about to be returned by `clone`, those being
dropped. -/
def Pc.counted : Pc α → Nat
  | .cloneRet => 1
  | .dropHas => 1
  | .dropSub => 1
  | _ => 0

def counted (cs : List (Call α)) : Nat := (cs.map fun c => c.pc.counted).sum

theorem counted_append (l1 l2 : List (Call α)) : counted (l1 ++ l2) = counted l1 + counted l2 := by
  simp [counted]

theorem counted_cons (c : Call α) (l : List (Call α)) : counted (c :: l) = c.pc.counted + counted l := by
  simp [counted]

theorem counted_nil : counted ([] : List (Call α)) = 0 := rfl

/-- Who knows the write number `v` reads 0. -/
def ZeroFrom (l : List Int) (v : Nat) : Prop := ∀ k n, v ≤ k → l[k]? = some n → n = 0

theorem ZeroFrom.mono {l : List Int} {v v' : Nat} (h : ZeroFrom l v) (hv : v ≤ v') : ZeroFrom l v' :=
  fun k n hk => h k n (Nat.le_trans hv hk)

theorem ZeroFrom.write {l : List Int} {v : Nat} (h : ZeroFrom l v) : ZeroFrom (l ++ [0]) v := by
  intro k n hk hn
  rw [List.getElem?_append] at hn
  split at hn
  · exact h k n hk hn
  · rw [List.getElem?_singleton] at hn
    split at hn <;> simp at hn
    exact hn.symm

theorem ZeroFrom.new {l : List Int} : ZeroFrom (l ++ [0]) l.length := by
  intro k n hk hn
  rw [List.getElem?_append_right hk, List.getElem?_singleton] at hn
  split at hn <;> simp at hn
  exact hn.symm

theorem ZeroFrom.load {m : World α} {v k : Nat} {n : Int} (h : ZeroFrom (m.old ++ [m.cur]) v)
    (hl : m.load v k = some n) : n = 0 := by
  obtain ⟨h1, -, h2⟩ := load_le hl
  exact h k n h1 h2

/-- Executions with synchronised calls and without overlap of `close`. -/
structure Count (m : World α) : Prop where
  open_ : m.closed = false → m.cur = ((m.handles + counted m.calls : Nat) : Int) ∧ ∀ n ∈ m.old, n ≠ 0
  zero : m.closed = true → m.cur = 0
  know : m.closed = true → ∀ c ∈ m.calls, c.pc.counting = true →
    c.pc ≠ .cloneAdd ∧ c.pc ≠ .dropSub ∧ ZeroFrom (m.old ++ [m.cur]) c.view
  told : m.closed = true → ZeroFrom (m.old ++ [m.cur]) m.returned ∨
    ∃ c ∈ m.calls, c.pc.closing = true ∧ ZeroFrom (m.old ++ [m.cur]) c.view

/-- The condition on the events. -/
def CountOk (m : World α) (e : Ev α) : Prop :=
  (m.closed = true → ∀ v, e = .callClone v ∨ e = .callDrop v → m.returned ≤ v) ∧
  (∀ j k c, e = .step j k → m.calls[j]? = some c → c.pc = .closeStore →
      ∀ c' ∈ m.calls, c'.pc.counting = false) ∧
  (∀ v, e = .callClone v ∨ e = .callDrop v → ∀ c ∈ m.calls, c.pc.closing = false)

theorem count_step {m m' : World α} {e : Ev α} (hb : Base m) (h : Count m) (hok : CountOk m e)
    (hs : m.step e = some ((), m')) : Count m' := by
  obtain ⟨h1, h2, h3, h4⟩ := h
  obtain ⟨o1, o2, o3⟩ := hok
  have told' : ∀ c : Call α, m.closed = true → ZeroFrom (m.old ++ [m.cur]) m.returned ∨
      ∃ c' ∈ m.calls ++ [c], c'.pc.closing = true ∧ ZeroFrom (m.old ++ [m.cur]) c'.view := by
    intro c k
    exact (h4 k).imp id fun ⟨c', k1, k2⟩ => ⟨c', by simp [k1], k2⟩
  have know' : ∀ c : Call α, m.closed = true → (c.pc.counting = true →
      c.pc ≠ .cloneAdd ∧ c.pc ≠ .dropSub ∧ ZeroFrom (m.old ++ [m.cur]) c.view) →
      ∀ c' ∈ m.calls ++ [c], c'.pc.counting = true →
        c'.pc ≠ .cloneAdd ∧ c'.pc ≠ .dropSub ∧ ZeroFrom (m.old ++ [m.cur]) c'.view := by
    intro c k hc c' hc'
    rcases List.mem_append.1 hc' with hc' | hc'
    · exact h3 k c' hc'
    · rw [List.mem_singleton.1 hc']; exact hc
  cases e with
  | callSend a v =>
    simp only [World.step] at hs
    split at hs <;> cases hs
    refine ⟨fun k => ?_, h2, fun k => know' _ k (by simp [Pc.counting]), told' _⟩
    simp [h1 k, counted_append, counted_cons, counted_nil, Pc.counted]
    exact (h1 k).2
  | callClose v =>
    simp only [World.step] at hs
    split at hs <;> cases hs
    refine ⟨fun k => ?_, h2, fun k => know' _ k (by simp [Pc.counting]), told' _⟩
    simp [h1 k, counted_append, counted_cons, counted_nil, Pc.counted]
    exact (h1 k).2
  | callClone v =>
    have o1 := fun k => o1 k v (.inl rfl)
    have o3 := o3 v (.inl rfl)
    simp only [World.step] at hs
    split at hs <;> cases hs
    refine ⟨fun k => ?_, h2, fun k => know' _ k fun _ => ⟨by simp, by simp, ?_⟩, told' _⟩
    · simp [h1 k, counted_append, counted_cons, counted_nil, Pc.counted]
      exact (h1 k).2
    · rcases h4 k with k' | ⟨c, k1, k2, -⟩
      · exact k'.mono (o1 k)
      · rw [o3 c k1] at k2; cases k2
  | callDrop v =>
    have o1 := fun k => o1 k v (.inr rfl)
    have o3 := o3 v (.inr rfl)
    simp only [World.step] at hs
    split at hs <;> cases hs
    rename_i hc
    refine ⟨fun k => ⟨?_, (h1 k).2⟩, h2, fun k => know' _ k fun _ => ⟨by simp, by simp, ?_⟩, told' _⟩
    · simp only [(h1 k).1, counted_append, counted_cons, counted_nil, Pc.counted]
      congr 1
      rcases hc.1 with hc | ⟨hc, -⟩ <;> omega
    · rcases h4 k with k' | ⟨c, k1, k2, -⟩
      · exact k'.mono (o1 k)
      · rw [o3 c k1] at k2; cases k2
  | callPoll w v =>
    simp only [World.step] at hs
    split at hs <;> cases hs
    exact ⟨h1, h2, h3, h4⟩
  | rstep k =>
    simp only [World.step] at hs
    split at hs <;> (try split at hs) <;> (try split at hs) <;> cases hs <;> exact ⟨h1, h2, h3, h4⟩
  | step i k =>
    obtain ⟨l1, c, l2, m1, v, o, hl, hi, he, rfl⟩ := step_split hs
    have o2 := o2 i k c rfl hi
    have hin : c ∈ m.calls := by rw [hl]; simp
    have hcv := hb.view c hin
    have hvv := exec_view he hcv
    obtain ⟨f1, f2, f3, f4, f5, f6⟩ := exec_frame he
    have hbor : c.pc.owns = false → m.handles ≠ 0 := fun k => hb.borrow ⟨c, hin, k⟩
    have hrest : ∀ c' : Call α, c' ∈ l1 ∨ c' ∈ l2 → c' ∈ m.calls := by
      intro c' hc'; rw [hl]; rcases hc' with hc' | hc' <;> simp [hc']
    have hcount : m.closed = false →
        m.cur = ((m.handles + (counted l1 + (c.pc.counted + counted l2)) : Nat) : Int) ∧ ∀ n ∈ m.old, n ≠ 0 := by
      intro k
      have := h1 k
      rw [hl] at this
      simpa [counted_append, counted_cons] using this
    have hload : ∀ n, m.closed = false → m.cur ≠ 0 → m.load c.view k = some n → n ≠ 0 := by
      intro n kc kz kn
      obtain ⟨-, -, kn⟩ := load_le kn
      have := List.mem_of_getElem? kn
      rcases List.mem_append.1 this with k | k
      · exact (h1 kc).2 n k
      · rw [List.mem_singleton.1 k]; exact kz
    -- a step that writes nothing
    have keep : m1.old = m.old → m1.cur = m.cur → m1.closed = m.closed →
        (m.closed = false → m1.handles + (o.map Pc.counted).getD 0 = m.handles + c.pc.counted) →
        (m.closed = true → ∀ pc, o = some pc → pc.counting = false) →
        (c.pc.closing = true → ∀ pc, o = some pc → pc.closing = true) →
        Count { m1 with calls := l1 ++ (o.map fun pc => Call.mk pc v).toList ++ l2,
                        returned := if o.isNone then max m.returned v else m1.returned } := by
      intro e1 e2 e3 e4 e5 e6
      refine ⟨fun k => ?_, fun k => ?_, fun k => ?_, fun k => ?_⟩ <;> simp only [e1, e2, e3] at k ⊢
      · refine ⟨?_, (h1 k).2⟩
        have e4 := e4 k
        rw [(hcount k).1]
        congr 1
        cases o with
        | none => simp [counted_append] at e4 ⊢; omega
        | some pc => simp [counted_append, counted_cons] at e4 ⊢; omega
      · exact h2 k
      · intro c' hc' hcc
        simp only [List.mem_append, Option.mem_toList, Option.map_eq_some_iff] at hc'
        rcases hc' with (hc' | ⟨pc', ho, rfl⟩) | hc'
        · exact h3 k c' (hrest c' (.inl hc')) hcc
        · rw [e5 k pc' ho] at hcc; cases hcc
        · exact h3 k c' (hrest c' (.inr hc')) hcc
      · rcases h4 k with hz | ⟨c', k1, k2, k3⟩
        · refine .inl (hz.mono ?_)
          split
          · exact Nat.le_max_left _ _
          · rw [f4]; exact Nat.le_refl _
        · rw [hl] at k1
          simp only [List.mem_append, List.mem_cons] at k1
          have hgo : c' ∈ l1 ∨ c' ∈ l2 → ∃ c' ∈ l1 ++ (o.map fun pc => Call.mk pc v).toList ++ l2,
              c'.pc.closing = true ∧ ZeroFrom (m.old ++ [m.cur]) c'.view := by
            intro k; exact ⟨c', by simp only [List.mem_append]; rcases k with k | k <;> simp [k], k2, k3⟩
          rcases k1 with k1 | rfl | k1
          · exact .inr (hgo (.inl k1))
          · cases o with
            | none => exact .inl (k3.mono (Nat.le_trans hvv (by simp; exact Nat.le_max_right _ _)))
            | some pc => exact .inr ⟨⟨pc, v⟩, by simp, e6 k2 pc rfl, k3.mono hvv⟩
          · exact .inr (hgo (.inr k1))
    rcases c with ⟨pc, vw⟩
    cases pc with
    | sendHas a =>
      simp only [World.exec] at he
      split at he <;> cases he
      exact keep rfl rfl rfl (by intro _; split <;> rfl) (by intro _ pc; split <;> simp; rintro rfl; rfl)
        (by simp [Pc.closing])
    | sendStore a =>
      simp only [World.exec] at he
      cases he
      exact keep rfl rfl rfl (by intro _; rfl) (by rintro _ pc ⟨⟩; rfl) (by simp [Pc.closing])
    | closeHas =>
      simp only [World.exec] at he
      split at he <;> cases he
      exact keep rfl rfl rfl (by intro _; split <;> rfl) (by intro _ pc; split <;> simp; rintro rfl; rfl)
        (by simp [Pc.closing])
    | closeStore =>
      have o2 := o2 rfl
      simp only [World.exec] at he
      cases he
      refine ⟨by simp [World.write], fun _ => rfl, ?_, ?_⟩
      · intro _ c' hc' hcc
        simp only [List.mem_append, Option.mem_toList, Option.map_some, Option.some.injEq] at hc'
        rcases hc' with (hc' | rfl) | hc'
        · rw [o2 c' (hrest c' (.inl hc'))] at hcc; cases hcc
        · cases hcc
        · rw [o2 c' (hrest c' (.inr hc'))] at hcc; cases hcc
      · intro _
        refine .inr ⟨⟨.notify .close, m.last + 1⟩, by simp, rfl, ?_⟩
        have := ZeroFrom.new (l := m.old ++ [m.cur])
        simpa [World.write, World.last] using this
    | cloneHas =>
      have hh := hbor rfl
      simp only [World.exec] at he
      split at he <;> cases he
      rename_i n hn
      refine keep rfl rfl rfl (fun kc => ?_) (fun kc pc => ?_) (by simp [Pc.closing])
      · have : n ≠ 0 := hload n kc (by rw [(hcount kc).1]; omega) hn
        simp [this, Pc.counted]
      · have : n = 0 := (h3 kc _ hin rfl).2.2.load hn
        simp [this]; rintro rfl; rfl
    | cloneAdd =>
      have hh := hbor rfl
      simp only [World.exec] at he
      cases he
      have hno : m.closed = true → False := fun kc => (h3 kc _ hin rfl).1 rfl
      refine ⟨fun kc => ⟨?_, ?_⟩, fun kc => (hno kc).elim, fun kc => (hno kc).elim, fun kc => (hno kc).elim⟩
      · simp only [World.write]
        rw [(hcount kc).1]
        simp [counted_append, counted_cons, Pc.counted]
        omega
      · intro n hn
        have := hcount kc
        rcases List.mem_append.1 hn with hn | hn
        · exact this.2 n hn
        · rw [List.mem_singleton.1 hn, this.1]; omega
    | cloneRet =>
      simp only [World.exec] at he
      cases he
      exact keep rfl rfl rfl (by intro _; simp [Pc.counted]) (by simp) (by simp)
    | dropHas =>
      simp only [World.exec] at he
      split at he <;> cases he
      rename_i n hn
      refine keep rfl rfl rfl (fun kc => ?_) (fun kc pc => ?_) (by simp [Pc.closing])
      · have : n ≠ 0 := hload n kc (by rw [(hcount kc).1]; simp only [Pc.counted]; omega) hn
        simp [this, Pc.counted]
      · have : n = 0 := (h3 kc _ hin rfl).2.2.load hn
        simp [this]
    | dropSub =>
      simp only [World.exec] at he
      cases he
      have hno : m.closed = true → False := fun kc => (h3 kc _ hin rfl).2.1 rfl
      refine ⟨fun kc => ⟨?_, ?_⟩, fun kc => (hno kc).elim, fun kc => (hno kc).elim, fun kc => (hno kc).elim⟩
      · simp only [World.write]
        have := (hcount kc).1
        simp only [Pc.counted] at this
        split <;> simp [counted_append, counted_cons, Pc.counted] <;> omega
      · intro n hn
        have := hcount kc
        rcases List.mem_append.1 hn with hn | hn
        · exact this.2 n hn
        · rw [List.mem_singleton.1 hn, this.1]; simp only [Pc.counted]; omega
    | notify op =>
      simp only [World.exec] at he
      split at he <;> cases he
      · exact keep rfl rfl rfl (by intro _; rfl) (by rintro _ pc ⟨⟩; rfl) (by rintro k pc ⟨⟩; exact k)
      · exact keep rfl rfl rfl (by intro _; rfl) (by simp) (by simp)
    | wake op w =>
      simp only [World.exec] at he
      cases he
      exact keep rfl rfl rfl (by intro _; rfl) (by simp) (by simp)

theorem count_init (init : α) : Count (World.init init) :=
  ⟨fun _ => ⟨rfl, by simp [World.init]⟩, by simp [World.init], by simp [World.init], by simp [World.init]⟩

theorem count_along {init : α} {es : List (Ev α)} (h1 : SyncedCalls init es) (h2 : NoCloseOverlap init es) :
    Along init es CountOk :=
  fun i e m he hr => ⟨fun _ => h1 i e m he hr, h2 i e m he hr⟩

theorem count_runs {init : α} {es : List (Ev α)} {m : World α} (ha : Along init es CountOk)
    (h : (World.init init).runs es = some m) : Base m ∧ Count m :=
  along_inv (Inv := fun m => Base m ∧ Count m) ⟨base_runs (es := []) rfl, count_init init⟩
    (fun _ _ _ hi hp hs => ⟨base_step hi.1 hs, count_step hi.1 hi.2 hp hs⟩) ha h

/-- Without `close`. -/
def NoClose (m : World α) : Prop :=
  m.closed = false ∧ ∀ c ∈ m.calls, c.pc ≠ .closeHas ∧ c.pc ≠ .closeStore ∧ c.pc.closing = false

theorem noClose_step {m m' : World α} {e : Ev α} (h : NoClose m) (he : ∀ v, e ≠ .callClose v)
    (hs : m.step e = some ((), m')) : NoClose m' := by
  obtain ⟨h1, h2⟩ := h
  have hadd : ∀ c : Call α, (c.pc ≠ .closeHas ∧ c.pc ≠ .closeStore ∧ c.pc.closing = false) →
      ∀ c' ∈ m.calls ++ [c], c'.pc ≠ .closeHas ∧ c'.pc ≠ .closeStore ∧ c'.pc.closing = false := by
    intro c hc c' hc'
    rcases List.mem_append.1 hc' with hc' | hc'
    · exact h2 c' hc'
    · rw [List.mem_singleton.1 hc']; exact hc
  cases e with
  | callSend a v =>
    simp only [World.step] at hs; split at hs <;> cases hs; exact ⟨h1, hadd _ (by simp [Pc.closing])⟩
  | callClose v => exact absurd rfl (he v)
  | callClone v =>
    simp only [World.step] at hs; split at hs <;> cases hs; exact ⟨h1, hadd _ (by simp [Pc.closing])⟩
  | callDrop v =>
    simp only [World.step] at hs; split at hs <;> cases hs; exact ⟨h1, hadd _ (by simp [Pc.closing])⟩
  | callPoll w v => simp only [World.step] at hs; split at hs <;> cases hs; exact ⟨h1, h2⟩
  | rstep k =>
    simp only [World.step] at hs
    split at hs <;> (try split at hs) <;> (try split at hs) <;> cases hs <;> exact ⟨h1, h2⟩
  | step i k =>
    obtain ⟨l1, c, l2, m1, v, o, hl, hi, he, rfl⟩ := step_split hs
    have hc := h2 c (by rw [hl]; simp)
    have key : m1.closed = false ∧
        ∀ pc, o = some pc → pc ≠ .closeHas ∧ pc ≠ .closeStore ∧ pc.closing = false := by
      rcases c with ⟨pc, vw⟩
      cases pc <;> simp only [World.exec] at he
      case closeHas => exact absurd rfl hc.1
      case closeStore => exact absurd rfl hc.2.1
      case notify op =>
        split at he <;> cases he
        · exact ⟨h1, fun pc k => by cases k; exact ⟨by simp, by simp, hc.2.2⟩⟩
        · exact ⟨h1, by simp⟩
      all_goals
        (repeat split at he) <;> cases he <;> refine ⟨h1, fun pc k => ?_⟩ <;> (try split at k) <;> cases k <;>
          simp [Pc.closing]
    refine ⟨key.1, ?_⟩
    intro c' hc'
    simp only [List.mem_append, Option.mem_toList, Option.map_eq_some_iff] at hc'
    rcases hc' with (hc' | ⟨pc', ho, rfl⟩) | hc'
    · exact h2 c' (by rw [hl]; simp [hc'])
    · exact key.2 pc' ho
    · exact h2 c' (by rw [hl]; simp [hc'])

theorem noClose_runs {init : α} {es : List (Ev α)} {m : World α} (hn : ∀ v, .callClose v ∉ es)
    (h : (World.init init).runs es = some m) : NoClose m :=
  along_inv (P := fun _ e => ∀ v, e ≠ .callClose v) ⟨rfl, by simp [World.init]⟩
    (fun _ _ _ hi hp hs => noClose_step hi hp hs)
    (fun i e m he _ v k => hn v (by rw [← k]; exact List.mem_of_getElem? he)) h

theorem noClose_along {init : α} {es : List (Ev α)} (hn : ∀ v, .callClose v ∉ es) : Along init es CountOk := by
  intro i e m he hr
  obtain ⟨h1, h2⟩ := noClose_runs (es := es.take i) (fun v k => hn v (List.mem_of_mem_take k)) hr
  refine ⟨fun k => (by rw [h1] at k; cases k), ?_, fun _ _ c hc => (h2 c hc).2.2⟩
  intro j k c _ hc hcs
  exact absurd hcs (h2 c (List.mem_of_getElem? hc)).2.1

/-! ## Wake-ups -/

/-- The call is about to take the waker, or to wake. -/
def Pc.late : Pc α → Bool
  | .notify _ => true
  | .wake _ _ => true
  | _ => false

/-- The end is known to a call that has returned, or that is about to take the waker or to wake. -/
def Zk (m : World α) : Prop :=
  m.cur = 0 → ZeroFrom (m.old ++ [m.cur]) m.returned ∨
    ∃ c ∈ m.calls, c.pc.late = true ∧ ZeroFrom (m.old ++ [m.cur]) c.view

theorem zk_step {m m' : World α} {e : Ev α} (hb : Base m) (hc : Count m) (h : Zk m)
    (hs : m.step e = some ((), m')) : Zk m' := by
  have hadd : ∀ c : Call α, m.cur = 0 → ZeroFrom (m.old ++ [m.cur]) m.returned ∨
      ∃ c' ∈ m.calls ++ [c], c'.pc.late = true ∧ ZeroFrom (m.old ++ [m.cur]) c'.view := by
    intro c k
    exact (h k).imp id fun ⟨c', k1, k2⟩ => ⟨c', by simp [k1], k2⟩
  cases e with
  | callSend a v => simp only [World.step] at hs; split at hs <;> cases hs; exact hadd _
  | callClose v => simp only [World.step] at hs; split at hs <;> cases hs; exact hadd _
  | callClone v => simp only [World.step] at hs; split at hs <;> cases hs; exact hadd _
  | callDrop v => simp only [World.step] at hs; split at hs <;> cases hs; exact hadd _
  | callPoll w v => simp only [World.step] at hs; split at hs <;> cases hs; exact h
  | rstep k =>
    simp only [World.step] at hs
    split at hs <;> (try split at hs) <;> (try split at hs) <;> cases hs <;> exact h
  | step i k =>
    obtain ⟨l1, c, l2, m1, v, o, hl, hi, he, rfl⟩ := step_split hs
    have hin : c ∈ m.calls := by rw [hl]; simp
    have hvv := exec_view he (hb.view c hin)
    obtain ⟨f1, f2, f3, f4, f5, f6⟩ := exec_frame he
    have keep : m1.old = m.old → m1.cur = m.cur → (c.pc.late = true → ∀ pc, o = some pc → pc.late = true) →
        Zk { m1 with calls := l1 ++ (o.map fun pc => Call.mk pc v).toList ++ l2,
                     returned := if o.isNone then max m.returned v else m1.returned } := by
      intro e1 e2 e6 k
      simp only [e1, e2] at k ⊢
      rcases h k with hz | ⟨c', k1, k2, k3⟩
      · refine .inl (hz.mono ?_)
        split
        · exact Nat.le_max_left _ _
        · rw [f4]; exact Nat.le_refl _
      · rw [hl] at k1
        simp only [List.mem_append, List.mem_cons] at k1
        have hgo : c' ∈ l1 ∨ c' ∈ l2 → ∃ c' ∈ l1 ++ (o.map fun pc => Call.mk pc v).toList ++ l2,
            c'.pc.late = true ∧ ZeroFrom (m.old ++ [m.cur]) c'.view := by
          intro k; exact ⟨c', by simp only [List.mem_append]; rcases k with k | k <;> simp [k], k2, k3⟩
        rcases k1 with k1 | rfl | k1
        · exact .inr (hgo (.inl k1))
        · cases o with
          | none => exact .inl (k3.mono (Nat.le_trans hvv (by simp; exact Nat.le_max_right _ _)))
          | some pc => exact .inr ⟨⟨pc, v⟩, by simp, e6 k2 pc rfl, k3.mono hvv⟩
        · exact .inr (hgo (.inr k1))
    have hnew : ZeroFrom (m.old ++ [m.cur] ++ [0]) (m.last + 1) := by
      have := ZeroFrom.new (l := m.old ++ [m.cur])
      simpa [World.last] using this
    rcases c with ⟨pc, vw⟩
    cases pc with
    | closeStore =>
      simp only [World.exec] at he
      cases he
      exact fun _ => .inr ⟨⟨.notify .close, m.last + 1⟩, by simp, rfl, by simpa [World.write] using hnew⟩
    | cloneAdd =>
      simp only [World.exec] at he
      cases he
      intro k
      simp only [World.write] at k
      cases hcl : m.closed with
      | true => exact absurd rfl (hc.know hcl _ hin rfl).1
      | false => have := (hc.open_ hcl).1; omega
    | dropSub =>
      simp only [World.exec] at he
      cases he
      intro k
      simp only [World.write] at k
      have k1 : m.cur = 1 := by omega
      refine .inr ⟨⟨.notify .drop, m.last + 1⟩, by simp [k1], rfl, ?_⟩
      simp only [World.write, k]
      exact hnew
    | notify op =>
      simp only [World.exec] at he
      split at he <;> cases he
      · exact keep rfl rfl (by rintro _ pc ⟨⟩; rfl)
      · exact keep rfl rfl (by simp)
    | _ =>
      simp only [World.exec] at he
      (repeat split at he) <;> cases he <;> exact keep rfl rfl (by simp [Pc.late])

/-- A call is about to take the waker. -/
def Notifying (cs : List (Call α)) : Prop := ∃ c ∈ cs, ∃ op, c.pc = .notify op

/-- There is something for the receiver to see; `z`: the end counts. -/
def News (z : Bool) (m : World α) : Prop := m.value ≠ none ∨ (z = true ∧ m.cur = 0)

/-- Executions without a `notify` in the window of the poll; for the end (`z`), without overlap. -/
structure Wk (z : Bool) (m : World α) : Prop where
  take : z = true → ∀ w, m.r = .take w → m.cur = 0 →
    ZeroFrom (m.old ++ [m.cur]) m.rview ∨ Notifying m.calls
  has : ∀ w, m.r = .has w → m.value ≠ none → Notifying m.calls
  hasEnd : z = true → ∀ w, m.r = .has w → m.cur = 0 →
    ZeroFrom (m.old ++ [m.cur]) m.rview ∨ Notifying m.calls
  store : ∀ w, m.r = .store w → News z m → Notifying m.calls
  last : m.r = .idle ∨ (∃ w, m.r = .take w) → ∀ w, m.answers.getLast? = some (w, .pending) →
    (m.waker = some w ∧ (News z m → Notifying m.calls)) ∨ (∃ c ∈ m.calls, ∃ op, c.pc = .wake op w) ∨
      w ∈ m.woken.drop m.regAt
  reg : m.regAt ≤ m.woken.length

/-- The condition on the events. -/
def WkOk (z : Bool) (m : World α) (e : Ev α) : Prop :=
  (∀ j k c op, e = .step j k → m.calls[j]? = some c → c.pc = .notify op → ∀ w, m.r ≠ .has w ∧ m.r ≠ .store w) ∧
  (z = true →
    (∀ j k c op, e = .step j k → m.calls[j]? = some c → c.pc = .notify op → m.r = .idle) ∧
    (∀ w v, e = .callPoll w v → ∀ c ∈ m.calls, ∀ op w', c.pc ≠ .wake op w') ∧
    (∀ w v, e = .callPoll w v → m.returned ≤ v))

theorem wk_step {z : Bool} {m m' : World α} {e : Ev α} (hb : Base m) (hc : z = true → Count m ∧ Zk m)
    (h : Wk z m) (hok : WkOk z m e) (hs : m.step e = some ((), m')) : Wk z m' := by
  obtain ⟨h0, h1, h1e, h2, h3, h4⟩ := h
  obtain ⟨o1, o2⟩ := hok
  have hn : ∀ c : Call α, Notifying m.calls → Notifying (m.calls ++ [c]) := by
    rintro c ⟨c', k1, k2⟩; exact ⟨c', by simp [k1], k2⟩
  have hadd : ∀ c : Call α, Wk z { m with calls := m.calls ++ [c] } := by
    intro c
    exact ⟨fun k w k1 k2 => (h0 k w k1 k2).imp id (hn c), fun w k1 k2 => hn c (h1 w k1 k2),
      fun k w k1 k2 => (h1e k w k1 k2).imp id (hn c), fun w k1 k2 => hn c (h2 w k1 k2),
      fun k1 w k2 => (h3 k1 w k2).imp (And.imp id fun f k => hn c (f k))
        (Or.imp (fun ⟨c', k1, k2⟩ => ⟨c', by simp [k1], k2⟩) id), h4⟩
  cases e with
  | callSend a v => simp only [World.step] at hs; split at hs <;> cases hs; exact hadd _
  | callClose v => simp only [World.step] at hs; split at hs <;> cases hs; exact hadd _
  | callClone v => simp only [World.step] at hs; split at hs <;> cases hs; exact hadd _
  | callDrop v =>
    simp only [World.step] at hs; split at hs <;> cases hs
    have := hadd ⟨.dropHas, v⟩
    exact ⟨this.1, this.2, this.3, this.4, this.5, this.6⟩
  | callPoll w v =>
    simp only [World.step] at hs
    split at hs <;> cases hs
    rename_i hr
    refine ⟨?_, by simp, by simp, by simp, fun _ => h3 (.inl hr.1), h4⟩
    intro k w' _ kz
    obtain ⟨-, o3, o4⟩ := o2 k
    rcases (hc k).2 kz with hz | ⟨c, k1, k2, k3⟩
    · exact .inl (hz.mono (Nat.le_trans (o4 w v rfl) (Nat.le_max_right _ _)))
    · refine .inr ⟨c, k1, ?_⟩
      have := o3 w v rfl c k1
      cases hp : c.pc <;> simp [hp, Pc.late] at k2 this ⊢
  | rstep k =>
    simp only [World.step] at hs
    cases hr : m.r with
    | idle => simp [hr] at hs
    | take w =>
      simp only [hr] at hs
      cases hv : m.value with
      | some a =>
        simp only [hv, Option.some.injEq, Prod.mk.injEq, true_and] at hs
        subst hs
        exact ⟨by simp, by simp, by simp, by simp, by simp, h4⟩
      | none =>
        simp only [hv, Option.some.injEq, Prod.mk.injEq, true_and] at hs
        subst hs
        refine ⟨by simp, by simp, ?_, by simp, by simp, h4⟩
        intro kz w' _ k0
        exact (h0 kz w hr k0).imp (fun k => k.mono (Nat.le_max_left _ _)) id
    | has w =>
      simp only [hr] at hs
      cases hl : m.load m.rview k with
      | none => simp [hl] at hs
      | some n =>
        simp only [hl] at hs
        by_cases hz : n = 0
        · simp only [hz, if_true, Option.some.injEq, Prod.mk.injEq, true_and] at hs
          subst hs
          exact ⟨by simp, by simp, by simp, by simp, by simp, h4⟩
        · simp only [hz, if_false, Option.some.injEq, Prod.mk.injEq, true_and] at hs
          subst hs
          refine ⟨by simp, by simp, by simp, ?_, by simp, h4⟩
          rintro _ _ (k | ⟨kz, k⟩)
          · exact h1 w hr k
          · exact (h1e kz w hr k).resolve_left fun k => hz (k.load hl)
    | store w =>
      simp only [hr, Option.some.injEq, Prod.mk.injEq, true_and] at hs
      subst hs
      refine ⟨by simp, by simp, by simp, by simp, ?_, Nat.le_refl _⟩
      intro _ w' hw
      simp only [List.getLast?_append, List.getLast?_singleton, Option.some_or, Option.some.injEq,
        Prod.mk.injEq, and_true] at hw
      subst hw
      exact .inl ⟨rfl, h2 w hr⟩
  | step i k =>
    obtain ⟨l1, c, l2, m1, v, o, hl, hi, he, rfl⟩ := step_split hs
    have hin : c ∈ m.calls := by rw [hl]; simp
    obtain ⟨f1, f2, f3, f4, f5, f6⟩ := exec_frame he
    have o1 := fun op k' => o1 i k c op rfl hi k'
    have o2 := fun kz op k' => (o2 kz).1 i k c op rfl hi k'
    have hmem : ∀ c' : Call α, c' ∈ m.calls → c' = c ∨ c' ∈ l1 ++ (o.map fun pc => Call.mk pc v).toList ++ l2 := by
      intro c' hc'
      rw [hl] at hc'
      simp only [List.mem_append, List.mem_cons] at hc' ⊢
      rcases hc' with k | k | k
      · exact .inr (.inl (.inl k))
      · exact .inl k
      · exact .inr (.inr k)
    have hnote : ∀ op, o = some (.notify op) → Notifying (l1 ++ (o.map fun pc => Call.mk pc v).toList ++ l2) := by
      rintro op rfl; exact ⟨⟨.notify op, v⟩, by simp, op, rfl⟩
    -- a step that takes no waker and wakes nobody
    have keep : c.pc.late = false → m1.waker = m.waker → m1.woken = m.woken →
        (m1.value ≠ none → m.value ≠ none ∨ ∃ op, o = some (.notify op)) →
        (z = true → (m1.old = m.old ∧ m1.cur = m.cur) ∨ m1.cur ≠ 0 ∨ ∃ op, o = some (.notify op)) →
        Wk z { m1 with calls := l1 ++ (o.map fun pc => Call.mk pc v).toList ++ l2,
                       returned := if o.isNone then max m.returned v else m1.returned } := by
      intro n1 e1 e2 e3 e4
      have hk : Notifying m.calls → Notifying (l1 ++ (o.map fun pc => Call.mk pc v).toList ++ l2) := by
        rintro ⟨c', k1, op, k2⟩
        rcases hmem c' k1 with rfl | k1
        · simp [k2, Pc.late] at n1
        · exact ⟨c', k1, op, k2⟩
      have hnews : News z m1 → News z m ∨ ∃ op, o = some (.notify op) := by
        rintro (k | ⟨k1, k2⟩)
        · exact (e3 k).imp .inl id
        · rcases e4 k1 with ⟨-, k⟩ | k | k
          · exact .inl (.inr ⟨k1, by rw [← k]; exact k2⟩)
          · exact absurd k2 k
          · exact .inr k
      have hend : z = true → m1.cur = 0 →
          (m.cur = 0 → ZeroFrom (m.old ++ [m.cur]) m.rview ∨ Notifying m.calls) →
          ZeroFrom (m1.old ++ [m1.cur]) m1.rview ∨ Notifying (l1 ++ (o.map fun pc => Call.mk pc v).toList ++ l2) := by
        intro kz k0 kh
        rcases e4 kz with ⟨k1, k2⟩ | k | ⟨op, k⟩
        · rw [k1, k2, f3]; rw [k2] at k0; exact (kh k0).imp id hk
        · exact absurd k0 k
        · exact .inr (hnote op k)
      refine ⟨?_, ?_, ?_, ?_, ?_, ?_⟩ <;> simp only [f2, f5, f6, e1, e2]
      · exact fun kz w k1 k2 => hend kz k2 (h0 kz w k1)
      · intro w k1 k2
        rcases e3 k2 with k | ⟨op, k⟩
        · exact hk (h1 w k1 k)
        · exact hnote op k
      · exact fun kz w k1 k2 => hend kz k2 (h1e kz w k1)
      · intro w k1 k2
        rcases hnews k2 with k | ⟨op, k⟩
        · exact hk (h2 w k1 k)
        · exact hnote op k
      · intro k1 w k2
        refine (h3 k1 w k2).imp (And.imp id ?_) (Or.imp ?_ id)
        · intro f k
          rcases hnews k with k | ⟨op, k⟩
          · exact hk (f k)
          · exact hnote op k
        · rintro ⟨c', k1, op, k2⟩
          rcases hmem c' k1 with rfl | k1
          · simp [k2, Pc.late] at n1
          · exact ⟨c', k1, op, k2⟩
      · exact h4
    rcases c with ⟨pc, vw⟩
    cases pc with
    | notify op =>
      have p1 := o1 op rfl
      simp only [World.exec] at he
      cases hw : m.waker with
      | some w =>
        simp only [hw, Option.some.injEq, Prod.mk.injEq] at he
        obtain ⟨rfl, rfl, rfl⟩ := he
        refine ⟨?_, fun w' k => absurd k (p1 w').1, fun _ w' k => absurd k (p1 w').1,
          fun w' k => absurd k (p1 w').2, ?_, h4⟩
        · intro kz w' k
          rw [show m.r = .idle from o2 kz op rfl] at k; cases k
        · intro k1 w' k2
          rcases h3 k1 w' k2 with ⟨k, -⟩ | ⟨c', k3, op', k4⟩ | k
          · rw [hw] at k; cases k
            exact .inr (.inl ⟨⟨.wake op w, max vw m.wakerView⟩, by simp, op, rfl⟩)
          · rcases hmem c' k3 with rfl | k3
            · cases k4
            · exact .inr (.inl ⟨c', k3, op', k4⟩)
          · exact .inr (.inr k)
      | none =>
        simp only [hw, Option.some.injEq, Prod.mk.injEq] at he
        obtain ⟨rfl, rfl, rfl⟩ := he
        refine ⟨?_, fun w' k => absurd k (p1 w').1, fun _ w' k => absurd k (p1 w').1,
          fun w' k => absurd k (p1 w').2, ?_, h4⟩
        · intro kz w' k
          rw [show m.r = .idle from o2 kz op rfl] at k; cases k
        · intro k1 w' k2
          rcases h3 k1 w' k2 with ⟨k, -⟩ | ⟨c', k3, op', k4⟩ | k
          · rw [hw] at k; cases k
          · rcases hmem c' k3 with rfl | k3
            · cases k4
            · exact .inr (.inl ⟨c', k3, op', k4⟩)
          · exact .inr (.inr k)
    | wake op w =>
      simp only [World.exec, Option.some.injEq, Prod.mk.injEq] at he
      obtain ⟨rfl, rfl, rfl⟩ := he
      have hk : Notifying m.calls → Notifying (l1 ++ l2) := by
        rintro ⟨c', k1, op', k2⟩
        rcases hmem c' k1 with rfl | k1
        · cases k2
        · exact ⟨c', by simpa using k1, op', k2⟩
      refine ⟨fun kz w' k1 k2 => ?_, fun w' k1 k2 => ?_, fun kz w' k1 k2 => ?_, fun w' k1 k2 => ?_, ?_, ?_⟩
      · simpa using (h0 kz w' k1 k2).imp id hk
      · simpa using hk (h1 w' k1 k2)
      · simpa using (h1e kz w' k1 k2).imp id hk
      · simpa using hk (h2 w' k1 k2)
      · intro k1 w' k2
        rcases h3 k1 w' k2 with ⟨k, k'⟩ | ⟨c', k3, op', k4⟩ | k
        · refine .inl ⟨k, fun kk => ?_⟩
          simpa using hk (k' kk)
        · rcases hmem c' k3 with rfl | k3
          · cases k4
            refine .inr (.inr ?_)
            simp only [List.drop_append_of_le_length h4]
            simp
          · exact .inr (.inl ⟨c', k3, op', k4⟩)
        · refine .inr (.inr ?_)
          simp only [List.drop_append_of_le_length h4]
          simp [k]
      · simp only [List.length_append]; omega
    | sendStore a =>
      simp only [World.exec] at he
      cases he
      exact keep rfl rfl rfl (fun _ => .inr ⟨_, rfl⟩) (fun _ => .inl ⟨rfl, rfl⟩)
    | closeStore =>
      simp only [World.exec] at he
      cases he
      exact keep rfl rfl rfl .inl (fun _ => .inr (.inr ⟨_, rfl⟩))
    | cloneAdd =>
      simp only [World.exec] at he
      cases he
      refine keep rfl rfl rfl .inl fun kz => .inr (.inl ?_)
      simp only [World.write]
      have hc := (hc kz).1
      cases hcl : m.closed with
      | true => exact absurd rfl (hc.know hcl _ hin rfl).1
      | false => have := (hc.open_ hcl).1; omega
    | dropSub =>
      simp only [World.exec] at he
      cases he
      refine keep rfl rfl rfl .inl fun kz => ?_
      by_cases hz : m.cur = 1
      · exact .inr (.inr ⟨.drop, by simp [hz]⟩)
      · refine .inr (.inl ?_)
        simp only [World.write]; omega
    | _ =>
      simp only [World.exec] at he
      (repeat split at he) <;> cases he <;> exact keep rfl rfl rfl .inl (fun _ => .inl ⟨rfl, rfl⟩)

theorem wk_init (z : Bool) (init : α) : Wk z (World.init init) :=
  ⟨by simp [World.init], by simp [World.init], by simp [World.init], by simp [World.init], by simp [World.init],
    by simp [World.init]⟩

theorem wk_send_runs {init : α} {es : List (Ev α)} {m : World α} (ha : NoWindow init es)
    (h : (World.init init).runs es = some m) : Wk false m :=
  (along_inv (Inv := fun m => Base m ∧ Wk false m) ⟨base_runs (es := []) rfl, wk_init _ init⟩
    (fun _ _ _ hi hp hs => ⟨base_step hi.1 hs, wk_step hi.1 (by simp) hi.2 ⟨hp, by simp⟩ hs⟩) ha h).2

theorem wk_runs {init : α} {es : List (Ev α)} {m : World α} (hc : Along init es CountOk)
    (h1 : SyncedPolls init es) (h2 : NoPollOverlap init es)
    (h : (World.init init).runs es = some m) : Wk true m := by
  refine (along_inv (P := fun m e => CountOk m e ∧ (∀ w v, e = .callPoll w v → m.returned ≤ v) ∧
    ((∀ j k c op, e = .step j k → m.calls[j]? = some c → c.pc = .notify op → m.r = .idle) ∧
    (∀ w v, e = .callPoll w v → ∀ c ∈ m.calls, ∀ op w', c.pc ≠ .wake op w')))
    (Inv := fun m => Base m ∧ Count m ∧ Zk m ∧ Wk true m)
    ⟨base_runs (es := []) rfl, count_init init, by simp [Zk, World.init], wk_init _ init⟩ ?_
    (hc.and (h1.and h2)) h).2.2.2
  rintro m e m' ⟨i1, i2, i3, i4⟩ ⟨p1, p2, p3⟩ hs
  refine ⟨base_step i1 hs, count_step i1 i2 p1 hs, zk_step i1 i2 i3 hs,
    wk_step i1 (fun _ => ⟨i2, i3⟩) i4 ⟨?_, fun _ => ⟨p3.1, p3.2, p2⟩⟩ hs⟩
  intro j k c op e1 e2 e3 w
  rw [p3.1 j k c op e1 e2 e3]
  exact ⟨by simp, by simp⟩

theorem zk_runs {init : α} {es : List (Ev α)} {m : World α} (hc : Along init es CountOk)
    (h : (World.init init).runs es = some m) : Zk m :=
  (along_inv (Inv := fun m => Base m ∧ Count m ∧ Zk m)
    ⟨base_runs (es := []) rfl, count_init init, by simp [Zk, World.init]⟩
    (fun _ _ _ ⟨i1, i2, i3⟩ p hs => ⟨base_step i1 hs, count_step i1 i2 p hs, zk_step i1 i2 i3 hs⟩) hc h).2.2

/-! ## The answer of a poll -/

theorem runs_cons {m m1 : World α} {e : Ev α} {es : List (Ev α)} (h : m.step e = some ((), m1)) :
    m.runs (e :: es) = m1.runs es := by
  simp only [World.runs, runE, h]
  cases runE World.step m1 es <;> rfl

theorem runs_cons_none {m : World α} {e : Ev α} {es : List (Ev α)} (h : m.step e = none) :
    m.runs (e :: es) = none := by
  simp only [World.runs, runE, h]; rfl

theorem runs_idle {m m' : World α} {ks : List Nat} (hi : m.r = .idle)
    (h : m.runs (ks.map .rstep) = some m') : m' = m := by
  cases ks with
  | nil => cases h; rfl
  | cons k ks =>
    rw [List.map_cons, runs_cons_none (by simp [World.step, hi])] at h
    cases h

/-- What a poll may answer. -/
def mayAnswer (m : World α) (v : Nat) (r : Poll (Option α)) : Prop :=
  match m.value with
  | some a => r = .ready (some a)
  | none => ∃ k n, m.load (max (max m.rview v) m.valueView) k = some n ∧
      r = if n = 0 then .ready none else .pending

theorem answers_iff {m : World α} {w : Waker} {v : Nat} {r : Poll (Option α)} (hi : m.r = .idle)
    (hv : v ≤ m.last) : m.Answers w v r ↔ mayAnswer m v r := by
  have h1 : m.step (.callPoll w v) = some ((), { m with r := .take w, rview := max m.rview v }) := by
    simp [World.step, hi, hv]
  simp only [World.Answers, runs_cons h1]
  obtain ⟨a, hval⟩ | hval : (∃ a, m.value = some a) ∨ m.value = none := by cases m.value <;> simp
  · have hmay : mayAnswer m v r ↔ r = .ready (some a) := by simp only [mayAnswer, hval]
    rw [hmay]
    have h2 : ∀ k, ({ m with r := .take w, rview := max m.rview v } : World α).step (.rstep k) =
        some ((), { m with value := none, valueView := max (max m.rview v) m.valueView,
                           rview := max (max m.rview v) m.valueView, r := .idle,
                           answers := m.answers ++ [(w, .ready (some a))] }) := by
      intro k; simp [World.step, hval]
    constructor
    · rintro ⟨ks, m', hr, hr1, hr2⟩
      cases ks with
      | nil => cases hr; cases hr1
      | cons k ks =>
        rw [List.map_cons, runs_cons (h2 k)] at hr
        rw [runs_idle rfl hr] at hr2
        simpa using hr2.symm
    · rintro rfl
      exact ⟨[0], _, by rw [List.map_cons, runs_cons (h2 0)]; rfl, rfl, rfl⟩
  · have hmay : mayAnswer m v r ↔ ∃ k n, m.load (max (max m.rview v) m.valueView) k = some n ∧
        r = if n = 0 then .ready none else .pending := by simp only [mayAnswer, hval]
    rw [hmay]
    let V := max (max m.rview v) m.valueView
    let M : World α := { m with valueView := V, rview := V, r := .has w }
    have h2 : ∀ k, ({ m with r := .take w, rview := max m.rview v } : World α).step (.rstep k) =
        some ((), M) := by
      intro k; simp [World.step, hval, M, V]
    have h3 : ∀ k, m.load V k = none → M.step (.rstep k) = none := by
      intro k hk
      have hk' : M.load V k = none := hk
      simp only [World.step]
      simp only [show M.r = .has w from rfl, show M.rview = V from rfl, hk']
    have h4 : ∀ k, m.load V k = some 0 →
        M.step (.rstep k) = some ((), { M with r := .idle, rview := k, answers := m.answers ++ [(w, .ready none)] }) := by
      intro k hk
      have hk' : M.load V k = some 0 := hk
      simp only [World.step]
      simp only [show M.r = .has w from rfl, show M.rview = V from rfl, hk']
      rfl
    have h5 : ∀ k n, m.load V k = some n → n ≠ 0 →
        M.step (.rstep k) = some ((), { M with r := .store w, rview := k }) := by
      intro k n hk hn
      have hk' : M.load V k = some n := hk
      simp only [World.step]
      simp only [show M.r = .has w from rfl, show M.rview = V from rfl, hk', hn, if_false]
    constructor
    · rintro ⟨ks, m', hr, hr1, hr2⟩
      cases ks with
      | nil => cases hr; cases hr1
      | cons k ks =>
        rw [List.map_cons, runs_cons (h2 k)] at hr
        cases ks with
        | nil => cases hr; cases hr1
        | cons k ks =>
          rw [List.map_cons] at hr
          cases hl : m.load V k with
          | none => rw [runs_cons_none (h3 k hl)] at hr; cases hr
          | some n =>
            refine ⟨k, n, hl, ?_⟩
            by_cases hn : n = 0
            · subst hn
              rw [runs_cons (h4 k hl)] at hr
              rw [runs_idle rfl hr] at hr2
              simpa using hr2.symm
            · rw [runs_cons (h5 k n hl hn)] at hr
              cases ks with
              | nil => cases hr; cases hr1
              | cons k ks =>
                rw [List.map_cons, runs_cons (m1 := _) (by simp only [World.step]; rfl)] at hr
                rw [runs_idle rfl hr] at hr2
                simpa [hn, M] using hr2.symm
    · rintro ⟨k, n, hl, rfl⟩
      by_cases hn : n = 0
      · subst hn
        exact ⟨[0, k], { M with r := .idle, rview := k, answers := m.answers ++ [(w, .ready none)] },
          (runs_cons (h2 0)).trans (runs_cons (h4 k hl)), rfl, rfl⟩
      · refine ⟨[0, k, 0], { M with r := .idle, rview := max k M.wakerView, waker := some w,
                                    wakerView := max k M.wakerView,
                                    answers := m.answers ++ [(w, .pending)], regAt := M.woken.length },
          (runs_cons (h2 0)).trans ((runs_cons (h5 k n hl hn)).trans (runs_cons rfl)), rfl, by simp [hn]⟩

/-! ## Sequential consistency -/

theorem load_last {m : World α} {v : Nat} (hv : v ≤ m.last) : m.load v m.last = some m.cur := by
  have : v ≤ m.old.length := hv
  simp [World.load, this, World.last]

theorem map_eraseIdx' {β γ : Type} (f : β → γ) : ∀ (l : List β) (i : Nat), (l.eraseIdx i).map f = (l.map f).eraseIdx i
  | [], _ => rfl
  | _ :: _, 0 => rfl
  | x :: l, i + 1 => by simp [map_eraseIdx' f l i]

theorem owns_erase (pc : Pc α) : pc.erase.owns = pc.owns := by cases pc <;> rfl

theorem exec_erase {m m1 : World α} {v v' : Nat} {pc : Pc α} {o : Option (Pc α)} (hv : v ≤ m.last)
    (he : m.exec v m.last pc = some (m1, v', o)) :
    m.erase.exec pc.erase = ({ m1.erase with calls := m.erase.calls }, o.map Pc.erase) := by
  cases pc with
  | sendHas a =>
    simp only [World.exec, load_last hv] at he
    cases he
    by_cases hz : m.cur = 0 <;> simp [ChanConc.World.exec, Pc.erase, World.erase, hz]
  | sendStore a => cases he; rfl
  | closeHas =>
    simp only [World.exec, load_last hv] at he
    cases he
    by_cases hz : m.cur = 0 <;> simp [ChanConc.World.exec, Pc.erase, World.erase, hz]
  | closeStore => cases he; rfl
  | cloneHas =>
    simp only [World.exec, load_last hv] at he
    cases he
    by_cases hz : m.cur = 0 <;> simp [ChanConc.World.exec, Pc.erase, World.erase, hz]
  | cloneAdd => cases he; rfl
  | cloneRet => cases he; rfl
  | dropHas =>
    simp only [World.exec, load_last hv] at he
    cases he
    by_cases hz : m.cur = 0 <;> simp [ChanConc.World.exec, Pc.erase, World.erase, hz]
  | dropSub =>
    cases he
    by_cases hz : m.cur = 1 <;> simp [ChanConc.World.exec, Pc.erase, World.erase, World.write, hz]
  | notify op =>
    simp only [World.exec] at he
    cases hw : m.waker <;> simp only [hw] at he <;> cases he <;>
      simp [ChanConc.World.exec, Pc.erase, World.erase, hw]
  | wake op w => cases he; rfl

/-- A step whose load reads the latest value is one of the sequentially consistent model. -/
theorem step_erase {m m' : World α} {e : Ev α} (hb : Base m)
    (hf : (∀ j k, e = .step j k → k = m.last) ∧ (∀ k, e = .rstep k → k = m.last))
    (hs : m.step e = some ((), m')) : m.erase.step e.erase = some ((), m'.erase) := by
  cases e with
  | callSend a v =>
    simp only [World.step] at hs; split at hs <;> cases hs
    rename_i hh; simp only [not_or] at hh
    simp [ChanConc.World.step, Ev.erase, World.erase, hh.1, Pc.erase]
  | callClose v =>
    simp only [World.step] at hs; split at hs <;> cases hs
    rename_i hh; simp only [not_or] at hh
    simp [ChanConc.World.step, Ev.erase, World.erase, hh.1, Pc.erase]
  | callClone v =>
    simp only [World.step] at hs; split at hs <;> cases hs
    rename_i hh; simp only [not_or] at hh
    simp [ChanConc.World.step, Ev.erase, World.erase, hh.1, Pc.erase]
  | callDrop v =>
    simp only [World.step] at hs; split at hs <;> cases hs
    rename_i hh
    have : 2 ≤ m.handles ∨ (m.handles = 1 ∧ ∀ c ∈ m.calls.map fun c => c.pc.erase, c.owns = true) := by
      simpa [owns_erase] using hh.1
    simp only [ChanConc.World.step, Ev.erase, World.erase, this, if_true]
    simp [Pc.erase]
  | callPoll w v =>
    simp only [World.step] at hs; split at hs <;> cases hs
    rename_i hh
    simp [ChanConc.World.step, Ev.erase, World.erase, hh.1, RPc.erase]
  | step i k =>
    have hk := hf.1 i k rfl
    subst hk
    simp only [World.step] at hs
    cases hc : m.calls[i]? with
    | none => simp [hc] at hs
    | some c =>
      simp only [hc] at hs
      have hcv := hb.view c (List.mem_of_getElem? hc)
      cases he : m.exec c.view m.last c.pc with
      | none => simp [he] at hs
      | some p =>
        obtain ⟨m1, v, o⟩ := p
        have hx := exec_erase hcv he
        have hg : m.erase.calls[i]? = some c.pc.erase := by simp [World.erase, hc]
        simp only [ChanConc.World.step, Ev.erase, hg, hx]
        cases o with
        | none =>
          simp only [he] at hs
          cases hs
          simp [World.erase, map_eraseIdx']
        | some pc =>
          simp only [he] at hs
          cases hs
          simp [World.erase, List.map_set]
  | rstep k =>
    have hk := hf.2 k rfl
    subst hk
    simp only [World.step] at hs
    cases hr : m.r with
    | idle => simp [hr] at hs
    | take w =>
      simp only [hr] at hs
      cases hv : m.value <;> simp only [hv] at hs <;> cases hs <;>
        simp [ChanConc.World.step, Ev.erase, World.erase, hr, RPc.erase, hv]
    | has w =>
      simp only [hr, load_last hb.rview] at hs
      by_cases hz : m.cur = 0
      · simp only [hz, if_true] at hs
        cases hs
        simp [ChanConc.World.step, Ev.erase, World.erase, hr, RPc.erase, hz]
      · simp only [hz, if_false] at hs
        cases hs
        simp [ChanConc.World.step, Ev.erase, World.erase, hr, RPc.erase, hz]
    | store w =>
      simp only [hr] at hs
      cases hs
      simp [ChanConc.World.step, Ev.erase, World.erase, hr, RPc.erase]

/-- A step of the sequentially consistent model is one whose load reads the latest value. -/
theorem step_lift {m : World α} {e' : ChanConc.Ev α} {M' : ChanConc.World α} (hb : Base m)
    (hs : m.erase.step e' = some ((), M')) :
    ∃ e m', e.erase = e' ∧ m'.erase = M' ∧ m.step e = some ((), m') ∧
      ((∀ j k, e = .step j k → k = m.last) ∧ (∀ k, e = .rstep k → k = m.last)) := by
  have key : ∀ e : Ev α, e.erase = e' →
      ((∀ j k, e = .step j k → k = m.last) ∧ (∀ k, e = .rstep k → k = m.last)) → m.step e ≠ none →
      ∃ e m', e.erase = e' ∧ m'.erase = M' ∧ m.step e = some ((), m') ∧
        ((∀ j k, e = .step j k → k = m.last) ∧ (∀ k, e = .rstep k → k = m.last)) := by
    rintro e rfl hf hn
    cases hm : m.step e with
    | none => exact absurd hm hn
    | some p =>
      obtain ⟨⟨⟩, m'⟩ := p
      have := step_erase hb hf hm
      rw [hs] at this
      cases this
      exact ⟨e, m', rfl, rfl, hm, hf⟩
  cases e' with
  | callSend a =>
    refine key (.callSend a 0) rfl (by simp) ?_
    simp only [ChanConc.World.step] at hs; split at hs <;> cases hs
    rename_i hh
    simp [World.step]; exact hh
  | callClose =>
    refine key (.callClose 0) rfl (by simp) ?_
    simp only [ChanConc.World.step] at hs; split at hs <;> cases hs
    rename_i hh
    simp [World.step]; exact hh
  | callClone =>
    refine key (.callClone 0) rfl (by simp) ?_
    simp only [ChanConc.World.step] at hs; split at hs <;> cases hs
    rename_i hh
    simp [World.step]; exact hh
  | callDrop =>
    refine key (.callDrop 0) rfl (by simp) ?_
    simp only [ChanConc.World.step] at hs; split at hs <;> cases hs
    rename_i hh
    have hh : 2 ≤ m.handles ∨ (m.handles = 1 ∧ ∀ c ∈ m.calls, c.pc.owns = true) := by
      simpa [World.erase, owns_erase] using hh
    simp [World.step]
    rcases hh with hh | hh
    · omega
    · exact fun _ => hh
  | callPoll w =>
    refine key (.callPoll w 0) rfl (by simp) ?_
    simp only [ChanConc.World.step] at hs; split at hs <;> cases hs
    rename_i hh
    have : m.r = .idle := by
      cases hr : m.r <;> simp [World.erase, hr, RPc.erase] at hh ⊢
    simp [World.step, this]
  | step i =>
    refine key (.step i m.last) rfl (by simp) ?_
    simp only [ChanConc.World.step] at hs
    cases hc : m.calls[i]? with
    | none => simp [World.erase, hc] at hs
    | some c =>
      have hcv := hb.view c (List.mem_of_getElem? hc)
      have hex : m.exec c.view m.last c.pc ≠ none := by
        rcases c with ⟨pc, v⟩
        simp only at hcv
        cases pc <;> simp [World.exec, load_last hcv]
        cases m.waker <;> simp
      simp only [World.step, hc]
      cases he : m.exec c.view m.last c.pc with
      | none => exact absurd he hex
      | some p => obtain ⟨m1, v, o⟩ := p; cases o <;> simp
  | rstep =>
    refine key (.rstep m.last) rfl (by simp) ?_
    simp only [World.step]
    cases hr : m.r with
    | idle => simp [ChanConc.World.step, World.erase, hr, RPc.erase] at hs
    | take w => cases m.value <;> simp
    | has w =>
      simp only [load_last hb.rview]
      split <;> simp
    | store w => simp

end Verif.ChanRA
