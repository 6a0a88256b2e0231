import Verif.ChannelConcSpec

/-!
# `channel`, interleaving model: proofs
-/

namespace Verif.ChanConc

variable {α : Type}

theorem runs_runE {m m' : World α} {es : List (Ev α)} (h : m.runs es = some m') :
    ∃ os, runE World.step m es = some (os, m') := by
  simp only [World.runs, Option.map_eq_some_iff] at h
  obtain ⟨⟨os, m1⟩, h, rfl⟩ := h
  exact ⟨os, h⟩

theorem runs_of_runE {m m' : World α} {es : List (Ev α)} {os : List Unit}
    (h : runE World.step m es = some (os, m')) : m.runs es = some m' := by simp [World.runs, h]

/-- The counted handles: those that exist, those about to be returned by `clone`, those being
dropped. -/
def Pc.counted : Pc α → Nat
  | .cloneRet => 1
  | .dropHas => 1
  | .dropSub => 1
  | _ => 0

def counted (cs : List (Pc α)) : Nat := (cs.map Pc.counted).sum

theorem counted_append (l1 l2 : List (Pc α)) : counted (l1 ++ l2) = counted l1 + counted l2 := by
  simp [counted]

theorem counted_cons (c : Pc α) (l : List (Pc α)) : counted (c :: l) = c.counted + counted l := by
  simp [counted]

theorem counted_nil : counted ([] : List (Pc α)) = 0 := rfl

/-- Every schedule. -/
structure Base (m : World α) : Prop where
  borrow : (∃ c ∈ m.calls, c.owns = false) → m.handles ≠ 0

/-- Schedules without overlap. -/
structure Count (m : World α) : Prop where
  open_ : m.closed = false → m.senders = ((m.handles + counted m.calls : Nat) : Int)
  closed : m.closed = true → m.senders = 0 ∧ .cloneAdd ∉ m.calls ∧ .dropSub ∉ m.calls

theorem step_split {m m' : World α} {i : Nat} (hs : m.step (.step i) = some ((), m')) :
    ∃ l1 pc l2 m1 o, m.calls = l1 ++ pc :: l2 ∧ m.calls[i]? = some pc ∧
      m.exec pc = (m1, o) ∧
      m' = { m1 with calls := l1 ++ o.toList ++ l2 } := by
  simp only [World.step] at hs
  cases hc : m.calls[i]? with
  | none => simp [hc] at hs
  | some pc =>
    obtain ⟨l1, l2, hl, h1, h2⟩ := split_idx hc
    simp only [hc] at hs
    cases he : m.exec pc with
    | mk m1 o =>
      cases o with
      | none =>
        simp only [he, Option.some.injEq, Prod.mk.injEq, true_and] at hs
        exact ⟨l1, pc, l2, m1, none, hl, rfl, he, by rw [← hs, h2]; simp⟩
      | some pc' =>
        simp only [he, Option.some.injEq, Prod.mk.injEq, true_and] at hs
        exact ⟨l1, pc, l2, m1, some pc', hl, rfl, he, by rw [← hs, h1]; simp⟩

theorem base_step {m m' : World α} {e : Ev α} (h : Base m) (hs : m.step e = some ((), m')) : Base m' := by
  obtain ⟨hb⟩ := h
  cases e with
  | callSend a =>
    simp only [World.step] at hs
    split at hs <;> cases hs
    exact ⟨fun _ => by assumption⟩
  | callClose =>
    simp only [World.step] at hs
    split at hs <;> cases hs
    exact ⟨fun _ => by assumption⟩
  | callClone =>
    simp only [World.step] at hs
    split at hs <;> cases hs
    exact ⟨fun _ => by assumption⟩
  | callDrop =>
    simp only [World.step] at hs
    split at hs <;> cases hs
    rename_i hc
    refine ⟨?_⟩
    rintro ⟨c, hc1, hc2⟩
    rw [List.mem_append, List.mem_singleton] at hc1
    simp only
    rcases hc with hc | ⟨_, hc⟩
    · omega
    · rcases hc1 with hc1 | rfl
      · rw [hc c hc1] at hc2; cases hc2
      · cases hc2
  | step i =>
    obtain ⟨l1, pc, l2, m1, o, hl, -, he, rfl⟩ := step_split hs
    refine ⟨?_⟩
    rintro ⟨c, hc1, hc2⟩
    have hmono : m.handles ≤ m1.handles := by
      cases pc <;> simp only [World.exec] at he <;> (repeat split at he) <;> cases he <;>
        first | exact Nat.le_refl _ | exact Nat.le_succ _
    have hown : ∀ pc', o = some pc' → pc'.owns = false → pc.owns = false := by
      intro pc' ho hpo
      cases pc <;> simp only [World.exec] at he <;> (repeat split at he) <;> cases he <;>
        first | (cases ho; first | rfl | exact hpo | cases hpo) | cases ho
    have : m.handles ≠ 0 := by
      refine hb ?_
      simp only [List.mem_append, Option.mem_toList] at hc1
      rcases hc1 with (hc1 | hc1) | hc1
      · exact ⟨c, by rw [hl]; simp [hc1], hc2⟩
      · exact ⟨pc, by rw [hl]; simp, hown c hc1 hc2⟩
      · exact ⟨c, by rw [hl]; simp [hc1], hc2⟩
    simp only
    omega
  | callPoll w =>
    simp only [World.step] at hs
    split at hs <;> cases hs
    exact ⟨hb⟩
  | rstep =>
    simp only [World.step] at hs
    split at hs <;> (try split at hs) <;> cases hs <;> exact ⟨hb⟩

theorem count_step {m m' : World α} {e : Ev α} (hb : Base m) (h : Count m)
    (hno : ∀ j, e = .step j → m.calls[j]? = some .closeStore → .cloneAdd ∉ m.calls ∧ .dropSub ∉ m.calls)
    (hs : m.step e = some ((), m')) : Count m' := by
  obtain ⟨h1, h2⟩ := h
  cases e with
  | callSend a =>
    simp only [World.step] at hs
    split at hs <;> cases hs
    refine ⟨fun k => ?_, fun k => ?_⟩
    · simp [h1 k, counted_append, counted_cons, counted_nil, Pc.counted]
    · simpa using h2 k
  | callClose =>
    simp only [World.step] at hs
    split at hs <;> cases hs
    refine ⟨fun k => ?_, fun k => ?_⟩
    · simp [h1 k, counted_append, counted_cons, counted_nil, Pc.counted]
    · simpa using h2 k
  | callClone =>
    simp only [World.step] at hs
    split at hs <;> cases hs
    refine ⟨fun k => ?_, fun k => ?_⟩
    · simp [h1 k, counted_append, counted_cons, counted_nil, Pc.counted]
    · simpa using h2 k
  | callDrop =>
    simp only [World.step] at hs
    split at hs <;> cases hs
    rename_i hc
    refine ⟨fun k => ?_, fun k => ?_⟩
    · simp only [h1 k, counted_append, counted_cons, counted_nil, Pc.counted]
      congr 1
      rcases hc with hc | ⟨hc, -⟩ <;> omega
    · simpa using h2 k
  | step i =>
    obtain ⟨l1, pc, l2, m1, o, hl, hi, he, rfl⟩ := step_split hs
    have hno := hno i rfl
    rw [hl] at h1
    simp only [counted_append, counted_cons] at h1
    have hmem : ∀ x : Pc α, x ∉ m.calls → x ∉ l1 ++ l2 := by
      intro x hx hk
      apply hx
      rw [hl]
      simp only [List.mem_append, List.mem_cons] at hk ⊢
      exact hk.imp id .inr
    have hbor : pc.owns = false → m.handles ≠ 0 := by
      intro k
      exact hb.borrow ⟨pc, by rw [hl]; simp, k⟩
    cases pc with
    | sendHas a =>
      simp only [World.exec] at he
      split at he <;> cases he
      · refine ⟨fun k => ?_, fun k => ⟨(h2 k).1, ?_, ?_⟩⟩
        · rw [h1 k]; simp [counted_append, Pc.counted]
        · simpa using hmem _ (h2 k).2.1
        · simpa using hmem _ (h2 k).2.2
      · refine ⟨fun k => ?_, fun k => ⟨(h2 k).1, ?_, ?_⟩⟩
        · simp only [h1 k]; simp [counted_append, counted_cons, Pc.counted]
        · simpa using hmem _ (h2 k).2.1
        · simpa using hmem _ (h2 k).2.2
    | sendStore a =>
      simp only [World.exec] at he
      cases he
      refine ⟨fun k => ?_, fun k => ⟨(h2 k).1, ?_, ?_⟩⟩
      · simp only [h1 k]; simp [counted_append, counted_cons, Pc.counted]
      · simpa using hmem _ (h2 k).2.1
      · simpa using hmem _ (h2 k).2.2
    | closeHas =>
      simp only [World.exec] at he
      split at he <;> cases he
      · refine ⟨fun k => ?_, fun k => ⟨(h2 k).1, ?_, ?_⟩⟩
        · rw [h1 k]; simp [counted_append, Pc.counted]
        · simpa using hmem _ (h2 k).2.1
        · simpa using hmem _ (h2 k).2.2
      · refine ⟨fun k => ?_, fun k => ⟨(h2 k).1, ?_, ?_⟩⟩
        · simp only [h1 k]; simp [counted_append, counted_cons, Pc.counted]
        · simpa using hmem _ (h2 k).2.1
        · simpa using hmem _ (h2 k).2.2
    | closeStore =>
      have hno := hno hi
      simp only [World.exec] at he
      cases he
      refine ⟨by simp, fun k => ⟨rfl, ?_, ?_⟩⟩
      · simpa using hmem _ hno.1
      · simpa using hmem _ hno.2
    | cloneHas =>
      have hh := hbor rfl
      simp only [World.exec] at he
      split at he <;> cases he
      · rename_i hz
        refine ⟨fun k => ?_, fun k => ⟨(h2 k).1, ?_, ?_⟩⟩
        · have := h1 k; omega
        · simpa using hmem _ (h2 k).2.1
        · simpa using hmem _ (h2 k).2.2
      · rename_i hz
        refine ⟨fun k => ?_, fun k => absurd (h2 k).1 hz⟩
        simp only [h1 k]; simp [counted_append, counted_cons, Pc.counted]
    | cloneAdd =>
      simp only [World.exec] at he
      cases he
      refine ⟨fun k => ?_, fun k => absurd ?_ (h2 k).2.1⟩
      · simp only [h1 k]; simp [counted_append, counted_cons, Pc.counted]; omega
      · rw [hl]; simp
    | cloneRet =>
      simp only [World.exec] at he
      cases he
      refine ⟨fun k => ?_, fun k => ⟨(h2 k).1, ?_, ?_⟩⟩
      · simp only [h1 k]; simp [counted_append, Pc.counted]; omega
      · simpa using hmem _ (h2 k).2.1
      · simpa using hmem _ (h2 k).2.2
    | dropHas =>
      simp only [World.exec] at he
      split at he <;> cases he
      · rename_i hz
        refine ⟨fun k => ?_, fun k => ⟨(h2 k).1, ?_, ?_⟩⟩
        · have := h1 k; simp only [Pc.counted] at this; omega
        · simpa using hmem _ (h2 k).2.1
        · simpa using hmem _ (h2 k).2.2
      · rename_i hz
        refine ⟨fun k => ?_, fun k => absurd (h2 k).1 hz⟩
        simp only [h1 k]; simp [counted_append, counted_cons, Pc.counted]
    | dropSub =>
      have hin : (Pc.dropSub : Pc α) ∈ m.calls := by rw [hl]; simp
      simp only [World.exec] at he
      split at he <;> cases he
      · rename_i hz
        refine ⟨fun k => ?_, fun k => absurd hin (h2 k).2.2⟩
        have := h1 k
        simp only [counted_append, Option.toList, counted_cons, counted_nil, Pc.counted] at this ⊢
        omega
      · rename_i hz
        refine ⟨fun k => ?_, fun k => absurd hin (h2 k).2.2⟩
        have := h1 k
        simp only [counted_append, Option.toList, counted_nil, Pc.counted] at this ⊢
        omega
    | notify b =>
      simp only [World.exec] at he
      split at he <;> cases he
      · refine ⟨fun k => ?_, fun k => ⟨(h2 k).1, ?_, ?_⟩⟩
        · simp only [h1 k]; simp [counted_append, counted_cons, Pc.counted]
        · simpa using hmem _ (h2 k).2.1
        · simpa using hmem _ (h2 k).2.2
      · refine ⟨fun k => ?_, fun k => ⟨(h2 k).1, ?_, ?_⟩⟩
        · simp only [h1 k]; simp [counted_append, Pc.counted]
        · simpa using hmem _ (h2 k).2.1
        · simpa using hmem _ (h2 k).2.2
    | wake b w =>
      simp only [World.exec] at he
      cases he
      refine ⟨fun k => ?_, fun k => ⟨(h2 k).1, ?_, ?_⟩⟩
      · simp only [h1 k]; simp [counted_append, Pc.counted]
      · simpa using hmem _ (h2 k).2.1
      · simpa using hmem _ (h2 k).2.2
  | callPoll w =>
    simp only [World.step] at hs
    split at hs <;> cases hs
    exact ⟨h1, h2⟩
  | rstep =>
    simp only [World.step] at hs
    split at hs <;> (try split at hs) <;> cases hs <;> exact ⟨h1, h2⟩

theorem NoOverlap.prefix {init : α} {es : List (Ev α)} {e : Ev α} (h : NoOverlap init (es ++ [e])) :
    NoOverlap init es := by
  intro i j m1 he hr
  obtain ⟨hlt, -⟩ := List.getElem?_eq_some_iff.1 he
  refine h i j m1 (by rw [List.getElem?_append_left hlt]; exact he) ?_
  rw [List.take_append_of_le_length (by omega)]; exact hr

theorem NoOverlap.last {init : α} {es : List (Ev α)} {e : Ev α} {m : World α} (h : NoOverlap init (es ++ [e]))
    (hr : (World.init init).runs es = some m) (j : Nat) (he : e = .step j)
    (hc : m.calls[j]? = some .closeStore) : .cloneAdd ∉ m.calls ∧ .dropSub ∉ m.calls :=
  h es.length j m (by simp [he]) (by simpa using hr) hc

theorem NoWindow.prefix {init : α} {es : List (Ev α)} {e : Ev α} (h : NoWindow init (es ++ [e])) :
    NoWindow init es := by
  intro i j m1 b he hr
  obtain ⟨hlt, -⟩ := List.getElem?_eq_some_iff.1 he
  refine h i j m1 b (by rw [List.getElem?_append_left hlt]; exact he) ?_
  rw [List.take_append_of_le_length (by omega)]; exact hr

theorem NoWindow.last {init : α} {es : List (Ev α)} {e : Ev α} {m : World α} (h : NoWindow init (es ++ [e]))
    (hr : (World.init init).runs es = some m) (j : Nat) (b : Bool) (he : e = .step j)
    (hc : m.calls[j]? = some (.notify b)) : ∀ w, m.r ≠ .has w ∧ m.r ≠ .store w :=
  h es.length j m b (by simp [he]) (by simpa using hr) hc

theorem count_runs {init : α} {es : List (Ev α)} {m : World α} {os : List Unit} (hno : NoOverlap init es)
    (h : runE World.step (World.init init) es = some (os, m)) : Base m ∧ Count m := by
  have := runE_inv (step := World.step) (Inv := fun es os m => runE World.step (World.init init) es = some (os, m) ∧
    Base m ∧ (NoOverlap init es → Count m)) ⟨rfl, ⟨by simp [World.init]⟩, fun _ => ⟨fun _ => rfl, by simp [World.init]⟩⟩
    (by
      rintro es os m e ⟨⟩ m' ⟨hr, hb, hc⟩ hs
      refine ⟨runE_snoc_of hr hs, base_step hb hs, fun hn => count_step hb (hc hn.prefix) ?_ hs⟩
      exact hn.last (runs_of_runE hr)) h
  exact ⟨this.2.1, this.2.2 hno⟩

/-- A call is about to take the waker. -/
def Notifying (cs : List (Pc α)) : Prop := ∃ b, .notify b ∈ cs

/-- There is something for the receiver to see. -/
def News (m : World α) : Prop := m.value ≠ none ∨ m.senders = 0

/-- Schedules without overlap, and without a `notify` in the window of the poll. -/
structure Wk (m : World α) : Prop where
  has : ∀ w, m.r = .has w → m.value ≠ none → Notifying m.calls
  store : ∀ w, m.r = .store w → News m → Notifying m.calls
  last : m.r = .idle ∨ (∃ w, m.r = .take w) → ∀ w, m.answers.getLast? = some (w, .pending) →
    (m.waker = some w ∧ (News m → Notifying m.calls)) ∨ (∃ b, .wake b w ∈ m.calls) ∨
      w ∈ m.woken.drop m.regAt
  reg : m.regAt ≤ m.woken.length

theorem wk_step {m m' : World α} {e : Ev α} (hc : Count m) (h : Wk m)
    (hno : ∀ j b, e = .step j → m.calls[j]? = some (.notify b) → ∀ w, m.r ≠ .has w ∧ m.r ≠ .store w)
    (hs : m.step e = some ((), m')) : Wk m' := by
  obtain ⟨h1, h2, h3, h4⟩ := h
  have hadd : ∀ c : Pc α, Notifying m.calls → Notifying (m.calls ++ [c]) := by
    rintro c ⟨b, hk⟩; exact ⟨b, by simp [hk]⟩
  cases e with
  | callSend a =>
    simp only [World.step] at hs
    split at hs <;> cases hs
    exact ⟨fun w k1 k2 => hadd _ (h1 w k1 k2), fun w k1 k2 => hadd _ (h2 w k1 k2),
      fun k1 w k2 => (h3 k1 w k2).imp (And.imp id fun f k => hadd _ (f k))
        (Or.imp (fun ⟨b, k⟩ => ⟨b, by simp [k]⟩) id), h4⟩
  | callClose =>
    simp only [World.step] at hs
    split at hs <;> cases hs
    exact ⟨fun w k1 k2 => hadd _ (h1 w k1 k2), fun w k1 k2 => hadd _ (h2 w k1 k2),
      fun k1 w k2 => (h3 k1 w k2).imp (And.imp id fun f k => hadd _ (f k))
        (Or.imp (fun ⟨b, k⟩ => ⟨b, by simp [k]⟩) id), h4⟩
  | callClone =>
    simp only [World.step] at hs
    split at hs <;> cases hs
    exact ⟨fun w k1 k2 => hadd _ (h1 w k1 k2), fun w k1 k2 => hadd _ (h2 w k1 k2),
      fun k1 w k2 => (h3 k1 w k2).imp (And.imp id fun f k => hadd _ (f k))
        (Or.imp (fun ⟨b, k⟩ => ⟨b, by simp [k]⟩) id), h4⟩
  | callDrop =>
    simp only [World.step] at hs
    split at hs <;> cases hs
    exact ⟨fun w k1 k2 => hadd _ (h1 w k1 k2), fun w k1 k2 => hadd _ (h2 w k1 k2),
      fun k1 w k2 => (h3 k1 w k2).imp (And.imp id fun f k => hadd _ (f k))
        (Or.imp (fun ⟨b, k⟩ => ⟨b, by simp [k]⟩) id), h4⟩
  | callPoll w =>
    simp only [World.step] at hs
    split at hs <;> cases hs
    rename_i hr
    exact ⟨by simp, by simp, fun _ => h3 (.inl hr), h4⟩
  | rstep =>
    simp only [World.step] at hs
    cases hr : m.r with
    | idle => simp [hr] at hs
    | take w =>
      simp only [hr] at hs
      cases hv : m.value with
      | some a =>
        simp only [hv, Option.some.injEq, Prod.mk.injEq, true_and] at hs
        subst hs
        exact ⟨by simp, by simp, by simp, h4⟩
      | none =>
        simp only [hv, Option.some.injEq, Prod.mk.injEq, true_and] at hs
        subst hs
        exact ⟨by simp, by simp, by simp, h4⟩
    | has w =>
      simp only [hr] at hs
      by_cases hz : m.senders = 0
      · simp only [hz, if_true, Option.some.injEq, Prod.mk.injEq, true_and] at hs
        subst hs
        exact ⟨by simp, by simp, by simp, h4⟩
      · simp only [hz, if_false, Option.some.injEq, Prod.mk.injEq, true_and] at hs
        subst hs
        refine ⟨by simp, ?_, by simp, h4⟩
        intro _ _ k
        exact k.elim (h1 w hr) fun k => absurd k hz
    | store w =>
      simp only [hr, Option.some.injEq, Prod.mk.injEq, true_and] at hs
      subst hs
      refine ⟨by simp, by simp, ?_, Nat.le_refl _⟩
      intro _ w' hw
      simp only [List.getLast?_append, List.getLast?_singleton, Option.some_or, Option.some.injEq,
        Prod.mk.injEq, and_true] at hw
      subst hw
      exact .inl ⟨rfl, h2 w hr⟩
  | step i =>
    obtain ⟨l1, pc, l2, m1, o, hl, hi, he, rfl⟩ := step_split hs
    -- a step that keeps the news, the waker and the receiver
    have keep : (∀ b, pc ≠ .notify b) → (∀ b w, pc ≠ .wake b w) →
        m1.r = m.r → m1.waker = m.waker → m1.answers = m.answers → m1.woken = m.woken → m1.regAt = m.regAt →
        (m1.value ≠ none → m.value ≠ none ∨ o = some (.notify false) ∨ o = some (.notify true)) →
        (m1.senders = 0 → m.senders = 0 ∨ o = some (.notify false) ∨ o = some (.notify true)) →
        Wk { m1 with calls := l1 ++ o.toList ++ l2 } := by
      intro n1 n2 e1 e2 e3 e4 e5 e6 e7
      have hn : Notifying m.calls → Notifying (l1 ++ o.toList ++ l2) := by
        rintro ⟨b, k⟩
        refine ⟨b, ?_⟩
        rw [hl] at k
        simp only [List.mem_append, List.mem_cons] at k ⊢
        rcases k with k | k | k
        · exact .inl (.inl k)
        · exact absurd k.symm (n1 b)
        · exact .inr k
      have ho : o = some (.notify false) ∨ o = some (.notify true) → Notifying (l1 ++ o.toList ++ l2) := by
        rintro (k | k) <;> rw [k]
        · exact ⟨false, by simp⟩
        · exact ⟨true, by simp⟩
      refine ⟨?_, ?_, ?_, ?_⟩
      · intro w k1 k2
        exact (e6 k2).elim (fun k => hn (h1 w (e1 ▸ k1) k)) ho
      · intro w k1 k2
        rcases k2 with k2 | k2
        · exact (e6 k2).elim (fun k => hn (h2 w (e1 ▸ k1) (.inl k))) ho
        · exact (e7 k2).elim (fun k => hn (h2 w (e1 ▸ k1) (.inr k))) ho
      · simp only [e1, e3]
        intro k1 w k2
        rcases h3 k1 w k2 with ⟨g1, g2⟩ | ⟨b, g⟩ | g
        · left
          refine ⟨by rw [e2]; exact g1, ?_⟩
          rintro (k3 | k3)
          · exact (e6 k3).elim (fun k => hn (g2 (.inl k))) ho
          · exact (e7 k3).elim (fun k => hn (g2 (.inr k))) ho
        · right; left
          refine ⟨b, ?_⟩
          rw [hl] at g
          simp only [List.mem_append, List.mem_cons] at g ⊢
          rcases g with g | g | g
          · exact .inl (.inl g)
          · exact absurd g.symm (n2 b w)
          · exact .inr g
        · right; right
          simp only [e4, e5]; exact g
      · simp only [e4, e5]; exact h4
    cases pc with
    | notify b =>
      have hw := hno i b rfl hi
      have hrr : m.r = .idle ∨ ∃ w, m.r = .take w := by
        cases hr : m.r with
        | idle => exact .inl rfl
        | take w => exact .inr ⟨w, rfl⟩
        | has w => exact absurd hr (hw w).1
        | store w => exact absurd hr (hw w).2
      have hrh : ∀ w, m.r ≠ .has w := fun w => (hw w).1
      have hrs : ∀ w, m.r ≠ .store w := fun w => (hw w).2
      simp only [World.exec] at he
      cases hwk : m.waker with
      | some w0 =>
        simp only [hwk] at he
        cases he
        refine ⟨fun w k => absurd k (hrh w), fun w k => absurd k (hrs w), ?_, h4⟩
        intro k1 w k2
        rcases h3 k1 w k2 with ⟨g1, _⟩ | ⟨b', g⟩ | g
        · rw [hwk] at g1; cases g1
          exact .inr (.inl ⟨b, by simp⟩)
        · right; left
          refine ⟨b', ?_⟩
          rw [hl] at g
          simp only [List.mem_append, List.mem_cons, reduceCtorEq, false_or] at g ⊢
          rcases g with g | g
          · exact .inl (.inl g)
          · exact .inr g
        · exact .inr (.inr g)
      | none =>
        simp only [hwk] at he
        cases he
        refine ⟨fun w k => absurd k (hrh w), fun w k => absurd k (hrs w), ?_, h4⟩
        intro k1 w k2
        rcases h3 k1 w k2 with ⟨g1, _⟩ | ⟨b', g⟩ | g
        · rw [hwk] at g1; cases g1
        · right; left
          refine ⟨b', ?_⟩
          rw [hl] at g
          simp only [List.mem_append, List.mem_cons, reduceCtorEq, false_or] at g ⊢
          rcases g with g | g
          · exact .inl (.inl g)
          · exact .inr g
        · exact .inr (.inr g)
    | wake b w0 =>
      simp only [World.exec] at he
      cases he
      have hn : Notifying m.calls → Notifying (l1 ++ (none : Option (Pc α)).toList ++ l2) := by
        rintro ⟨b, k⟩
        refine ⟨b, ?_⟩
        rw [hl] at k
        simp only [List.mem_append, List.mem_cons, reduceCtorEq, false_or] at k ⊢
        rcases k with k | k
        · exact .inl (.inl k)
        · exact .inr k
      refine ⟨fun w k1 k2 => hn (h1 w k1 k2), fun w k1 k2 => hn (h2 w k1 k2), ?_, ?_⟩
      · intro k1 w k2
        rcases h3 k1 w k2 with ⟨g1, g2⟩ | ⟨b', g⟩ | g
        · exact .inl ⟨g1, fun k => hn (g2 k)⟩
        · rw [hl] at g
          simp only [List.mem_append, List.mem_cons] at g
          rcases g with g | g | g
          · exact .inr (.inl ⟨b', by simp [g]⟩)
          · cases g
            right; right
            simp only [List.drop_append_of_le_length h4, List.mem_append, List.mem_singleton, or_true]
          · exact .inr (.inl ⟨b', by simp [g]⟩)
        · right; right
          simp only [List.drop_append_of_le_length h4, List.mem_append, g, true_or]
      · simp only [List.length_append]; omega
    | sendHas a =>
      simp only [World.exec] at he
      split at he <;> cases he <;>
        exact keep (by simp) (by simp) rfl rfl rfl rfl rfl .inl .inl
    | sendStore a =>
      simp only [World.exec] at he
      cases he
      exact keep (by simp) (by simp) rfl rfl rfl rfl rfl (by simp) (by simp)
    | closeHas =>
      simp only [World.exec] at he
      split at he <;> cases he <;>
        exact keep (by simp) (by simp) rfl rfl rfl rfl rfl .inl .inl
    | closeStore =>
      simp only [World.exec] at he
      cases he
      exact keep (by simp) (by simp) rfl rfl rfl rfl rfl (by simp) (by simp)
    | cloneHas =>
      simp only [World.exec] at he
      split at he <;> cases he <;>
        exact keep (by simp) (by simp) rfl rfl rfl rfl rfl .inl .inl
    | cloneAdd =>
      have hnn : 0 ≤ m.senders := by
        cases hcl : m.closed with
        | true => rw [(hc.closed hcl).1]; exact Int.le_refl _
        | false => rw [hc.open_ hcl]; omega
      simp only [World.exec] at he
      cases he
      refine keep (by simp) (by simp) rfl rfl rfl rfl rfl .inl ?_
      intro k
      simp only at k
      omega
    | cloneRet =>
      simp only [World.exec] at he
      cases he
      exact keep (by simp) (by simp) rfl rfl rfl rfl rfl .inl .inl
    | dropHas =>
      simp only [World.exec] at he
      split at he <;> cases he <;>
        exact keep (by simp) (by simp) rfl rfl rfl rfl rfl .inl .inl
    | dropSub =>
      simp only [World.exec] at he
      split at he <;> cases he
      · exact keep (by simp) (by simp) rfl rfl rfl rfl rfl .inl (by simp)
      · rename_i hz
        refine keep (by simp) (by simp) rfl rfl rfl rfl rfl .inl ?_
        intro k
        simp only at k
        omega

theorem wk_runs {init : α} {es : List (Ev α)} {m : World α} {os : List Unit} (hno : NoOverlap init es)
    (hnw : NoWindow init es) (h : runE World.step (World.init init) es = some (os, m)) : Wk m := by
  have := runE_inv (step := World.step) (Inv := fun es os m => runE World.step (World.init init) es = some (os, m) ∧
    (NoOverlap init es → NoWindow init es → Wk m))
    ⟨rfl, fun _ _ => ⟨by simp [World.init], by simp [World.init], by simp [World.init], by simp [World.init]⟩⟩
    (by
      rintro es os m e ⟨⟩ m' ⟨hr, hc⟩ hs
      refine ⟨runE_snoc_of hr hs, fun hn hw => ?_⟩
      obtain ⟨-, g2⟩ := count_runs hn.prefix hr
      exact wk_step g2 (hc hn.prefix hw.prefix) (hw.last (runs_of_runE hr)) hs) h
  exact this.2 hno hnw

end Verif.ChanConc
