import Verif.Atomic

/-!
# `AtomicOption`: proofs
-/

namespace Verif.AtomicOption

variable {α : Type}

theorem unbox_perm {bs bs' : List (Addr × α)} {p : Addr} {x : α} (h : unbox bs p = some (x, bs')) :
    bs.Perm ((p, x) :: bs') := by
  induction bs generalizing bs' with
  | nil => cases h
  | cons b bs ih =>
    obtain ⟨q, y⟩ := b
    simp only [unbox] at h
    split at h
    · rename_i hq; cases h; subst hq; exact .refl _
    · split at h
      · cases h
      · rename_i z bs'' hu
        simp only [Option.some.injEq, Prod.mk.injEq] at h
        obtain ⟨rfl, rfl⟩ := h
        exact ((ih hu).cons _).trans (.swap _ _ _)

theorem unbox_some {bs : List (Addr × α)} {p : Addr} (h : p ∈ bs.map (·.1)) :
    ∃ x bs', unbox bs p = some (x, bs') := by
  induction bs with
  | nil => simp at h
  | cons b bs ih =>
    obtain ⟨q, y⟩ := b
    simp only [unbox]
    split
    · exact ⟨_, _, rfl⟩
    · rename_i hq
      simp only [List.map_cons, List.mem_cons] at h
      obtain ⟨x, bs', hx⟩ := ih (h.resolve_left fun k => hq k.symm)
      exact ⟨x, (q, y) :: bs', by simp [hx]⟩

/-- All pointers held: by the `AtomicOption` and by the running calls. -/
def ptrs (p : Option Addr) (cs : List (Pc α)) : List Addr := p.toList ++ cs.flatMap (·.ptr.toList)

/-- The pointer `p` stands for the value `v`. -/
def Has (bs : List (Addr × α)) : Option Addr → Option α → Prop
  | none, none => True
  | some p, some a => (p, a) ∈ bs
  | _, _ => False

/-- What a running call knows. -/
def CallOk (bs : List (Addr × α)) : Pc α → Prop
  | .exchange _ p v => Has bs p v
  | .unbox _ p v => Has bs p v

structure Inv (m : World α) : Prop where
  perm : (m.boxes.map (·.1)).Perm (ptrs m.ptr m.calls)
  nodup : (m.boxes.map (·.1)).Nodup
  acc : m.put.Perm (m.returned ++ m.dropped ++ m.boxes.map (·.2))
  reg : Has m.boxes m.ptr m.reg
  calls : ∀ c ∈ m.calls, CallOk m.boxes c
  dead : m.alive = false → m.ptr = none ∧ m.calls = []

theorem Has.mono {bs bs' : List (Addr × α)} {p : Option Addr} {v : Option α}
    (hp : ∀ q a, p = some q → (q, a) ∈ bs → (q, a) ∈ bs') (h : Has bs p v) : Has bs' p v := by
  cases p <;> cases v <;> simp only [Has] at h ⊢
  exact hp _ _ rfl h

theorem CallOk.mono {bs bs' : List (Addr × α)} {c : Pc α}
    (hp : ∀ q a, c.ptr = some q → (q, a) ∈ bs → (q, a) ∈ bs') (h : CallOk bs c) : CallOk bs' c := by
  cases c with
  | exchange k p v => exact Has.mono hp h
  | unbox k p v => exact Has.mono hp h

theorem inv_new (v : Option α) : Inv (World.new v) := by
  cases v with
  | none => exact ⟨by simp [World.new, World.blank, ptrs], by simp [World.new, World.blank],
      by simp [World.new, World.blank], by simp [World.new, World.blank, Has],
      by simp [World.new, World.blank], by simp [World.new, World.blank]⟩
  | some a => exact ⟨by simp [World.new, World.blank, ptrs], by simp [World.new],
      by simp [World.new, World.blank], by simp [World.new, Has],
      by simp [World.new, World.blank], by simp [World.new, World.blank]⟩

/-- `from_ptr` of a pointer that is held, and whose value is known. -/
theorem fromPtr_spec {m : World α} {p : Option Addr} {v : Option α} {rest : List Addr}
    (hperm : (m.boxes.map (·.1)).Perm (p.toList ++ rest)) (hn : (m.boxes.map (·.1)).Nodup)
    (hv : Has m.boxes p v) :
    ∃ bs, m.fromPtr p = some (v, { m with boxes := bs }) ∧ (bs.map (·.1)).Perm rest ∧
      (bs.map (·.1)).Nodup ∧ (m.boxes.map (·.2)).Perm (v.toList ++ bs.map (·.2)) ∧
      (∀ q a, q ∈ rest → (q, a) ∈ m.boxes → (q, a) ∈ bs) := by
  cases p with
  | none =>
    cases v with
    | some v => exact hv.elim
    | none => exact ⟨m.boxes, rfl, by simpa using hperm, hn, by simp, fun _ _ _ h => h⟩
  | some p =>
    cases v with
    | none => exact hv.elim
    | some v =>
      have hp : p ∈ m.boxes.map (·.1) := List.mem_map_of_mem (f := (·.1)) hv
      obtain ⟨x, bs, hu⟩ := unbox_some hp
      have hperm' := unbox_perm hu
      have hn' : ((p :: bs.map (·.1)) : List Addr).Nodup := (hperm'.map Prod.fst).nodup_iff.1 hn
      have hxv : x = v := by
        have : (p, v) ∈ (p, x) :: bs := hperm'.mem_iff.1 hv
        rw [List.mem_cons] at this
        rcases this with h | h
        · cases h; rfl
        · exact absurd (List.mem_map_of_mem (f := (·.1)) h) (List.nodup_cons.1 hn').1
      subst hxv
      have h1 : (p :: bs.map (·.1)).Perm (p :: rest) := (hperm'.map Prod.fst).symm.trans hperm
      have h2 : (bs.map (·.1)).Perm rest := (List.perm_cons p).1 h1
      refine ⟨bs, by simp [World.fromPtr, hu], h2, (List.nodup_cons.1 hn').2,
        hperm'.map (·.2), ?_⟩
      intro q a hq hm
      have : (q, a) ∈ (p, x) :: bs := hperm'.mem_iff.1 hm
      rw [List.mem_cons] at this
      rcases this with h | h
      · cases h
        exact absurd (h2.symm.mem_iff.1 hq) (List.nodup_cons.1 hn').1
      · exact h

theorem mem_ptrs_call {p : Option Addr} {cs : List (Pc α)} {c : Pc α} (h : c ∈ cs) {q : Addr}
    (hq : c.ptr = some q) : q ∈ ptrs p cs := by
  simp only [ptrs, List.mem_append, List.mem_flatMap]
  exact .inr ⟨c, h, by simp [hq]⟩

/-- One step keeps the invariant, is never undefined behaviour, and a returning `swap` or `take`
returns what the register held when the pointers were exchanged. -/
theorem inv_step {m m' : World α} {e : Ev α} {o : Obs α} (h : Inv m) (hs : m.step e = some (o, m')) :
    Inv m' ∧ o ≠ .ub ∧ (∀ i k p x, e = .finish i → m.calls[i]? = some (.unbox k p x) →
      o = (match k with | .swap => .ret x | .store => .none)) := by
  cases e with
  | call k v p =>
    simp only [World.step] at hs
    split at hs
    · rename_i hal
      cases v with
      | none =>
        simp only [World.toPtr, Option.some.injEq, Prod.mk.injEq] at hs
        obtain ⟨rfl, rfl⟩ := hs
        refine ⟨⟨by simpa [ptrs, Pc.ptr] using h.perm, h.nodup, h.acc, h.reg, ?_, by simp [hal]⟩, by simp, by simp⟩
        intro c hc
        simp only [List.mem_append, List.mem_singleton] at hc
        rcases hc with hc | rfl
        · exact h.calls c hc
        · trivial
      | some a =>
        by_cases hf : m.isFree p = true
        · simp only [World.toPtr, hf, if_true, Option.some.injEq, Prod.mk.injEq] at hs
          obtain ⟨rfl, rfl⟩ := hs
          have hnew : p ∉ m.boxes.map (·.1) := by
            intro hm
            simp only [List.mem_map] at hm
            obtain ⟨b, hb, rfl⟩ := hm
            simp only [World.isFree, Bool.not_eq_true', List.any_eq_false, beq_iff_eq] at hf
            exact hf b hb rfl
          refine ⟨⟨?_, ?_, ?_, ?_, ?_, by simp [hal]⟩, by simp, by simp⟩
          · simp only [List.map_cons]
            have e1 : ptrs m.ptr (m.calls ++ [.exchange k (some p) (some a)]) = ptrs m.ptr m.calls ++ [p] := by
              simp [ptrs, Pc.ptr]
            rw [e1]
            exact ((h.perm.cons p)).trans (List.perm_append_comm (l₁ := [p]))
          · simp only [List.map_cons, List.nodup_cons]; exact ⟨hnew, h.nodup⟩
          · simp only [List.map_cons]
            exact (h.acc.cons a).trans List.perm_middle.symm
          · exact Has.mono (fun q b _ hm => List.mem_cons_of_mem _ hm) h.reg
          · intro c hc
            simp only [List.mem_append, List.mem_singleton] at hc
            rcases hc with hc | rfl
            · exact CallOk.mono (fun q b _ hm => List.mem_cons_of_mem _ hm) (h.calls c hc)
            · exact List.mem_cons_self
        · simp [World.toPtr, hf] at hs
    · cases hs
  | exchange i =>
    simp only [World.step] at hs
    split at hs
    · rename_i k p v hc
      simp only [Option.some.injEq, Prod.mk.injEq] at hs
      obtain ⟨rfl, rfl⟩ := hs
      obtain ⟨l1, l2, hl, hset, _⟩ := split_idx hc
      have hci : CallOk m.boxes (.exchange k p v) := h.calls _ (by rw [hl]; simp)
      refine ⟨⟨?_, h.nodup, h.acc, hci, ?_, ?_⟩, by simp, by simp⟩
      · refine h.perm.trans ?_
        simp only [hset, ptrs]
        rw [hl]
        simp only [List.flatMap_append, List.flatMap_cons]
        rw [show (Pc.exchange k p v).ptr = p from rfl, show (Pc.unbox k m.ptr m.reg).ptr = m.ptr from rfl]
        generalize m.ptr.toList = a
        generalize p.toList = b
        generalize l1.flatMap (·.ptr.toList) = c
        generalize l2.flatMap (·.ptr.toList) = d
        exact ((List.perm_append_left_iff a).2 (List.perm_append_comm_assoc c b d)).trans
          ((List.perm_append_comm_assoc a b _).trans
            ((List.perm_append_left_iff b).2 (List.perm_append_comm_assoc a c d)))
      · intro c hc'
        simp only [hset, List.mem_append, List.mem_cons] at hc'
        rcases hc' with hc' | rfl | hc'
        · exact h.calls c (by rw [hl]; simp [hc'])
        · exact h.reg
        · exact h.calls c (by rw [hl]; simp [hc'])
      · intro hd
        have := (h.dead hd).2
        rw [this] at hl
        simp at hl
    · cases hs
  | finish i =>
    simp only [World.step] at hs
    split at hs
    · rename_i k p x hc
      obtain ⟨l1, l2, hl, _, hera⟩ := split_idx hc
      have hci : CallOk m.boxes (.unbox k p x) := h.calls _ (by rw [hl]; simp)
      have hperm : (m.boxes.map (·.1)).Perm (p.toList ++ ptrs m.ptr (l1 ++ l2)) := by
        refine h.perm.trans ?_
        simp only [ptrs]
        rw [hl]
        simp only [List.flatMap_append, List.flatMap_cons]
        rw [show (Pc.unbox k p x).ptr = p from rfl]
        generalize m.ptr.toList = a
        generalize p.toList = b
        generalize l1.flatMap (·.ptr.toList) = c
        generalize l2.flatMap (·.ptr.toList) = d
        exact ((List.perm_append_left_iff a).2 (List.perm_append_comm_assoc c b d)).trans
          (List.perm_append_comm_assoc a b _)
      obtain ⟨bs, hfr, g1, g2, g3, g4⟩ := fromPtr_spec hperm h.nodup hci
      have hreg : Has bs m.ptr m.reg := by
        refine Has.mono (fun q a hq hm => g4 q a ?_ hm) h.reg
        simp [ptrs, hq]
      have hcs : ∀ c ∈ l1 ++ l2, CallOk bs c := by
        intro c hc'
        refine CallOk.mono (fun q a hq hm => g4 q a (mem_ptrs_call hc' hq) hm) (h.calls c ?_)
        rw [hl]; simp only [List.mem_append, List.mem_cons] at hc' ⊢
        exact hc'.imp id .inr
      have hdead : m.alive = false → m.ptr = none ∧ l1 ++ l2 = [] := by
        intro hd
        have := (h.dead hd).2
        rw [this] at hl
        simp at hl
      simp only [hfr] at hs
      cases k with
      | swap =>
        simp only [Option.some.injEq, Prod.mk.injEq] at hs
        obtain ⟨rfl, rfl⟩ := hs
        refine ⟨⟨by rw [hera]; exact g1, g2, ?_, hreg, by rw [hera]; exact hcs, by rw [hera]; exact hdead⟩,
          by simp, ?_⟩
        · refine h.acc.trans ?_
          refine ((List.perm_append_left_iff (m.returned ++ m.dropped)).2 g3).trans ?_
          simp only [List.append_assoc]
          generalize x.toList = a
          generalize bs.map (·.2) = b
          exact ((List.perm_append_left_iff _).2 (List.perm_append_comm_assoc m.dropped a b)).trans
            (List.perm_append_comm_assoc _ _ _)
        · intro j k' p' x' hj hcj
          cases hj
          rw [hc] at hcj
          cases hcj
          rfl
      | store =>
        simp only [Option.some.injEq, Prod.mk.injEq] at hs
        obtain ⟨rfl, rfl⟩ := hs
        refine ⟨⟨by rw [hera]; exact g1, g2, ?_, hreg, by rw [hera]; exact hcs, by rw [hera]; exact hdead⟩,
          by simp, ?_⟩
        · refine h.acc.trans ?_
          refine ((List.perm_append_left_iff (m.returned ++ m.dropped)).2 g3).trans ?_
          simp only [List.append_assoc]
          refine (List.perm_append_left_iff _).2 ?_
          rw [← List.append_assoc, ← List.append_assoc]
          exact (List.perm_append_right_iff _).2 List.perm_append_comm
        · intro j k' p' x' hj hcj
          cases hj
          rw [hc] at hcj
          cases hcj
          rfl
    · cases hs
  | drop =>
    simp only [World.step] at hs
    split at hs
    · rename_i hcond
      simp only [Bool.and_eq_true, List.isEmpty_iff] at hcond
      have hperm : (m.boxes.map (·.1)).Perm (m.ptr.toList ++ []) := by
        have := h.perm
        simpa [ptrs, hcond.2] using this
      obtain ⟨bs, hfr, g1, g2, g3, g4⟩ := fromPtr_spec hperm h.nodup h.reg
      simp only [hfr, Option.some.injEq, Prod.mk.injEq] at hs
      obtain ⟨rfl, rfl⟩ := hs
      refine ⟨⟨by simpa [ptrs, hcond.2] using g1, g2, ?_, trivial, by simp [hcond.2], by simp [hcond.2]⟩, by simp, by simp⟩
      refine h.acc.trans ?_
      refine ((List.perm_append_left_iff (m.returned ++ m.dropped)).2 g3).trans ?_
      simp only [List.append_assoc]
      refine (List.perm_append_left_iff _).2 ?_
      rw [← List.append_assoc, ← List.append_assoc]
      exact (List.perm_append_right_iff _).2 List.perm_append_comm
    · cases hs

theorem inv_runs {v : Option α} {es : List (Ev α)} {os : List (Obs α)} {m : World α}
    (h : (World.new v).runs es = some (os, m)) : Inv m ∧ .ub ∉ os :=
  runE_inv (Inv := fun _ os m => Inv m ∧ .ub ∉ os) ⟨inv_new v, by simp⟩
    (fun _ _ _ _ _ _ h hs => by
      have := inv_step h.1 hs
      refine ⟨this.1, ?_⟩
      simp only [List.mem_append, List.mem_singleton, not_or]
      exact ⟨h.2, fun k => this.2.1 k.symm⟩) h

end Verif.AtomicOption
