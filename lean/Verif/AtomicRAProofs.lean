import Verif.AtomicRA
import Verif.AtomicProofs

/-!
# Proofs about `AtomicOption` with the memory orderings it asks for
-/

namespace Verif.AtomicRA

open AtomicOption (Addr Kind Pc ptrs)

variable {α : Type}

theorem mem_ptrs {p : Option Addr} {cs : List (Pc α)} {a : Addr} :
    a ∈ ptrs p cs ↔ p = some a ∨ ∃ i : Nat, ∃ c : Pc α, cs[i]? = some c ∧ c.ptr = some a := by
  simp only [ptrs, List.mem_append, Option.mem_toList, List.mem_flatMap]
  constructor
  · rintro (h | ⟨c, hm, hc⟩)
    · exact .inl h
    · obtain ⟨i, hi⟩ := List.mem_iff_getElem?.1 hm
      exact .inr ⟨i, c, hi, hc⟩
  · rintro (h | ⟨i, c, hi, hc⟩)
    · exact .inl h
    · exact .inr ⟨c, List.mem_iff_getElem?.2 ⟨i, hi⟩, hc⟩

theorem flat_uniq {cs : List (Pc α)} (h : (cs.flatMap (·.ptr.toList)).Nodup) {i j : Nat} {c d : Pc α}
    {a : Addr} (hi : cs[i]? = some c) (hj : cs[j]? = some d) (hc : c.ptr = some a) (hd : d.ptr = some a) :
    i = j := by
  induction cs generalizing i j with
  | nil => simp at hi
  | cons x cs ih =>
    rw [List.flatMap_cons, List.nodup_append] at h
    have key : ∀ (j : Nat) (d : Pc α), cs[j]? = some d → d.ptr = some a → x.ptr = some a → False := by
      intro j d hj hd hx
      exact h.2.2 a (by simp [hx]) a (List.mem_flatMap.2 ⟨d, List.mem_iff_getElem?.2 ⟨j, hj⟩, by simp [hd]⟩) rfl
    cases i with
    | zero =>
      cases j with
      | zero => rfl
      | succ j => simp at hi hj; subst hi; exact (key j d hj hd hc).elim
    | succ i =>
      cases j with
      | zero => simp at hi hj; subst hj; exact (key i c hi hc hd).elim
      | succ j => simp at hi hj; rw [ih h.2.1 hi hj]

theorem ptr_uniq {p : Option Addr} {cs : List (Pc α)} (h : (ptrs p cs).Nodup) {i : Nat} {c : Pc α}
    {a : Addr} (hi : cs[i]? = some c) (hc : c.ptr = some a) (hp : p = some a) : False := by
  rw [ptrs, List.nodup_append] at h
  exact h.2.2 a (by simp [hp]) a (List.mem_flatMap.2 ⟨c, List.mem_iff_getElem?.2 ⟨i, hi⟩, by simp [hc]⟩) rfl

/-- Who has the view `w` knows of all accesses to `a`, and of all that happened before them. -/
def Covers (log : List (Addr × View)) (w : View) (a : Addr) : Prop :=
  ∀ (n : Nat) (x : View), log[n]? = some (a, x) → n ∈ w ∧ ∀ k ∈ x, k ∈ w

theorem Covers.mono {log : List (Addr × View)} {w w' : View} {a : Addr} (h : Covers log w a)
    (hw : ∀ k ∈ w, k ∈ w') : Covers log w' a :=
  fun n x hn => ⟨hw _ (h n x hn).1, fun k hk => hw _ ((h n x hn).2 k hk)⟩

theorem Covers.other {log : List (Addr × View)} {w x : View} {a b : Addr} (h : Covers log w a)
    (hb : b ≠ a) : Covers (log ++ [(b, x)]) w a := by
  intro n y hn
  rw [List.getElem?_append] at hn
  split at hn
  · exact h n y hn
  · rw [List.getElem?_singleton] at hn
    split at hn
    · simp only [Option.some.injEq, Prod.mk.injEq] at hn; exact absurd hn.1 hb
    · cases hn

theorem Covers.self {log : List (Addr × View)} {w : View} {a : Addr} (h : Covers log w a) :
    Covers (log ++ [(a, w)]) (log.length :: w) a := by
  intro n y hn
  rw [List.getElem?_append] at hn
  split at hn
  · obtain ⟨h1, h2⟩ := h n y hn
    exact ⟨List.mem_cons_of_mem _ h1, fun k hk => List.mem_cons_of_mem _ (h2 k hk)⟩
  · rw [List.getElem?_singleton] at hn
    split at hn
    · simp only [Option.some.injEq, Prod.mk.injEq] at hn
      obtain ⟨-, rfl⟩ := hn
      exact ⟨by have : n = log.length := by omega
                simp [this], fun k hk => List.mem_cons_of_mem _ hk⟩
    · cases hn

/-- No two accesses to an address race, and views only grow along them. -/
def Ordered (log : List (Addr × View)) : Prop :=
  ∀ (j k : Nat) (a : Addr) (x y : View), j < k → log[j]? = some (a, x) → log[k]? = some (a, y) →
    j ∈ y ∧ ∀ n ∈ x, n ∈ y

theorem Ordered.snoc {log : List (Addr × View)} {w : View} {a : Addr} (h : Ordered log)
    (hc : Covers log w a) : Ordered (log ++ [(a, w)]) := by
  intro j k b x y hjk hj hk
  rw [List.getElem?_append] at hk
  split at hk
  · rw [List.getElem?_append_left (by omega)] at hj
    exact h j k b x y hjk hj hk
  · rw [List.getElem?_singleton] at hk
    split at hk
    · simp only [Option.some.injEq, Prod.mk.injEq] at hk
      obtain ⟨rfl, rfl⟩ := hk
      rw [List.getElem?_append_left (by omega)] at hj
      exact hc j x hj
    · cases hk

/-- All of `w` has happened. -/
def Below (log : List (Addr × View)) (w : View) : Prop := ∀ k ∈ w, k < log.length

theorem Below.snoc {log : List (Addr × View)} {w : View} {q : Addr × View} (h : Below log w) :
    Below (log ++ [q]) w := fun k hk => by have := h k hk; simp; omega

theorem Below.self {log : List (Addr × View)} {w : View} {q : Addr × View} (h : Below log w) :
    Below (log ++ [q]) (log.length :: w) := by
  intro k hk
  rw [List.mem_cons] at hk
  rcases hk with rfl | hk
  · simp
  · have := h k hk; simp; omega

structure Inv (m : World α) : Prop where
  base : AtomicOption.Inv m.base
  len : m.views.length = m.base.calls.length
  own : ∀ (i : Nat) (c : Pc α) (a : Addr) (w : View), m.base.calls[i]? = some c → c.ptr = some a →
    m.views[i]? = some w → Covers m.log w a
  msg : ∀ a, m.base.ptr = some a → Covers m.log m.msg a
  freed : ∀ a, a ∉ ptrs m.base.ptr m.base.calls → Covers m.log (m.freed a) a
  ordered : Ordered m.log
  birth : Below m.log m.birth
  bviews : ∀ (i : Nat) (w : View), m.views[i]? = some w → Below m.log w
  bmsg : Below m.log m.msg
  bfreed : ∀ a, Below m.log (m.freed a)
  blog : ∀ q ∈ m.log, Below m.log q.2

theorem inv_new (v : Option α) : Inv (World.new v) := by
  cases v with
  | none =>
    refine ⟨AtomicOption.inv_new none, rfl, ?_, ?_, ?_, ?_, ?_, ?_, ?_, ?_, ?_⟩ <;>
      simp [World.new, AtomicOption.World.new, AtomicOption.World.blank, Covers, Ordered, Below]
  | some v =>
    refine ⟨AtomicOption.inv_new (some v), rfl, ?_, ?_, ?_, ?_, ?_, ?_, ?_, ?_, ?_⟩
    · simp [World.new, AtomicOption.World.new, AtomicOption.World.blank]
    · intro a ha n x hn
      rw [show (World.new (some v)).log = [(0, [])] from rfl, List.getElem?_singleton] at hn
      split at hn
      · simp only [Option.some.injEq, Prod.mk.injEq] at hn
        obtain ⟨-, rfl⟩ := hn
        exact ⟨by simp [World.new]; omega, by simp⟩
      · cases hn
    · intro a ha n x hn
      rw [show (World.new (some v)).log = [(0, [])] from rfl, List.getElem?_singleton] at hn
      split at hn
      · simp only [Option.some.injEq, Prod.mk.injEq] at hn
        exact absurd (mem_ptrs.2 (.inl (by simp [World.new, AtomicOption.World.new, ← hn.1]))) ha
      · cases hn
    · exact Ordered.snoc (log := []) (fun j k a x y _ hj => by simp at hj) (fun n x hn => by simp at hn)
    all_goals simp [World.new, Below]

/-- What a step of `Verif/Atomic.lean` does to the pointers. -/
theorem step_call {b b' : AtomicOption.World α} {k : Kind} {v : Option α} {p : Addr}
    {o : AtomicOption.Obs α} (h : b.step (.call k v p) = some (o, b')) :
    (v = none ∧ b'.ptr = b.ptr ∧ b'.calls = b.calls ++ [.exchange k none v]) ∨
    (∃ a, v = some a) ∧ p ∉ b.boxes.map (·.1) ∧ b'.ptr = b.ptr ∧
      b'.calls = b.calls ++ [.exchange k (some p) v] := by
  simp only [AtomicOption.World.step] at h
  split at h
  · cases v with
    | none =>
      simp only [AtomicOption.World.toPtr, Option.some.injEq, Prod.mk.injEq] at h
      obtain ⟨-, rfl⟩ := h
      exact .inl ⟨rfl, rfl, rfl⟩
    | some a =>
      by_cases hf : b.isFree p = true
      · simp only [AtomicOption.World.toPtr, hf, if_true, Option.some.injEq, Prod.mk.injEq] at h
        obtain ⟨-, rfl⟩ := h
        refine .inr ⟨⟨a, rfl⟩, ?_, rfl, rfl⟩
        simp only [AtomicOption.World.isFree, Bool.not_eq_true', List.any_eq_false, beq_iff_eq] at hf
        intro hm
        obtain ⟨q, hq, rfl⟩ := List.mem_map.1 hm
        exact hf q hq rfl
      · simp [AtomicOption.World.toPtr, hf] at h
  · cases h

theorem step_exchange {b b' : AtomicOption.World α} {i : Nat} {o : AtomicOption.Obs α}
    (h : b.step (.exchange i) = some (o, b')) :
    ∃ c d : Pc α, b.calls[i]? = some c ∧ b'.ptr = c.ptr ∧ d.ptr = b.ptr ∧
      b'.calls = b.calls.set i d := by
  simp only [AtomicOption.World.step] at h
  split at h
  · rename_i k p v hc
    cases h
    exact ⟨.exchange k p v, .unbox k b.ptr b.reg, hc, rfl, rfl, rfl⟩
  · cases h

theorem fromPtr_rest {b b' : AtomicOption.World α} {p : Option Addr} {r : Option α}
    (h : b.fromPtr p = some (r, b')) : b'.ptr = b.ptr ∧ b'.calls = b.calls := by
  simp only [AtomicOption.World.fromPtr] at h
  split at h
  · cases h; exact ⟨rfl, rfl⟩
  · split at h
    · cases h
    · cases h; exact ⟨rfl, rfl⟩

theorem step_finish {b b' : AtomicOption.World α} {i : Nat} {o : AtomicOption.Obs α}
    (h : b.step (.finish i) = some (o, b')) (ho : o ≠ .ub) :
    ∃ c : Pc α, b.calls[i]? = some c ∧ b'.ptr = b.ptr ∧ b'.calls = b.calls.eraseIdx i := by
  simp only [AtomicOption.World.step] at h
  split at h
  · rename_i k p x hc
    refine ⟨_, hc, ?_⟩
    split at h
    · cases h; exact absurd rfl ho
    · rename_i r m1 hf
      obtain ⟨h1, h2⟩ := fromPtr_rest hf
      cases k <;> cases h <;> exact ⟨h1, rfl⟩
  · cases h

theorem step_drop {b b' : AtomicOption.World α} {o : AtomicOption.Obs α}
    (h : b.step .drop = some (o, b')) (ho : o ≠ .ub) :
    b.calls = [] ∧ b'.ptr = none ∧ b'.calls = [] := by
  simp only [AtomicOption.World.step] at h
  split at h
  · rename_i hc
    simp only [Bool.and_eq_true, List.isEmpty_iff] at hc
    split at h
    · cases h; exact absurd rfl ho
    · rename_i r m1 hf
      obtain ⟨h1, h2⟩ := fromPtr_rest hf
      cases h
      exact ⟨hc.2, rfl, h2.trans hc.2⟩
  · cases h

theorem Inv.nodup {m : World α} (h : Inv m) : (ptrs m.base.ptr m.base.calls).Nodup :=
  h.base.perm.nodup_iff.1 h.base.nodup

/-- `World.free` by the owner of the box. -/
theorem free_log {m : World α} {p : Option Addr} {w : View} (h : Inv m) (hb : Below m.log w)
    (hc : ∀ a, p = some a → Covers m.log w a) :
    Ordered (m.free p w).log ∧ (∀ x, Below m.log x → Below (m.free p w).log x) ∧
    (∀ a, Below (m.free p w).log ((m.free p w).freed a)) ∧
    (∀ q ∈ (m.free p w).log, Below (m.free p w).log q.2) ∧
    (∀ a x, p ≠ some a → Covers m.log x a → Covers (m.free p w).log x a) ∧
    (∀ a, (p ≠ some a → Covers m.log (m.freed a) a) → Covers (m.free p w).log ((m.free p w).freed a) a) := by
  cases p with
  | none =>
    exact ⟨h.ordered, fun _ hx => hx, h.bfreed, h.blog, fun _ _ _ hx => hx, fun _ hx => hx (by simp)⟩
  | some a =>
    refine ⟨h.ordered.snoc (hc a rfl), fun x hx => hx.snoc, ?_, ?_, ?_, ?_⟩
    · intro b
      simp only [World.free]
      split
      · exact hb.self
      · exact (h.bfreed b).snoc
    · intro q hq
      simp only [World.free, List.mem_append, List.mem_singleton] at hq
      rcases hq with hq | rfl
      · exact (h.blog q hq).snoc
      · exact hb.snoc
    · intro b x hne hx
      exact hx.other (by simpa using hne)
    · intro b hx
      simp only [World.free]
      split
      · rename_i hba; subst hba; exact (hc _ rfl).self
      · rename_i hba; exact (hx (by simpa using fun h => hba h.symm)).other (fun h => hba h.symm)

theorem inv_step {m m' : World α} {e : Ev α} {o : AtomicOption.Obs α} (h : Inv m)
    (hs : m.step acqRel e = some (o, m')) : Inv m' ∧ o ≠ .ub := by
  simp only [World.step] at hs
  cases hb : m.base.step e.base with
  | none => simp [hb] at hs
  | some q =>
    obtain ⟨o', b⟩ := q
    simp only [hb, Option.some.injEq, Prod.mk.injEq] at hs
    obtain ⟨rfl, rfl⟩ := hs
    obtain ⟨hB, hu, -⟩ := AtomicOption.inv_step h.base hb
    refine ⟨?_, hu⟩
    have hN := h.nodup
    have bpast : ∀ k, Below m.log (m.past k) := fun k n hn => by
      simp only [World.past, List.mem_filter, decide_eq_true_eq] at hn; exact hn.2
    cases e with
    | call k v p known =>
      rcases step_call hb with ⟨rfl, hp, hc⟩ | ⟨⟨a, rfl⟩, hf, hp, hc⟩
      · refine ⟨hB, ?_, ?_, ?_, ?_, h.ordered, h.birth, ?_, h.bmsg, h.bfreed, h.blog⟩
        · simp [World.track, hc, h.len]
        · intro i c a w hi hca hw
          simp only [hc, World.track, List.getElem?_append] at hi hw
          split at hi
          · rename_i hlt
            rw [if_pos (by rw [h.len]; exact hlt)] at hw
            exact h.own i c a w hi hca hw
          · rw [List.getElem?_singleton] at hi
            split at hi
            · cases hi; simp [Pc.ptr] at hca
            · cases hi
        · intro a ha
          exact h.msg a (by rw [← hp]; exact ha)
        · intro a ha
          refine h.freed a fun hm => ha ?_
          simp only [mem_ptrs] at hm ⊢
          rcases hm with hm | ⟨i, c, hi, hca⟩
          · exact .inl (by rw [hp]; exact hm)
          · refine .inr ⟨i, c, ?_, hca⟩
            rw [hc, List.getElem?_append_left (List.getElem?_eq_some_iff.1 hi).1]; exact hi
        · intro i w hw
          simp only [World.track, List.getElem?_append] at hw
          split at hw
          · exact h.bviews i w hw
          · rw [List.getElem?_singleton] at hw
            split at hw
            · simp only [Option.some.injEq] at hw
              subst hw
              intro n hn
              rw [List.mem_append] at hn
              exact hn.elim (h.birth n) (bpast _ n)
            · cases hw
      · have hfp : p ∉ ptrs m.base.ptr m.base.calls := fun hm => hf (h.base.perm.mem_iff.2 hm)
        have bw : Below m.log (m.birth ++ m.past known ++ m.freed p) := by
          intro n hn
          simp only [List.mem_append] at hn
          rcases hn with (hn | hn) | hn
          · exact h.birth n hn
          · exact bpast _ n hn
          · exact h.bfreed p n hn
        have cw : Covers m.log (m.birth ++ m.past known ++ m.freed p) p :=
          (h.freed p hfp).mono fun n hn => List.mem_append_right _ hn
        refine ⟨hB, ?_, ?_, ?_, ?_, h.ordered.snoc cw, h.birth.snoc, ?_, h.bmsg.snoc,
          fun a => (h.bfreed a).snoc, ?_⟩
        · simp [World.track, hc, h.len]
        · intro i c a' w hi hca hw
          simp only [hc, World.track, List.getElem?_append] at hi hw
          split at hi
          · rename_i hlt
            rw [if_pos (by rw [h.len]; exact hlt)] at hw
            refine (h.own i c a' w hi hca hw).other ?_
            rintro rfl
            exact hfp (mem_ptrs.2 (.inr ⟨i, c, hi, hca⟩))
          · rename_i hlt
            rw [if_neg (by rw [h.len]; exact hlt)] at hw
            rw [List.getElem?_singleton] at hi hw
            rw [h.len] at hw
            split at hi
            · rename_i h0
              rw [if_pos h0] at hw
              simp only [Option.some.injEq] at hi hw
              subst hi hw
              simp only [Pc.ptr, Option.some.injEq] at hca
              subst hca
              exact cw.self
            · cases hi
        · intro a' ha
          have ha' : m.base.ptr = some a' := by rw [← hp]; exact ha
          refine (h.msg a' ha').other ?_
          rintro rfl
          exact hfp (mem_ptrs.2 (.inl ha'))
        · intro a' ha
          have hne : p ≠ a' := by
            rintro rfl
            refine ha (mem_ptrs.2 (.inr ⟨m.base.calls.length, .exchange k (some p) (some a), ?_, rfl⟩))
            simp [hc]
          refine (h.freed a' fun hm => ha ?_).other hne
          simp only [mem_ptrs] at hm ⊢
          rcases hm with hm | ⟨i, c, hi, hca⟩
          · exact .inl (by rw [hp]; exact hm)
          · refine .inr ⟨i, c, ?_, hca⟩
            rw [hc, List.getElem?_append_left (List.getElem?_eq_some_iff.1 hi).1]; exact hi
        · intro i w hw
          simp only [World.track, List.getElem?_append] at hw
          split at hw
          · exact (h.bviews i w hw).snoc
          · rw [List.getElem?_singleton] at hw
            split at hw
            · simp only [Option.some.injEq] at hw
              subst hw
              exact bw.self
            · cases hw
        · intro q hq
          simp only [World.track, List.mem_append, List.mem_singleton] at hq
          rcases hq with hq | rfl
          · exact (h.blog q hq).snoc
          · exact bw.snoc
    | exchange i =>
      obtain ⟨c, d, hi, hp, hd, hc⟩ := step_exchange hb
      have hlt : i < m.views.length := by rw [h.len]; exact (List.getElem?_eq_some_iff.1 hi).1
      obtain ⟨w, hw⟩ : ∃ w, m.views[i]? = some w := ⟨_, List.getElem?_eq_getElem hlt⟩
      have bw := h.bviews i w hw
      have bwm : Below m.log (w ++ m.msg) := fun n hn => by
        rw [List.mem_append] at hn; exact hn.elim (bw n) (h.bmsg n)
      refine ⟨hB, ?_, ?_, ?_, ?_, h.ordered, h.birth, ?_, ?_, h.bfreed, h.blog⟩
      · simp [World.track, hc, h.len]
      · intro j c' a w' hj hca hw'
        simp only [hc, World.track, hw, Option.getD_some, acqRel, if_true] at hj hw'
        by_cases hij : i = j
        · subst hij
          rw [List.getElem?_set_self (by rw [← h.len]; exact hlt)] at hj
          rw [List.getElem?_set_self hlt] at hw'
          cases hj; cases hw'
          exact (h.msg a (by rw [← hd]; exact hca)).mono fun n hn => List.mem_append_right _ hn
        · rw [List.getElem?_set_ne hij] at hj hw'
          exact h.own j c' a w' hj hca hw'
      · intro a ha
        simp only [World.track, hw, Option.getD_some, acqRel, if_true]
        exact (h.own i c a w hi (by rw [← hp]; exact ha) hw).mono fun n hn => List.mem_append_left _ hn
      · intro a ha
        refine h.freed a fun hm => ha ?_
        simp only [mem_ptrs] at hm ⊢
        have hlt' : i < m.base.calls.length := by rw [← h.len]; exact hlt
        rcases hm with hm | ⟨j, c', hj, hca⟩
        · refine .inr ⟨i, d, ?_, hd.trans hm⟩
          rw [hc, List.getElem?_set_self hlt']
        · by_cases hij : i = j
          · subst hij
            rw [hi] at hj; cases hj
            exact .inl (hp.trans hca)
          · refine .inr ⟨j, c', ?_, hca⟩
            rw [hc, List.getElem?_set_ne hij]; exact hj
      · intro j w' hw'
        simp only [World.track, hw, Option.getD_some, acqRel, if_true] at hw'
        by_cases hij : i = j
        · subst hij
          rw [List.getElem?_set_self hlt] at hw'
          cases hw'; exact bwm
        · rw [List.getElem?_set_ne hij] at hw'
          exact h.bviews j w' hw'
      · simp only [World.track, hw, Option.getD_some, acqRel, if_true]
        exact bwm
    | finish i =>
      obtain ⟨c, hi, hp, hc⟩ := step_finish hb hu
      have hlt : i < m.views.length := by rw [h.len]; exact (List.getElem?_eq_some_iff.1 hi).1
      obtain ⟨w, hw⟩ : ∃ w, m.views[i]? = some w := ⟨_, List.getElem?_eq_getElem hlt⟩
      obtain ⟨f1, f2, f3, f4, f5, f6⟩ := free_log (p := c.ptr) h (h.bviews i w hw)
        (fun a ha => h.own i c a w hi ha hw)
      have hfree : ∀ q v, (m.free q v).msg = m.msg ∧ (m.free q v).birth = m.birth := by
        intro q v; cases q <;> exact ⟨rfl, rfl⟩
      have hlog : (m.track acqRel (.finish i)).log = (m.free c.ptr w).log := by
        simp [World.track, hi, hw]
      have hfr : (m.track acqRel (.finish i)).freed = (m.free c.ptr w).freed := by
        simp [World.track, hi, hw]
      refine ⟨hB, ?_, ?_, ?_, ?_, ?_, ?_, ?_, ?_, ?_, ?_⟩
      · simp only [World.track, hc, List.length_eraseIdx, h.len]
      · intro j c' a w' hj hca hw'
        simp only [hc, World.track, List.getElem?_eraseIdx] at hj hw'
        show Covers (m.track acqRel (.finish i)).log w' a
        rw [hlog]
        split at hj
        · rename_i hji
          rw [if_pos hji] at hw'
          refine f5 a w' (fun hca' => ?_) (h.own j c' a w' hj hca hw')
          have := flat_uniq (List.nodup_append.1 hN).2.1 hi hj hca' hca
          omega
        · rename_i hji
          rw [if_neg hji] at hw'
          refine f5 a w' (fun hca' => ?_) (h.own (j+1) c' a w' hj hca hw')
          have := flat_uniq (List.nodup_append.1 hN).2.1 hi hj hca' hca
          omega
      · intro a ha
        show Covers (m.track acqRel (.finish i)).log (m.free _ _).msg a
        rw [hlog, (hfree _ _).1]
        have ha' : m.base.ptr = some a := by rw [← hp]; exact ha
        exact f5 a _ (fun hca => ptr_uniq hN hi hca ha') (h.msg a ha')
      · intro a ha
        show Covers (m.track acqRel (.finish i)).log ((m.track acqRel (.finish i)).freed a) a
        rw [hlog, hfr]
        refine f6 a fun hne => h.freed a fun hm => ha ?_
        simp only [mem_ptrs] at hm ⊢
        rcases hm with hm | ⟨j, c', hj, hca⟩
        · exact .inl (hp.trans hm)
        · by_cases hij : i = j
          · subst hij; rw [hi] at hj; cases hj; exact absurd hca hne
          · refine .inr ⟨if j < i then j else j - 1, c', ?_, hca⟩
            rw [hc, List.getElem?_eraseIdx]
            by_cases hji : j < i
            · simp [hji, hj]
            · rw [if_neg hji, if_neg (by omega), show j - 1 + 1 = j by omega]; exact hj
      · show Ordered (m.track acqRel (.finish i)).log
        rw [hlog]; exact f1
      · show Below (m.track acqRel (.finish i)).log (m.free _ _).birth
        rw [hlog, (hfree _ _).2]; exact f2 _ h.birth
      · intro j w' hw'
        show Below (m.track acqRel (.finish i)).log w'
        rw [hlog]
        simp only [World.track, List.getElem?_eraseIdx] at hw'
        split at hw' <;> exact f2 _ (h.bviews _ w' hw')
      · show Below (m.track acqRel (.finish i)).log (m.free _ _).msg
        rw [hlog, (hfree _ _).1]; exact f2 _ h.bmsg
      · intro a
        show Below (m.track acqRel (.finish i)).log ((m.track acqRel (.finish i)).freed a)
        rw [hlog, hfr]; exact f3 a
      · intro q hq
        rw [show (_ : World α).log = (m.free c.ptr w).log from hlog] at hq
        show Below (m.track acqRel (.finish i)).log q.2
        rw [hlog]; exact f4 q hq
    | drop =>
      obtain ⟨hcs, hp, hc⟩ := step_drop hb hu
      have br : Below m.log (List.range m.log.length) := fun n hn => by simpa using hn
      have cr : ∀ a, Covers m.log (List.range m.log.length) a := by
        intro a n x hn
        have hlt := (List.getElem?_eq_some_iff.1 hn).1
        refine ⟨by simpa using hlt, fun k hk => ?_⟩
        have := h.blog (a, x) (List.mem_iff_getElem?.2 ⟨n, hn⟩) k hk
        simpa using this
      obtain ⟨f1, f2, f3, f4, f5, f6⟩ := free_log (p := m.base.ptr) h br (fun a _ => cr a)
      have hfree : ∀ q v, (m.free q v).msg = m.msg ∧ (m.free q v).birth = m.birth ∧
          (m.free q v).views = m.views := by
        intro q v; cases q <;> exact ⟨rfl, rfl, rfl⟩
      have hv : m.views = [] := by
        have := h.len; rw [hcs] at this; simpa using this
      refine ⟨hB, ?_, ?_, ?_, ?_, f1, ?_, ?_, ?_, f3, f4⟩
      · simp [World.track, hc, (hfree _ _).2.2, hv]
      · intro j c' a w' hj
        simp [hc] at hj
      · intro a ha
        rw [show (_ : World α).base.ptr = none from hp] at ha
        cases ha
      · intro a ha
        refine f6 a fun hne => h.freed a fun hm => ?_
        rw [mem_ptrs, hcs] at hm
        simp at hm
        exact hne hm
      · have := f2 _ h.birth
        rw [← (hfree m.base.ptr (List.range m.log.length)).2.1] at this
        exact this
      · intro j w' hw'
        have hv' := (hfree m.base.ptr (List.range m.log.length)).2.2.trans hv
        change (m.free m.base.ptr (List.range m.log.length)).views[j]? = some w' at hw'
        rw [hv'] at hw'
        simp at hw'
      · have := f2 _ h.bmsg
        rw [← (hfree m.base.ptr (List.range m.log.length)).1] at this
        exact this

theorem inv_runs {v : Option α} {es : List (Ev α)} {os : List (AtomicOption.Obs α)} {m : World α}
    (h : (World.new v).runs acqRel es = some (os, m)) : Inv m ∧ .ub ∉ os :=
  runE_inv (Inv := fun _ os m => Inv m ∧ .ub ∉ os) ⟨inv_new v, by simp⟩
    (fun _ _ _ _ _ _ h hs => by
      obtain ⟨h1, h2⟩ := inv_step h.1 hs
      refine ⟨h1, ?_⟩
      simp only [List.mem_append, List.mem_singleton, not_or]
      exact ⟨h.2, fun he => h2 he.symm⟩) h

end Verif.AtomicRA
