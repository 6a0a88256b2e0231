import Verif.AtomicProofs

/-!
# C42: `AtomicOption`
-/

namespace Verif.AtomicOption

variable {α : Type}

/-- The values handed to `swap` and `store`. -/
def handedIn (es : List (Ev α)) : List α :=
  es.flatMap fun e => match e with
    | .call _ v _ => v.toList
    | _ => []

/-- The values that `swap` and `take` gave back. -/
def givenBack (os : List (Obs α)) : List α :=
  os.flatMap fun o => match o with
    | .ret r => r.toList
    | _ => []

/-- **C42.**  In every interleaving of any number of `swap`, `store` and `take` calls, and whatever
addresses the allocator chooses, no box is freed twice or used after it was freed, and every value
handed in was given back once, or dropped once, or is still in its box — exactly one of these. -/
theorem C42_accounted (v : Option α) (es : List (Ev α)) (os : List (Obs α)) (m : World α)
    (h : (World.new v).runs es = some (os, m)) :
    .ub ∉ os ∧
    (v.toList ++ handedIn es).Perm (givenBack os ++ m.dropped ++ m.boxes.map (·.2)) := by
  have hi := inv_runs h
  refine ⟨hi.2, ?_⟩
  have key : m.put.Perm (v.toList ++ handedIn es) ∧ m.returned.Perm (givenBack os) := by
    refine runE_inv (step := World.step) (Inv := fun es os (m : World α) => m.put.Perm (v.toList ++ handedIn es) ∧
      m.returned.Perm (givenBack os)) ?_ ?_ h
    · cases v <;> simp [World.new, World.blank, handedIn, givenBack]
    · rintro es os s e o s' ⟨h1, h2⟩ hs
      simp only [handedIn, givenBack, List.flatMap_append, List.flatMap_cons, List.flatMap_nil,
        List.append_nil] at h1 h2 ⊢
      cases e with
      | call k u p =>
        simp only [World.step] at hs
        split at hs
        · cases u with
          | none =>
            simp only [World.toPtr, Option.some.injEq, Prod.mk.injEq] at hs
            obtain ⟨rfl, rfl⟩ := hs
            exact ⟨by simpa using h1, by simpa using h2⟩
          | some a =>
            by_cases hf : s.isFree p = true
            · simp only [World.toPtr, hf, if_true, Option.some.injEq, Prod.mk.injEq] at hs
              obtain ⟨rfl, rfl⟩ := hs
              refine ⟨?_, by simpa using h2⟩
              rw [← List.append_assoc]
              exact (h1.cons a).trans (List.perm_append_comm (l₁ := [a]))
            · simp [World.toPtr, hf] at hs
        · cases hs
      | exchange i =>
        simp only [World.step] at hs
        split at hs
        · cases hs; exact ⟨by simpa using h1, by simpa using h2⟩
        · cases hs
      | finish i =>
        simp only [World.step] at hs
        split at hs
        · rename_i k p x hc
          cases hfr : s.fromPtr p with
          | none =>
            simp only [hfr] at hs
            cases hs
            exact ⟨by simpa using h1, by simpa using h2⟩
          | some q =>
            obtain ⟨r, s1⟩ := q
            have hput : s1.put = s.put := by
              simp only [World.fromPtr] at hfr
              split at hfr
              · cases hfr; rfl
              · split at hfr
                · cases hfr
                · cases hfr; rfl
            have hret : s1.returned = s.returned := by
              simp only [World.fromPtr] at hfr
              split at hfr
              · cases hfr; rfl
              · split at hfr
                · cases hfr
                · cases hfr; rfl
            simp only [hfr] at hs
            cases k with
            | swap =>
              simp only [Option.some.injEq, Prod.mk.injEq] at hs
              obtain ⟨rfl, rfl⟩ := hs
              refine ⟨by simpa [hput] using h1, ?_⟩
              exact ((List.perm_append_left_iff _).2 h2).trans List.perm_append_comm
            | store =>
              simp only [Option.some.injEq, Prod.mk.injEq] at hs
              obtain ⟨rfl, rfl⟩ := hs
              exact ⟨by simpa [hput] using h1, by simpa [hret] using h2⟩
        · cases hs
      | drop =>
        simp only [World.step] at hs
        split at hs
        · cases hfr : s.fromPtr s.ptr with
          | none =>
            simp only [hfr] at hs
            cases hs
            exact ⟨by simpa using h1, by simpa using h2⟩
          | some q =>
            obtain ⟨r, s1⟩ := q
            simp only [hfr, Option.some.injEq, Prod.mk.injEq] at hs
            obtain ⟨rfl, rfl⟩ := hs
            have hput : s1.put = s.put ∧ s1.returned = s.returned := by
              simp only [World.fromPtr] at hfr
              split at hfr
              · cases hfr; exact ⟨rfl, rfl⟩
              · split at hfr
                · cases hfr
                · cases hfr; exact ⟨rfl, rfl⟩
            exact ⟨by simpa [hput.1] using h1, by simpa [hput.2] using h2⟩
        · cases hs
  refine key.1.symm.trans (hi.1.acc.trans ?_)
  exact (List.perm_append_right_iff _).2 ((List.perm_append_right_iff _).2 key.2)

/-- The `AtomicOption` exists until it is dropped. -/
theorem alive_iff {v : Option α} {es : List (Ev α)} {os : List (Obs α)} {m : World α}
    (h : (World.new v).runs es = some (os, m)) : m.alive = false ↔ .drop ∈ es := by
  have key := runE_inv (step := World.step) (Inv := fun (es : List (Ev α)) (os : List (Obs α)) (m : World α) =>
    .ub ∉ os → (m.alive = false ↔ .drop ∈ es)) (m := World.new v)
    (by cases v <;> simp [World.new, World.blank]) ?_ h
  · exact key (inv_runs h).2
  intro es os m e o m' hinv hs hu
  have hinv := hinv fun hm => hu (List.mem_append_left _ hm)
  have ho : o ≠ .ub := fun hm => hu (by simp [hm])
  have keep : e ≠ .drop → m'.alive = m.alive → (m'.alive = false ↔ .drop ∈ es ++ [e]) := by
    intro he hm
    rw [hm, hinv]
    simp only [List.mem_append, List.mem_singleton, he.symm, or_false]
  cases e with
  | call k w p =>
    refine keep (by simp) ?_
    simp only [World.step] at hs
    split at hs
    · split at hs
      · simp at hs
      · rename_i q m1 ht
        simp only [Option.some.injEq, Prod.mk.injEq] at hs
        obtain ⟨-, rfl⟩ := hs
        simp only [World.toPtr] at ht
        split at ht
        · simp only [Option.some.injEq, Prod.mk.injEq] at ht; obtain ⟨-, rfl⟩ := ht; rfl
        · split at ht
          · simp only [Option.some.injEq, Prod.mk.injEq] at ht; obtain ⟨-, rfl⟩ := ht; rfl
          · simp at ht
    · simp at hs
  | exchange i =>
    refine keep (by simp) ?_
    simp only [World.step] at hs
    split at hs
    · simp only [Option.some.injEq, Prod.mk.injEq] at hs; obtain ⟨-, rfl⟩ := hs; rfl
    · simp at hs
  | finish i =>
    refine keep (by simp) ?_
    simp only [World.step] at hs
    split at hs
    · split at hs
      · simp only [Option.some.injEq, Prod.mk.injEq] at hs; obtain ⟨-, rfl⟩ := hs; rfl
      · rename_i r m1 hf
        have hm : m1.alive = m.alive := by
          simp only [World.fromPtr] at hf
          split at hf
          · simp only [Option.some.injEq, Prod.mk.injEq] at hf; obtain ⟨-, rfl⟩ := hf; rfl
          · split at hf
            · simp at hf
            · simp only [Option.some.injEq, Prod.mk.injEq] at hf; obtain ⟨-, rfl⟩ := hf; rfl
        split at hs <;> simp only [Option.some.injEq, Prod.mk.injEq] at hs <;> obtain ⟨-, rfl⟩ := hs <;>
          exact hm
    · simp at hs
  | drop =>
    simp only [World.step] at hs
    split at hs
    · split at hs
      · simp only [Option.some.injEq, Prod.mk.injEq] at hs
        exact absurd hs.1.symm ho
      · simp only [Option.some.injEq, Prod.mk.injEq] at hs
        obtain ⟨-, rfl⟩ := hs
        simp
    · simp at hs

/-- **C42.**  The `AtomicOption` is dropped at most once, and not used afterwards: in every history
nothing but the end of the history follows the drop. -/
theorem C42_drop_last (v : Option α) (es es' : List (Ev α)) (os : List (Obs α)) (m : World α)
    (h : (World.new v).runs (es ++ .drop :: es') = some (os, m)) : es' = [] := by
  cases es' with
  | nil => rfl
  | cons e es' =>
    exfalso
    obtain ⟨os1, os2, m1, h1, h2, rfl⟩ := runE_append (show
      runE World.step (World.new v) ((es ++ [.drop]) ++ e :: es') = _ by simpa [World.runs] using h)
    have hd := (alive_iff h1).2 (by simp)
    have hc := ((inv_runs h1).1.dead hd).2
    simp only [runE] at h2
    cases e <;> simp [World.step, hd, hc] at h2

/-- **C42.**  Nothing is leaked: once the `AtomicOption` was dropped no box is left, so every value
handed in was given back or dropped. -/
theorem C42_no_leak (v : Option α) (es : List (Ev α)) (os : List (Obs α)) (m : World α)
    (h : (World.new v).runs es = some (os, m)) (hd : .drop ∈ es) :
    m.boxes = [] ∧ (v.toList ++ handedIn es).Perm (givenBack os ++ m.dropped) := by
  have hi := (inv_runs h).1
  rw [← alive_iff h] at hd
  have hb : m.boxes = [] := by
    have hp := hi.perm
    rw [(hi.dead hd).1, (hi.dead hd).2] at hp
    simpa [ptrs] using hp
  exact ⟨hb, by simpa [hb] using (C42_accounted v es os m h).2⟩

/-- **C42.**  While no call runs there is a box iff the register holds a value, and it is that one:
intermediate values do not pile up. -/
theorem C42_at_rest (v : Option α) (es : List (Ev α)) (os : List (Obs α)) (m : World α)
    (h : (World.new v).runs es = some (os, m)) (hc : m.calls = []) :
    m.boxes.map (·.2) = m.reg.toList := by
  have hi := (inv_runs h).1
  have hp := hi.perm
  rw [hc] at hp
  simp only [ptrs, List.flatMap_nil, List.append_nil] at hp
  have hr := hi.reg
  cases hptr : m.ptr with
  | none =>
    rw [hptr] at hp hr
    simp only [Option.toList_none, List.perm_nil, List.map_eq_nil_iff] at hp
    cases hreg : m.reg with
    | none => simp [hp]
    | some a => rw [hreg] at hr; exact hr.elim
  | some p =>
    rw [hptr] at hp hr
    cases hreg : m.reg with
    | none => rw [hreg] at hr; exact hr.elim
    | some a =>
      rw [hreg] at hr
      simp only [Option.toList_some, List.perm_singleton] at hp
      cases hb : m.boxes with
      | nil => rw [hb] at hp; cases hp
      | cons b bs =>
        rw [hb] at hp hr
        simp only [List.map_cons, List.cons.injEq, List.map_eq_nil_iff] at hp
        obtain ⟨rfl, rfl⟩ := hp
        simp only [Has, List.mem_singleton] at hr
        rw [List.map_cons, ← hr]; rfl

/-- **C42.**  Each call acts as if it happened at once, when it exchanged the pointers: a `swap` or
`take` returns the value the register held then (`expect`; `World.step` sets the register `reg` to the
new value of the call and `expect` to the old content at that step and nowhere else). -/
theorem C42_atomic (v : Option α) (es : List (Ev α)) (os os' : List (Obs α)) (m m' : World α) (i : Nat)
    (p : Option Addr) (x : Option α) (o : Obs α)
    (h : (World.new v).runs es = some (os, m)) (hc : m.calls[i]? = some (.unbox .swap p x))
    (h' : (World.new v).runs (es ++ [.finish i]) = some (os' ++ [o], m')) : o = .ret x := by
  obtain ⟨os1, o1, m1, h1, h2, heq⟩ := runE_snoc h'
  rw [World.runs, h1, Option.some.injEq, Prod.mk.injEq] at h
  obtain ⟨rfl, rfl⟩ := h
  have := List.append_inj' heq rfl
  simp only [List.cons.injEq, and_true] at this
  rw [this.2]
  exact (inv_step (inv_runs h1).1 h2).2.2 i .swap p x rfl hc

/-- Two overlapping calls, a `store` and a `take`; the address of a freed box is used again; drop. -/
def demoAtomic : List (Ev Nat) :=
  [.call .store (some 5) 1, .call .swap none 9, .exchange 1, .exchange 0, .finish 1, .call .swap (some 6) 0,
   .exchange 1, .finish 0, .finish 0, .drop]

example : ((World.new (some 4)).runs demoAtomic).map (fun p => (p.1, p.2.dropped, p.2.boxes, p.2.alive)) =
    some ([.none, .none, .none, .none, .ret (some 4), .none, .none, .none, .ret (some 5), .none],
      [6], [], false) := rfl

/-- The hypothesis of `C42_atomic` is met in the middle of that run. -/
example : ((World.new (some 4)).runs (demoAtomic.take 4)).map (fun p => p.2.calls[1]?) =
    some (some (.unbox .swap (some 0) (some 4))) := rfl

end Verif.AtomicOption
