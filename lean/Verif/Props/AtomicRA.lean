import Verif.AtomicRAProofs
import Verif.Props.Atomic

/-!
# C84: the orderings of `AtomicOption`
-/

namespace Verif.AtomicRA

open AtomicOption (Addr Kind Pc)

variable {α : Type}

/-- A data race on the heap: two accesses to the same address, of which the earlier one does not happen
before the later one.  (Every access here writes the box or frees it, so any two of them conflict.) -/
def Race (log : List (Addr × View)) : Prop :=
  ∃ (j k : Nat) (a : Addr) (x y : View), j < k ∧ log[j]? = some (a, x) ∧ log[k]? = some (a, y) ∧ j ∉ y

/-- **C84.**  With the orderings that the code asks for no history has a data race on a box: whatever
the threads know of each other by other means, and also if the allocator hands out addresses again. -/
theorem C84_no_race (v : Option α) (es : List (Ev α)) (os : List (AtomicOption.Obs α)) (m : World α)
    (h : (World.new v).runs acqRel es = some (os, m)) : ¬ Race m.log := by
  rintro ⟨j, k, a, x, y, hjk, hj, hk, hn⟩
  exact hn ((inv_runs h).1.ordered j k a x y hjk hj hk).1

theorem log_grows {ord : Order} {m m' : World α} {es : List (Ev α)} {os : List (AtomicOption.Obs α)}
    (h : m.runs ord es = some (os, m')) {n : Nat} {q : Addr × View} (hq : m.log[n]? = some q) :
    m'.log[n]? = some q := by
  refine runE_inv (step := World.step ord) (Inv := fun _ _ (m' : World α) => m'.log[n]? = some q)
    hq ?_ h
  intro es os s e o s' hi hs
  have hlt := (List.getElem?_eq_some_iff.1 hi).1
  simp only [World.step] at hs
  split at hs
  · cases hs
  · simp only [Option.some.injEq, Prod.mk.injEq] at hs
    obtain ⟨-, rfl⟩ := hs
    have hfree : ∀ p w, (s.free p w).log[n]? = some q := by
      intro p w
      cases p with
      | none => exact hi
      | some a => simp only [World.free]; rw [List.getElem?_append_left hlt]; exact hi
    cases e with
    | call k v p known =>
      cases v with
      | none => exact hi
      | some v => simp only [World.track]; rw [List.getElem?_append_left hlt]; exact hi
    | exchange i => exact hi
    | finish i => exact hfree _ _
    | drop => exact hfree _ _

/-- **C84.**  What happened before a value was handed in happens before whatever is done with the value
after it was taken out again: if the thread that hands in a value knows of some earlier accesses, so
does the thread that opens its box (and everyone who uses this box later). -/
theorem C84_published (v : Option α) (es es' : List (Ev α)) (os os' : List (AtomicOption.Obs α))
    (m m' : World α) (k : Kind) (a : α) (p : Addr) (known : View)
    (h : (World.new v).runs acqRel es = some (os, m))
    (h' : (World.new v).runs acqRel (es ++ .call k (some a) p known :: es') = some (os', m'))
    (n : Nat) (y : View) (hn : m.log.length < n) (hy : m'.log[n]? = some (p, y)) :
    m.log.length ∈ y ∧ ∀ e ∈ known, e < m.log.length → e ∈ y := by
  obtain ⟨os1, os2, m1, h1, h2, -⟩ := runE_append (show
    runE (World.step acqRel) (World.new v) ((es ++ [.call k (some a) p known]) ++ es') = some (os', m') by
      simpa [World.runs] using h')
  obtain ⟨os3, o, m2, h3, h4, -⟩ := runE_snoc h1
  rw [World.runs, h3, Option.some.injEq, Prod.mk.injEq] at h
  obtain ⟨rfl, rfl⟩ := h
  simp only [World.step] at h4
  split at h4
  · cases h4
  · simp only [Option.some.injEq, Prod.mk.injEq] at h4
    obtain ⟨-, rfl⟩ := h4
    have hlog := log_grows (n := m2.log.length) (q := (p, m2.birth ++ m2.past known ++ m2.freed p)) h2
      (by simp [World.track])
    obtain ⟨r1, r2⟩ := (inv_runs h').1.ordered _ _ _ _ _ hn hlog hy
    refine ⟨r1, fun e he hlt => r2 e ?_⟩
    simp only [World.past, List.mem_append, List.mem_filter, decide_eq_true_eq]
    exact .inl (.inr ⟨he, hlt⟩)

/-- The steps of `Verif/Atomic.lean`. -/
def plain (es : List (Ev α)) : List (AtomicOption.Ev α) := es.map Ev.base

/-- **C84.**  The orderings decide what happens before what, but not what happens: the histories are those
of `Verif/Atomic.lean`, so what C42 says about values and boxes holds here too. -/
theorem C84_same (ord : Order) (v : Option α) (es : List (Ev α)) (os : List (AtomicOption.Obs α))
    (b : AtomicOption.World α) :
    (AtomicOption.World.new v).runs (plain es) = some (os, b) ↔
      ∃ m, (World.new v).runs ord es = some (os, m) ∧ m.base = b := by
  have key : ∀ (es : List (Ev α)) (m : World α) (os : List (AtomicOption.Obs α)),
      runE AtomicOption.World.step m.base (plain es) = some (os, b) ↔
        ∃ m', runE (World.step ord) m es = some (os, m') ∧ m'.base = b := by
    intro es
    induction es with
    | nil =>
      intro m os
      simp only [plain, List.map_nil, runE, Option.some.injEq, Prod.mk.injEq]
      constructor
      · rintro ⟨rfl, rfl⟩; exact ⟨m, ⟨rfl, rfl⟩, rfl⟩
      · rintro ⟨m', ⟨rfl, rfl⟩, rfl⟩; exact ⟨rfl, rfl⟩
    | cons e es ih =>
      intro m os
      simp only [plain, List.map_cons, runE, World.step]
      cases hs : m.base.step e.base with
      | none => simp
      | some q =>
        obtain ⟨o, b1⟩ := q
        simp only []
        have ih' := fun os => ih { m.track ord e with base := b1 } os
        simp only [plain] at ih'
        cases h1 : runE AtomicOption.World.step b1 (es.map Ev.base) with
        | none =>
          simp only [reduceCtorEq, false_iff]
          rintro ⟨m', hm, rfl⟩
          split at hm
          · cases hm
          · rename_i os1 m2 h2
            simp only [Option.some.injEq, Prod.mk.injEq] at hm
            obtain ⟨-, rfl⟩ := hm
            have := (ih' os1).2 ⟨_, h2, rfl⟩
            rw [h1] at this; cases this
        | some r =>
          obtain ⟨os1, b2⟩ := r
          constructor
          · intro he
            simp only [Option.some.injEq, Prod.mk.injEq] at he
            obtain ⟨rfl, rfl⟩ := he
            obtain ⟨m', h2, h3⟩ := (ih' os1).1 h1
            exact ⟨m', by rw [h2], h3⟩
          · rintro ⟨m', hm, rfl⟩
            split at hm
            · cases hm
            · rename_i os2 m2 h2
              simp only [Option.some.injEq, Prod.mk.injEq] at hm
              obtain ⟨rfl, rfl⟩ := hm
              have := (ih' os2).2 ⟨_, h2, rfl⟩
              rw [h1] at this; cases this; rfl
  have h0 : (World.new v).base = AtomicOption.World.new v := by cases v <;> rfl
  rw [AtomicOption.World.runs, ← h0]
  exact key es (World.new v) os

/-- **C84.**  The log leaves no access out: every box that was made was written once, and each box that
is gone was opened once. -/
theorem C84_logged (v : Option α) (es : List (Ev α)) (os : List (AtomicOption.Obs α)) (m : World α)
    (h : (World.new v).runs acqRel es = some (os, m)) :
    m.log.length + m.base.boxes.length = 2 * m.base.put.length := by
  have key := runE_inv (step := World.step acqRel) (Inv := fun (_ : List (Ev α)) _ (m : World α) =>
    Inv m ∧ m.log.length + m.base.boxes.length = 2 * m.base.put.length) (m := World.new v)
    ⟨inv_new v, by cases v <;> simp [World.new, AtomicOption.World.new, AtomicOption.World.blank]⟩ ?_ h
  · exact key.2
  rintro es os s e o s' ⟨hi, hl⟩ hs
  obtain ⟨hi', hu⟩ := inv_step hi hs
  refine ⟨hi', ?_⟩
  simp only [World.step] at hs
  split at hs
  · cases hs
  rename_i o1 b hb
  simp only [Option.some.injEq, Prod.mk.injEq] at hs
  obtain ⟨rfl, rfl⟩ := hs
  have hfree : ∀ (p : Option Addr) (w : View) (r : Option α) (b1 : AtomicOption.World α),
      s.base.fromPtr p = some (r, b1) →
      (s.free p w).log.length + b1.boxes.length = 2 * b1.put.length := by
    intro p w r b1 hf
    cases p with
    | none => cases hf; exact hl
    | some a =>
      simp only [AtomicOption.World.fromPtr] at hf
      split at hf
      · cases hf
      · rename_i x bs hub
        have hp := (AtomicOption.unbox_perm hub).length_eq
        cases hf
        simp only [World.free, List.length_append, List.length_singleton]
        simp only [List.length_cons] at hp
        omega
  cases e with
  | call k u p known =>
    simp only [Ev.base, AtomicOption.World.step] at hb
    split at hb
    · cases u with
      | none =>
        simp only [AtomicOption.World.toPtr, Option.some.injEq, Prod.mk.injEq] at hb
        obtain ⟨-, rfl⟩ := hb
        exact hl
      | some a =>
        by_cases hf : s.base.isFree p = true
        · simp only [AtomicOption.World.toPtr, hf, if_true, Option.some.injEq, Prod.mk.injEq] at hb
          obtain ⟨-, rfl⟩ := hb
          simp only [World.track, List.length_append, List.length_cons, List.length_nil]
          omega
        · simp [AtomicOption.World.toPtr, hf] at hb
    · cases hb
  | exchange i =>
    simp only [Ev.base, AtomicOption.World.step] at hb
    split at hb
    · cases hb; exact hl
    · cases hb
  | finish i =>
    simp only [Ev.base, AtomicOption.World.step] at hb
    split at hb
    · rename_i k p x hc
      split at hb
      · cases hb; exact absurd rfl hu
      · rename_i r b1 hf
        have := hfree p (s.views[i]?.getD []) r b1 hf
        simp only [World.track, hc, Option.bind_some, Pc.ptr]
        cases k <;> cases hb <;> exact this
    · cases hb
  | drop =>
    simp only [Ev.base, AtomicOption.World.step] at hb
    split at hb
    · split at hb
      · cases hb; exact absurd rfl hu
      · rename_i r b1 hf
        have := hfree s.base.ptr (List.range s.log.length) r b1 hf
        cases hb
        exact this
    · cases hb

/-- A thread stores a value; another one, which knows nothing of the first, takes it out. -/
def passOn (a : α) : List (Ev α) :=
  [.call .store (some a) 1 [], .exchange 0, .finish 0, .call .swap none 0 [], .exchange 0, .finish 0]

/-- **C84.**  No weaker ordering would do: if the exchange did not acquire, or did not release, there
would be a data race between the thread which hands in a value and the one which takes it out. -/
theorem C84_needed (ord : Order) (ho : ord.acquire = false ∨ ord.release = false) (a : α) :
    ∃ (os : List (AtomicOption.Obs α)) (m : World α),
      (World.new none).runs ord (passOn a) = some (os, m) ∧ Race m.log := by
  obtain ⟨acq, rel⟩ := ord
  simp only at ho
  have hlog : ((World.new none).runs ⟨acq, rel⟩ (passOn a)).map (fun p => p.2.log) =
      some [(1, []), (1, if acq then (if rel then [0] else []) else [])] := by
    cases acq <;> cases rel <;> rfl
  cases hr : (World.new none).runs ⟨acq, rel⟩ (passOn a) with
  | none => rw [hr] at hlog; cases hlog
  | some q =>
    obtain ⟨os, m⟩ := q
    rw [hr] at hlog
    simp only [Option.map_some, Option.some.injEq] at hlog
    refine ⟨os, m, rfl, 0, 1, 1, [], _, by omega, by rw [hlog]; rfl, by rw [hlog]; rfl, ?_⟩
    rcases ho with rfl | rfl
    · simp
    · cases acq <;> simp

/-- With `AcqRel` the same history has no race: the second access knows of the first. -/
example : ((World.new none).runs acqRel (passOn (5 : Nat))).map (fun p => (p.1, p.2.log)) =
    some ([.none, .none, .none, .none, .none, .ret (some 5)], [(1, []), (1, [0])]) := rfl

/-- Two overlapping calls, and the address of a freed box is used again by a thread that learns of the free
from the allocator only; then drop. -/
def demoRA : List (Ev Nat) :=
  [.call .store (some 5) 1 [], .call .swap none 9 [1], .exchange 1, .exchange 0, .finish 1,
   .call .swap (some 6) 0 [], .exchange 1, .finish 0, .finish 0, .drop]

example : ((World.new (some 4)).runs acqRel demoRA).map (fun p => p.2.log.map (·.1)) =
    some [0, 1, 0, 0, 1, 0] := rfl

example : plain demoRA = AtomicOption.demoAtomic := rfl

end Verif.AtomicRA
