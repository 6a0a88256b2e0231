import Verif.Props.MutablePanic

/-!
# C72: exactly what a `Mutable` does after a panic that poisoned its lock

`Torn` is what the user knows then; nothing in it mentions the state of the model.
-/

namespace Verif.MutPanic

open Mut

variable {α : Type}

/-- What is left: the number of handles, and of each signal whether it has something to report and whether it was
dropped. -/
structure Torn where
  handles : Nat
  subs : List (Bool × Bool)

/-- A poll of signal `i`: if there is something to report it panics, once; otherwise it reports the end if no handle is
left, and has to wait if there is one. -/
def Torn.poll (t : Torn) (i : Nat) : Outcome α × Torn :=
  (match t.subs[i]? with
    | some (true, _) => .panicked
    | _ => if t.handles = 0 then .done (.poll (.ready none)) else .done (.poll .pending),
    ⟨t.handles, t.subs.modify i fun x => (false, x.2)⟩)

/-- How an event ends, and what is left then. -/
def Torn.next (t : Torn) : PEv α → Outcome α × Torn
  -- handles are counted as before, but the drop of the last one panics, and tells nobody
  | .call .clone => (.done .unit, ⟨t.handles + 1, t.subs⟩)
  | .call .drop => (if t.handles = 1 then .panicked else .done .unit, ⟨t.handles - 1, t.subs⟩)
  | .dropUnwinding => (if t.handles = 1 then .aborted else .done .unit, ⟨t.handles - 1, t.subs⟩)
  -- a new signal can only be made when no handle is left
  | .call .signal => if t.handles = 0 then (.done .unit, ⟨0, t.subs ++ [(true, false)]⟩) else (.panicked, t)
  | .call (.poll i _) => t.poll i
  | .pollPanics i _ => t.poll i
  | .call (.dropSignal i) => (.done .unit, ⟨t.handles, t.subs.modify i fun x => (x.1, true)⟩)
  -- everything else panics
  | _ => (.panicked, t)

/-- How a history ends, event by event. -/
def Torn.trace (t : Torn) : List (PEv α) → List (Outcome α)
  | [] => []
  | e :: es => (t.next e).1 :: (t.next e).2.trace es

/-- The guard of `lock_mut` tells the signals; the other panics tell nobody. -/
def tearing (s : Spec α) : PEv α → Spec α
  | .lockMutPanics us => s.next (.lockMut us)
  | _ => s

/-- Whom the panic wakes. -/
def tearWakes (s : Spec α) : PEv α → List Waker
  | .lockMutPanics us => s.wakes (.lockMut us)
  | _ => []

/-- What the user knows, without the value and the wakers. -/
def leftOf (s : Spec α) : Torn := ⟨s.handles, s.subs.map fun x => (x.fresh, x.dropped)⟩

/-! ## Lemmas -/

/-- The model is in the state the user knows. -/
structure TSim (p : PWorld α) (t : Torn) : Prop where
  senders : p.m.senders = t.handles
  handles : p.m.handles = t.handles
  cells : p.m.cells = t.subs.length
  cell : ∀ (i : Nat) (x : Bool × Bool), t.subs[i]? = some x → (p.m.cell i).changed = x.1 ∧ (p.m.cell i).alive = !x.2

theorem TSim.set {p : PWorld α} {t : Torn} (h : TSim p t) {i : Nat} {c : ChangedWaker} {f : Bool × Bool → Bool × Bool}
    (hc : ∀ x, t.subs[i]? = some x → c.changed = (f x).1 ∧ c.alive = !(f x).2) :
    TSim { p with m := p.m.setCell i c } ⟨t.handles, t.subs.modify i f⟩ := by
  refine ⟨h.senders, h.handles, by simp [World.setCell, h.cells], fun j x hx => ?_⟩
  obtain ⟨y, hy, rfl⟩ := getElem?_modify_some hx
  simp only [World.setCell]
  by_cases hj : j = i
  · subst hj
    simpa using hc y hy
  · rw [if_neg hj, if_neg (Ne.symm hj)]
    exact h.cell j y hy

theorem TSim.poll {p p' : PWorld α} {t : Torn} {i : Nat} {w : Waker} {o : Outcome α} (h : TSim p t)
    (hs : p.callPoisoned (.poll i w) = some (o, p')) : o = (t.poll i).1 ∧ TSim p' (t.poll (α := α) i).2 := by
  simp only [PWorld.callPoisoned] at hs
  split at hs
  · rename_i hi
    have hi' : i < t.subs.length := by rw [← h.cells]; exact hi.1
    have hx : t.subs[i]? = some t.subs[i] := List.getElem?_eq_getElem hi'
    generalize t.subs[i] = x at hx
    obtain ⟨b, d⟩ := x
    obtain ⟨h1, h2⟩ := h.cell i _ hx
    have hkeep : ∀ y, t.subs[i]? = some y → (p.m.cell i).alive = !y.2 := fun y hy => (h.cell i y hy).2
    simp only [ChangedWaker.isChanged] at hs
    simp only at h1
    cases b with
    | true =>
      rw [h1] at hs
      simp only [Option.some.injEq, Prod.mk.injEq] at hs
      obtain ⟨rfl, rfl⟩ := hs
      exact ⟨by simp [Torn.poll, hx], h.set fun y hy => ⟨rfl, hkeep y hy⟩⟩
    | false =>
      rw [h1] at hs
      simp only [h.senders] at hs
      split at hs
      · rename_i h0
        cases hs
        exact ⟨by simp [Torn.poll, hx, h0], h.set fun y hy => ⟨rfl, hkeep y hy⟩⟩
      · rename_i h0
        cases hs
        exact ⟨by simp [Torn.poll, hx, h0], h.set fun y hy => ⟨rfl, hkeep y hy⟩⟩
  · simp at hs

theorem TSim.drop {p p' : PWorld α} {t : Torn} {o : Outcome α} (h : TSim p t) (hs : p.callPoisoned .drop = some (o, p')) :
    o = (if t.handles = 1 then .panicked else .done .unit) ∧ TSim p' ⟨t.handles - 1, t.subs⟩ := by
  simp only [PWorld.callPoisoned, h.handles, h.senders] at hs
  split at hs
  · cases hs
  · split at hs <;> cases hs <;> rename_i h1 <;> exact ⟨by simp [h1], rfl, rfl, h.cells, h.cell⟩

theorem TSim.step {p p' : PWorld α} {t : Torn} {e : PEv α} {o : Outcome α} (h : TSim p t) (hp : p.poisoned = true)
    (hs : p.step e = some (o, p')) : o = (t.next e).1 ∧ TSim p' (t.next e).2 := by
  unfold PWorld.step at hs
  split at hs
  · cases hs
  · rename_i ha
    cases e with
    | call e =>
      simp only [PWorld.call, hp, if_true] at hs
      cases e with
      | poll i w => exact h.poll hs
      | drop => exact h.drop hs
      | clone =>
        simp only [PWorld.callPoisoned] at hs
        split at hs
        · cases hs
        · cases hs
          exact ⟨rfl, by simp [World.clone, Torn.next, h.senders], by simp [World.clone, Torn.next, h.handles], h.cells, h.cell⟩
      | signal =>
        simp only [PWorld.callPoisoned, h.senders] at hs
        split at hs
        · rename_i h0
          cases hs
          simp only [Torn.next, if_neg h0]
          exact ⟨trivial, h⟩
        · rename_i h0
          simp only [ne_eq, Decidable.not_not] at h0
          cases hs
          simp only [Torn.next, if_pos h0]
          have hm : p.m.signalState = { p.m.setCell p.m.cells ChangedWaker.new with cells := p.m.cells + 1 } := by
            simp [World.signalState, h.senders, h0]
          rw [hm]
          refine ⟨trivial, ?_, ?_, by simp [h.cells], fun i x hx => ?_⟩
          · rw [← h0]; exact h.senders
          · rw [← h0]; exact h.handles
          · rw [List.getElem?_append] at hx
            simp only [World.setCell]
            split at hx
            · rename_i hi
              rw [if_neg (by rw [h.cells]; omega)]
              exact h.cell i x hx
            · rename_i hi
              have hi2 : i - t.subs.length = 0 := by
                have := (List.getElem?_eq_some_iff.1 hx).1
                simp at this
                omega
              rw [hi2] at hx
              simp only [List.getElem?_cons_zero, Option.some.injEq] at hx
              rw [if_pos (by rw [h.cells]; omega), ← hx]
              exact ⟨rfl, rfl⟩
      | dropSignal i =>
        simp only [PWorld.callPoisoned] at hs
        split at hs
        · cases hs
          exact ⟨rfl, h.set fun x hx => ⟨(h.cell i x hx).1, rfl⟩⟩
        · cases hs
      | get =>
        cases hs
        exact ⟨rfl, h⟩
      | _ =>
        simp only [PWorld.callPoisoned] at hs
        split at hs
        · cases hs
        · cases hs
          exact ⟨rfl, h⟩
    | replaceWithPanics f =>
      simp only [hp, if_true] at hs
      split at hs
      · cases hs
      · cases hs
        exact ⟨rfl, h⟩
    | setIfPanics a =>
      simp only at hs
      split at hs
      · cases hs
      · cases hs
        exact ⟨rfl, h.senders, h.handles, h.cells, h.cell⟩
    | lockMutPanics us =>
      simp only [hp, if_true] at hs
      split at hs
      · cases hs
      · cases hs
        exact ⟨rfl, h⟩
    | pollPanics i w =>
      have key : ∀ q, p.callPoisoned (.poll i w) = some q → q.1 = (t.poll i).1 ∧ TSim q.2 (t.poll (α := α) i).2 :=
        fun q hq => h.poll hq
      simp only at hs
      split at hs
      · rename_i hi
        simp only [PWorld.callPoisoned, if_pos hi] at key
        split at hs
        · rename_i c hc
          cases hs
          rw [hc] at key
          exact key _ rfl
        · simp only [PWorld.call, hp, if_true] at hs
          exact h.poll hs
      · cases hs
    | getPanics =>
      cases hs
      exact ⟨rfl, h⟩
    | dropUnwinding =>
      simp only [PWorld.call, hp, if_true] at hs
      split at hs
      · cases hs
      · rename_i p1 hd
        cases hs
        obtain ⟨h1, h2⟩ := h.drop hd
        have h3 : t.handles = 1 := by
          by_cases h3 : t.handles = 1
          · exact h3
          · simp [h3] at h1
        exact ⟨by simp [Torn.next, h3], h2.senders, h2.handles, h2.cells, h2.cell⟩
      · rename_i o1 p1 hne hd
        cases hs
        obtain ⟨h1, h2⟩ := h.drop hd
        have h3 : t.handles ≠ 1 := by
          intro h3
          rw [if_pos h3] at h1
          exact hne h1
        exact ⟨by simp [Torn.next, h3, h1], h2⟩

theorem TSim.runs {p p' : PWorld α} {t : Torn} {es : List (PEv α)} {os : List (Outcome α)} (h : TSim p t)
    (hp : p.poisoned = true) (hs : p.runs es = some (os, p')) : os = t.trace es ∧ p'.m.woken = p.m.woken := by
  induction es generalizing p t os with
  | nil => cases hs; exact ⟨rfl, rfl⟩
  | cons e es ih =>
    simp only [PWorld.runs, runE] at hs
    split at hs
    · cases hs
    · rename_i o p1 h1
      split at hs
      · cases hs
      · rename_i os1 p2 h2
        cases hs
        obtain ⟨k1, k2⟩ := h.step hp h1
        obtain ⟨k3, k4, -⟩ := step_poisoned hp h1
        obtain ⟨k5, k6⟩ := ih k2 k3 h2
        exact ⟨by rw [k1, k5]; rfl, by rw [k6, k4]⟩

theorem Sim.left {m : World α} {s : Spec α} (h : Sim m s) (b c : Bool) : TSim ⟨m, b, c⟩ (leftOf s) := by
  refine ⟨h.senders, h.handles, by simp [leftOf, h.cells], fun i x hx => ?_⟩
  simp only [leftOf, List.getElem?_map, Option.map_eq_some_iff] at hx
  obtain ⟨y, hy, rfl⟩ := hx
  simp only [h.cell i y hy, Sub.cell]
  exact ⟨trivial, trivial⟩

/-! ## The theorem -/

/-- **C72**, after the first panic in code that writes: exactly how every later call ends, as `Torn` says for what was known
before the panic, and nobody is woken any more.  The panic itself wakes as the guard of `lock_mut` would. -/
theorem C72_after (a : α) (es1 es2 : List (PEv α)) (e : PEv α) (os : List (Outcome α)) (p : PWorld α)
    (h : (PWorld.new a).runs (es1 ++ e :: es2) = some (os, p)) (h1 : ∀ x ∈ es1, x.tears = false) (he : e.tears = true) :
    let s := (Spec.new a).after (es1.filterMap PEv.calm)
    os.drop es1.length = .panicked :: (leftOf (tearing s e)).trace es2 ∧
    p.m.woken = (Spec.new a).wakeLog (es1.filterMap PEv.calm) ++ tearWakes s e := by
  intro s
  obtain ⟨os1, os2, p1, g1, g2, rfl⟩ := runE_append h
  obtain ⟨os1', k1, -, -⟩ := C72_readers a es1 os1 p1 g1 h1
  obtain ⟨hsim, -, hw⟩ := (sim_new a).runs k1
  have hw : p1.m.woken = (Spec.new a).wakeLog (es1.filterMap PEv.calm) := hw
  have hnp : p1.poisoned = false := by
    cases hq : p1.poisoned with
    | false => rfl
    | true =>
      obtain ⟨x, hx, hx'⟩ := (poisoned_iff g1).1 hq
      rw [h1 x hx] at hx'; simp at hx'
  have hlen : os1.length = es1.length := runE_length g1
  rw [← hlen, List.drop_left]
  simp only [runE] at g2
  split at g2
  · cases g2
  · rename_i o p2 hs
    split at g2
    · cases g2
    · rename_i os3 p3 hr
      cases g2
      obtain ⟨hp2, rfl⟩ := step_tears he hs
      suffices hk : TSim p2 (leftOf (tearing s e)) ∧ p2.m.woken = p1.m.woken ++ tearWakes s e by
        obtain ⟨q1, q2⟩ := hk.1.runs hp2 hr
        exact ⟨by rw [q1], by rw [q2, hk.2, hw]⟩
      unfold PWorld.step at hs
      split at hs
      · cases hs
      · cases e <;> simp only [PEv.tears, Bool.false_eq_true] at he
        case replaceWithPanics f =>
          simp only [hnp, Bool.false_eq_true, if_false] at hs
          split at hs
          · cases hs
          · cases hs
            obtain ⟨q1, q2, q3, q4⟩ := Sim.left hsim true false
            exact ⟨⟨q1, q2, q3, q4⟩, by simp [tearWakes]⟩
        case setIfPanics b =>
          simp only at hs
          split at hs
          · cases hs
          · cases hs
            obtain ⟨q1, q2, q3, q4⟩ := Sim.left hsim true false
            exact ⟨⟨q1, q2, q3, q4⟩, by simp [tearWakes]⟩
        case lockMutPanics us =>
          simp only [hnp, Bool.false_eq_true, if_false] at hs
          split at hs
          · cases hs
          · rename_i hh
            cases hs
            have hstep : p1.m.step (.lockMut us) = some (.unit, p1.m.lockMut us) := by simp [World.step, hh]
            obtain ⟨q1, -, q3⟩ := hsim.step hstep
            obtain ⟨r1, r2, r3, r4⟩ := Sim.left q1 true false
            exact ⟨⟨r1, r2, r3, r4⟩, q3⟩

/-- Two signals, one of which waits and one of which has not been polled. -/
def demoBefore : List (PEv Nat) := [.call .signal, .call .signal, .call (.poll 0 7), .call (.poll 0 7), .call .clone]

/-- What is done after the panic. -/
def demoAfter : List (PEv Nat) :=
  [.call (.poll 0 8), .call (.poll 0 8), .call (.poll 1 9), .call (.poll 1 9), .call .get, .call .signal, .call .drop, .call .drop,
    .call (.poll 1 9), .call .signal, .call (.poll 2 5), .call (.poll 2 5)]

example : ((PWorld.new 1).runs (demoBefore ++ .lockMutPanics [.derefMut (· + 1)] :: demoAfter)).map (fun q => q.2.m.woken) =
      some [7] ∧ (∀ x ∈ demoBefore, x.tears = false) := ⟨rfl, by simp [demoBefore, PEv.tears]⟩

/-- With the guard of `lock_mut` the waiting signal is told; with `replace_with` it is not, and waits for ever: the drop of
the last handle does not wake it. -/
example : (leftOf (tearing ((Spec.new 1).after (demoBefore.filterMap PEv.calm)) (.lockMutPanics [.derefMut (· + 1)]))).trace demoAfter =
      [.panicked, .done (.poll .pending), .panicked, .done (.poll .pending), .panicked, .panicked, .done .unit, .panicked,
        .done (.poll (.ready none)), .done .unit, .panicked, .done (.poll (.ready none))] ∧
    (leftOf (tearing ((Spec.new 1).after (demoBefore.filterMap PEv.calm)) (.replaceWithPanics (· + 1)))).trace demoAfter =
      [.done (.poll .pending), .done (.poll .pending), .panicked, .done (.poll .pending), .panicked, .panicked, .done .unit,
        .panicked, .done (.poll (.ready none)), .done .unit, .panicked, .done (.poll (.ready none))] := ⟨rfl, rfl⟩

end Verif.MutPanic
