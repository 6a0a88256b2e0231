import Verif.MutablePanic
import Verif.Props.Mutable

/-!
# Panics of user code under the lock of a `Mutable` (property C72)

`(PWorld.new a).runs es = some (os, p)`: the history `es`, in which user code may panic, is possible
and its calls end as `os` says.  `valueAfter`, `handlesAfter` and the machine `Spec` are in
`Verif/MutableSpec.lean`.
-/

namespace Verif.MutPanic

open Mut

variable {α : Type}

/-- The user code of the event panics while the lock is held for writing. -/
def PEv.tears : PEv α → Bool
  | .replaceWithPanics _ => true
  | .setIfPanics _ => true
  | .lockMutPanics _ => true
  | _ => false

/-- The event without its panic, if it only reads; `none` for those that panic while writing. -/
def PEv.calm : PEv α → Option (Ev α)
  | .call e => some e
  | .pollPanics i w => some (.poll i w)
  | .getPanics => some .get
  | .dropUnwinding => some .drop
  | _ => none

/-- A call that ended as `o` answers as a call with the answer `o'`, or it is one whose user code
panics while reading, and it did. -/
def PEv.Agrees (e : PEv α) (o : Outcome α) (o' : Obs α) : Prop :=
  o = .done o' ∨ (o = .panicked ∧ ((∃ i w, e = .pollPanics i w) ∨ e = .getPanics))

/-! ## Lemmas -/

theorem callPoisoned_keeps {p p' : PWorld α} {e : Ev α} {o : Outcome α}
    (h : p.callPoisoned e = some (o, p')) :
    p'.poisoned = p.poisoned ∧ p'.m.woken = p.m.woken ∧ p'.m.value = p.m.value := by
  cases e <;> simp only [PWorld.callPoisoned] at h
  case drop =>
    split at h
    · simp at h
    · split at h <;> simp only [Option.some.injEq, Prod.mk.injEq] at h <;> obtain ⟨-, rfl⟩ := h <;>
        exact ⟨rfl, rfl, rfl⟩
  case poll i w =>
    split at h
    · split at h
      · simp only [Option.some.injEq, Prod.mk.injEq] at h; obtain ⟨-, rfl⟩ := h; exact ⟨rfl, rfl, rfl⟩
      · split at h <;> simp only [Option.some.injEq, Prod.mk.injEq] at h <;> obtain ⟨-, rfl⟩ := h <;>
          exact ⟨rfl, rfl, rfl⟩
    · simp at h
  case signal =>
    split at h <;> simp only [Option.some.injEq, Prod.mk.injEq] at h <;> obtain ⟨-, rfl⟩ := h
    · exact ⟨rfl, rfl, rfl⟩
    · refine ⟨rfl, ?_, ?_⟩ <;> simp only [World.signalState] <;> split <;> rfl
  case get =>
    simp only [Option.some.injEq, Prod.mk.injEq] at h; obtain ⟨-, rfl⟩ := h; exact ⟨rfl, rfl, rfl⟩
  case dropSignal i =>
    split at h
    · simp only [Option.some.injEq, Prod.mk.injEq] at h; obtain ⟨-, rfl⟩ := h; exact ⟨rfl, rfl, rfl⟩
    · simp at h
  all_goals
    split at h
    · simp at h
    · simp only [Option.some.injEq, Prod.mk.injEq] at h; obtain ⟨-, rfl⟩ := h; exact ⟨rfl, rfl, rfl⟩

/-- On a poisoned lock no call answers a value. -/
theorem callPoisoned_no_value {p p' : PWorld α} {e : Ev α} {o : Outcome α}
    (h : p.callPoisoned e = some (o, p')) :
    o = .panicked ∨ o = .done .unit ∨ o = .done (.poll (.ready none)) ∨ o = .done (.poll .pending) := by
  cases e <;> simp only [PWorld.callPoisoned] at h
  case drop =>
    split at h
    · simp at h
    · split at h <;> simp only [Option.some.injEq, Prod.mk.injEq] at h <;> obtain ⟨rfl, -⟩ := h <;> simp
  case poll i w =>
    split at h
    · split at h
      · simp only [Option.some.injEq, Prod.mk.injEq] at h; obtain ⟨rfl, -⟩ := h; simp
      · split at h <;> simp only [Option.some.injEq, Prod.mk.injEq] at h <;> obtain ⟨rfl, -⟩ := h <;> simp
    · simp at h
  case signal =>
    split at h <;> simp only [Option.some.injEq, Prod.mk.injEq] at h <;> obtain ⟨rfl, -⟩ := h <;> simp
  case get => simp only [Option.some.injEq, Prod.mk.injEq] at h; obtain ⟨rfl, -⟩ := h; simp
  case dropSignal i =>
    split at h
    · simp only [Option.some.injEq, Prod.mk.injEq] at h; obtain ⟨rfl, -⟩ := h; simp
    · simp at h
  all_goals
    split at h
    · simp at h
    · simp only [Option.some.injEq, Prod.mk.injEq] at h; obtain ⟨rfl, -⟩ := h; simp

/-- A step on a poisoned lock. -/
theorem step_poisoned {p p' : PWorld α} {e : PEv α} {o : Outcome α} (hp : p.poisoned = true)
    (h : p.step e = some (o, p')) :
    p'.poisoned = true ∧ p'.m.woken = p.m.woken ∧
    (o = .panicked ∨ o = .aborted ∨ o = .done .unit ∨ o = .done (.poll (.ready none)) ∨
      o = .done (.poll .pending)) := by
  unfold PWorld.step at h
  split at h
  · simp at h
  · cases e <;> simp only [PWorld.call, hp, if_true] at h
    case call e =>
      have h1 := callPoisoned_keeps h
      have h2 := callPoisoned_no_value h
      exact ⟨by rw [h1.1, hp], h1.2.1, h2.imp_right .inr⟩
    case pollPanics i w =>
      split at h
      · split at h
        · simp only [Option.some.injEq, Prod.mk.injEq] at h; obtain ⟨rfl, rfl⟩ := h
          exact ⟨rfl, rfl, .inl rfl⟩
        · have h1 := callPoisoned_keeps h
          have h2 := callPoisoned_no_value h
          exact ⟨by rw [h1.1, hp], h1.2.1, h2.imp_right .inr⟩
      · simp at h
    case getPanics =>
      simp only [Option.some.injEq, Prod.mk.injEq] at h; obtain ⟨rfl, rfl⟩ := h
      exact ⟨hp, rfl, .inl rfl⟩
    case dropUnwinding =>
      cases hc : p.callPoisoned .drop with
      | none => simp [hc] at h
      | some q =>
        obtain ⟨o1, p1⟩ := q
        have h1 := callPoisoned_keeps hc
        have h2 := callPoisoned_no_value hc
        rcases h2 with rfl | rfl | rfl | rfl <;>
          simp only [hc, Option.some.injEq, Prod.mk.injEq] at h <;> obtain ⟨rfl, rfl⟩ := h <;>
          exact ⟨by rw [← hp]; exact h1.1, h1.2.1, by simp⟩
    all_goals
      split at h
      · simp at h
      · simp only [Option.some.injEq, Prod.mk.injEq] at h; obtain ⟨rfl, rfl⟩ := h
        exact ⟨by first | exact hp | rfl, rfl, .inl rfl⟩

/-- A step that tears poisons the lock. -/
theorem step_tears {p p' : PWorld α} {e : PEv α} {o : Outcome α} (he : e.tears = true)
    (h : p.step e = some (o, p')) : p'.poisoned = true ∧ o = .panicked := by
  unfold PWorld.step at h
  split at h
  · simp at h
  · cases e <;> simp only [PEv.tears, Bool.false_eq_true] at he
    case setIfPanics a =>
      simp only at h
      split at h
      · simp at h
      · simp only [Option.some.injEq, Prod.mk.injEq] at h; obtain ⟨rfl, rfl⟩ := h; exact ⟨rfl, rfl⟩
    all_goals
      simp only at h
      split at h
      · simp at h
      · split at h <;> simp only [Option.some.injEq, Prod.mk.injEq] at h <;> obtain ⟨rfl, rfl⟩ := h
        · exact ⟨by assumption, rfl⟩
        · exact ⟨rfl, rfl⟩

/-- Does a step without poison and without a tear act as its calm version? -/
theorem step_calm {p p' : PWorld α} {e : PEv α} {o : Outcome α} (hp : p.poisoned = false)
    (he : e.tears = false) (h : p.step e = some (o, p')) :
    p'.poisoned = false ∧ p'.aborted = p.aborted ∧
    ∃ e' o', e.calm = some e' ∧ p.m.step e' = some (o', p'.m) ∧ e.Agrees o o' := by
  unfold PWorld.step at h
  split at h
  · simp at h
  · rename_i hab
    cases e <;> simp only [PEv.tears, Bool.true_eq_false] at he <;>
      simp only [PWorld.call, hp, Bool.false_eq_true, if_false] at h
    case call e =>
      cases hs : p.m.step e with
      | none => simp [hs] at h
      | some q =>
        obtain ⟨o1, m1⟩ := q
        simp only [hs, Option.some.injEq, Prod.mk.injEq] at h
        obtain ⟨rfl, rfl⟩ := h
        exact ⟨rfl, rfl, e, o1, rfl, hs, .inl rfl⟩
    case pollPanics i w =>
      split at h
      · rename_i hi
        split at h
        · rename_i c hc
          simp only [Option.some.injEq, Prod.mk.injEq] at h
          obtain ⟨rfl, rfl⟩ := h
          refine ⟨rfl, rfl, .poll i w, .poll (.ready (some p.m.value)), rfl, ?_,
            .inr ⟨rfl, .inl ⟨i, w, rfl⟩⟩⟩
          simp [World.step, hi, World.pollChange, hc]
        · cases hs : p.m.step (.poll i w) with
          | none => simp [hs] at h
          | some q =>
            obtain ⟨o1, m1⟩ := q
            simp only [hs, Option.some.injEq, Prod.mk.injEq] at h
            obtain ⟨rfl, rfl⟩ := h
            exact ⟨rfl, rfl, .poll i w, o1, rfl, hs, .inl rfl⟩
      · simp at h
    case getPanics =>
      simp only [Option.some.injEq, Prod.mk.injEq] at h
      obtain ⟨rfl, rfl⟩ := h
      exact ⟨hp, rfl, .get, .value p.m.value, rfl, rfl, .inr ⟨rfl, .inr rfl⟩⟩
    case dropUnwinding =>
      cases hs : p.m.step .drop with
      | none => simp [hs] at h
      | some q =>
        obtain ⟨o1, m1⟩ := q
        simp only [hs, Option.some.injEq, Prod.mk.injEq] at h
        obtain ⟨rfl, rfl⟩ := h
        exact ⟨rfl, rfl, .drop, o1, rfl, hs, .inl rfl⟩

/-- Poisoned iff something tore. -/
theorem poisoned_iff {a : α} {es : List (PEv α)} {os : List (Outcome α)} {p : PWorld α}
    (h : (PWorld.new a).runs es = some (os, p)) : p.poisoned = true ↔ ∃ e ∈ es, e.tears = true := by
  refine runE_inv (Inv := fun es (_ : List (Outcome α)) (p : PWorld α) =>
    (p.poisoned = true ↔ ∃ e ∈ es, e.tears = true)) (by simp [PWorld.new]) ?_ h
  intro es os s e o s' hinv hs
  cases hp : s.poisoned with
  | true =>
    obtain ⟨x, hx, ht⟩ := hinv.1 hp
    simp only [(step_poisoned hp hs).1, true_iff]
    exact ⟨x, by simp [hx], ht⟩
  | false =>
    cases ht : e.tears with
    | true => simp only [(step_tears ht hs).1, true_iff]; exact ⟨e, by simp, ht⟩
    | false =>
      have hn : ¬ ∃ e ∈ es, e.tears = true := by rw [← hinv]; simp [hp]
      simp only [(step_calm hp ht hs).1, Bool.false_eq_true, false_iff]
      rintro ⟨x, hx, hx'⟩
      rcases List.mem_append.1 hx with hx | hx
      · exact hn ⟨x, hx, hx'⟩
      · rw [List.mem_singleton.1 hx, ht] at hx'; simp at hx'

/-! ## Theorems -/

/-- **C72**, code that only reads: in a history in which no user code panics while the lock is held
for writing, all calls end, wake and leave the state as in the history in which nobody panics, except
that those whose user code panics do so.  In particular the lock is not poisoned. -/
theorem C72_readers (a : α) (es : List (PEv α)) (os : List (Outcome α)) (p : PWorld α)
    (h : (PWorld.new a).runs es = some (os, p)) (ht : ∀ e ∈ es, e.tears = false) :
    ∃ os', (World.new a).runs (es.filterMap PEv.calm) = some (os', p.m) ∧
      (es.filterMap PEv.calm).length = es.length ∧
      ∀ (k : Nat) (e : PEv α) (o : Outcome α), es[k]? = some e → os[k]? = some o → ∃ o', os'[k]? = some o' ∧ e.Agrees o o' := by
  have key := runE_inv (Inv := fun es (os : List (Outcome α)) (p : PWorld α) =>
    (∀ e ∈ es, e.tears = false) → p.poisoned = false ∧
    ∃ os', (World.new a).runs (es.filterMap PEv.calm) = some (os', p.m) ∧
      (es.filterMap PEv.calm).length = es.length ∧ os'.length = es.length ∧ os.length = es.length ∧
      ∀ (k : Nat) (e : PEv α) (o : Outcome α), es[k]? = some e → os[k]? = some o → ∃ o', os'[k]? = some o' ∧ e.Agrees o o')
    (m := PWorld.new a) (fun _ => ⟨rfl, [], rfl, rfl, rfl, rfl, by simp⟩) ?_ h ht
  · obtain ⟨-, os', h1, h2, -, -, h3⟩ := key
    exact ⟨os', h1, h2, h3⟩
  · intro es os s e o s' hinv hs ht
    obtain ⟨hp, os', h1, h2, h3, h3', h4⟩ := hinv fun x hx => ht x (by simp [hx])
    obtain ⟨k1, -, e', o', k2, k3, k4⟩ := step_calm hp (ht e (by simp)) hs
    refine ⟨k1, os' ++ [o'], ?_, by simp [List.filterMap_append, k2, h2], by simp [h3],
      by simp [h3'], ?_⟩
    · rw [List.filterMap_append]
      refine runs_append_of h1 ?_
      simp [k2, World.runs, k3]
    · intro k x y hx hy
      by_cases hk : k < es.length
      · rw [List.getElem?_append_left hk] at hx
        rw [List.getElem?_append_left (by omega)] at hy
        obtain ⟨o1, g1, g2⟩ := h4 k x y hx hy
        exact ⟨o1, by rw [List.getElem?_append_left (by omega)]; exact g1, g2⟩
      · have hk' : k = es.length := by
          have := (List.getElem?_eq_some_iff.1 hx).1
          simp at this; omega
        subst hk'
        simp only [List.getElem?_concat_length, Option.some.injEq] at hx
        rw [← h3', List.getElem?_concat_length] at hy
        simp only [Option.some.injEq] at hy
        subst hx; subst hy
        exact ⟨o', by rw [← h3, List.getElem?_concat_length], k4⟩

/-- **C72**, no torn value is ever shown: whatever user code panics, a value answered by a poll of a
signal or by `get` is the one that the calls before make, none of which panicked while writing. -/
theorem C72_no_torn_value (a : α) (es : List (PEv α)) (e : PEv α) (os : List (Outcome α))
    (p : PWorld α) (h : (PWorld.new a).runs (es ++ [e]) = some (os, p)) (b : α)
    (hb : (e = .call .get ∧ os.getLast? = some (.done (.value b))) ∨
      os.getLast? = some (.done (.poll (.ready (some b))))) :
    (∀ x ∈ es, x.tears = false) ∧ b = valueAfter a (es.filterMap PEv.calm) := by
  obtain ⟨os1, o, p1, h1, h2, rfl⟩ := runE_snoc h
  simp only [List.getLast?_concat, Option.some.injEq] at hb
  have hp : p1.poisoned = false := by
    cases hp : p1.poisoned with
    | false => rfl
    | true =>
      have := (step_poisoned hp h2).2.2
      rcases hb with ⟨-, rfl⟩ | rfl <;> simp at this
  have ht : ∀ x ∈ es, x.tears = false := by
    intro x hx
    cases hx' : x.tears with
    | false => rfl
    | true => rw [(poisoned_iff h1).2 ⟨x, hx, hx'⟩] at hp; simp at hp
  refine ⟨ht, ?_⟩
  obtain ⟨os', g1, -, -⟩ := C72_readers a es os1 p1 h1 ht
  cases he : e.tears with
  | true =>
    have := (step_tears he h2).2
    subst this
    rcases hb with ⟨-, hb⟩ | hb <;> simp at hb
  | false =>
    obtain ⟨-, -, e', o', k2, k3, k4⟩ := step_calm hp he h2
    have hr : (World.new a).runs (es.filterMap PEv.calm ++ [e']) = some (os' ++ [o'], p.m) :=
      runs_append_of g1 (by simp [World.runs, k3])
    rcases hb with ⟨rfl, rfl⟩ | rfl
    · simp only [PEv.calm, Option.some.injEq] at k2
      subst k2
      have := (C34_refines a _ _ _ g1).2.2
      simp only [World.step, Option.some.injEq, Prod.mk.injEq] at k3
      rcases k4 with k4 | ⟨k4, -⟩
      · simp only [Outcome.done.injEq] at k4
        rw [← k3.1] at k4
        simp only [Obs.value.injEq] at k4
        rw [k4, this]
      · simp at k4
    · rcases k4 with k4 | ⟨k4, -⟩
      · simp only [Outcome.done.injEq] at k4
        subst k4
        have hpoll : ∃ i w, e' = .poll i w := by
          cases e' <;> simp only [World.step] at k3
          case poll i w => exact ⟨i, w, rfl⟩
          case replace => split at k3 <;> simp at k3
          case replaceWith => split at k3 <;> simp at k3
          case get => simp at k3
          case signal => simp at k3
          all_goals split at k3 <;> simp at k3
        obtain ⟨i, w, rfl⟩ := hpoll
        exact (C31_current a _ i w _ _ hr).1 b (by simp)
      · simp at k4

/-- **C72**, a torn value stays hidden: once user code panicked while the lock was held for writing,
all calls that read or write the value panic, for ever, and no signal produces a value. -/
theorem C72_poisoned (a : α) (es : List (PEv α)) (e : PEv α) (os : List (Outcome α))
    (p : PWorld α) (h : (PWorld.new a).runs (es ++ [e]) = some (os, p))
    (ht : ∃ x ∈ es, x.tears = true) :
    ((∃ b, e = .call (.set b)) ∨ (∃ b, e = .call (.replace b)) ∨ (∃ f, e = .call (.replaceWith f)) ∨
      (∃ b f, e = .call (.setIf b f)) ∨ (∃ us, e = .call (.lockMut us)) ∨ e = .call .get →
        os.getLast? = some .panicked) ∧
    ∀ b, os.getLast? ≠ some (.done (.value b)) ∧
      os.getLast? ≠ some (.done (.poll (.ready (some b)))) := by
  obtain ⟨os1, o, p1, h1, h2, rfl⟩ := runE_snoc h
  have hp := (poisoned_iff h1).2 ht
  simp only [List.getLast?_concat, Option.some.injEq]
  constructor
  · intro he
    unfold PWorld.step at h2
    split at h2
    · simp at h2
    · rcases he with ⟨b, rfl⟩ | ⟨b, rfl⟩ | ⟨f, rfl⟩ | ⟨b, f, rfl⟩ | ⟨us, rfl⟩ | rfl <;>
        simp only [PWorld.call, hp, if_true, PWorld.callPoisoned] at h2
      case inr.inr.inr.inr.inr =>
        simp only [Option.some.injEq, Prod.mk.injEq] at h2; exact h2.1.symm
      all_goals
        split at h2
        · simp at h2
        · simp only [Option.some.injEq, Prod.mk.injEq] at h2; exact h2.1.symm
  · intro b
    have := (step_poisoned hp h2).2.2
    rcases this with rfl | rfl | rfl | rfl | rfl <;> simp

/-- **C72**, a panic while a guard of `lock_mut` is alive wakes, as the guard would without it: a
signal that waits is woken if the guard was dereferenced mutably. -/
theorem C72_guard_wakes (a : α) (es1 es2 : List (PEv α)) (i : Nat) (w : Waker) (us : List (Use α))
    (os1 os2 : List (Outcome α)) (p1 p2 : PWorld α)
    (h1 : (PWorld.new a).runs (es1 ++ [.call (.poll i w)]) = some (os1, p1))
    (hpend : os1.getLast? = some (.done (.poll .pending)))
    (h2 : p1.runs (es2 ++ [.lockMutPanics us]) = some (os2, p2))
    (ht : ∀ x ∈ es1 ++ es2, x.tears = false)
    (hp : ∀ x ∈ es2, (∀ w', x ≠ .call (.poll i w')) ∧ (∀ w', x ≠ .pollPanics i w') ∧
      x ≠ .call (.dropSignal i))
    (hus : usesMut us = true) :
    ∃ l, p2.m.woken = p1.m.woken ++ l ∧ w ∈ l := by
  obtain ⟨os3, o, p3, g1, g2, rfl⟩ := runE_snoc h2
  have ht1 : ∀ x ∈ es1 ++ [.call (.poll i w)], x.tears = false := by
    intro x hx
    rcases List.mem_append.1 hx with hx | hx
    · exact ht x (by simp [hx])
    · rw [List.mem_singleton.1 hx]; rfl
  obtain ⟨os1', k1, k2, k3⟩ := C72_readers a _ _ _ h1 ht1
  -- the second part
  have hnp1 : p1.poisoned = false := by
    cases hq : p1.poisoned with
    | false => rfl
    | true =>
      obtain ⟨x, hx, hx'⟩ := (poisoned_iff h1).1 hq
      rw [ht1 x hx] at hx'; simp at hx'
  have key := runE_inv (Inv := fun es (os : List (Outcome α)) (p : PWorld α) =>
    (∀ e ∈ es, e.tears = false) → p.poisoned = false ∧
      ∃ os', p1.m.runs (es.filterMap PEv.calm) = some (os', p.m))
    (m := p1) (fun _ => ⟨hnp1, [], rfl⟩)
    (by
      intro es os s e o s' hinv hs ht
      obtain ⟨hp, os', h1⟩ := hinv fun x hx => ht x (by simp [hx])
      obtain ⟨k1, -, e', o', k2, k3, k4⟩ := step_calm hp (ht e (by simp)) hs
      refine ⟨k1, os' ++ [o'], ?_⟩
      rw [List.filterMap_append]
      refine runs_append_of h1 ?_
      simp [k2, World.runs, k3]) g1 (fun x hx => ht x (by simp [hx]))
  obtain ⟨hnp3, os3', k4⟩ := key
  have hstep : p3.m.step (.lockMut us) = some (.unit, p2.m) := by
    unfold PWorld.step at g2
    split at g2
    · simp at g2
    · simp only [hnp3, Bool.false_eq_true, if_false] at g2
      split at g2
      · simp at g2
      · rename_i hh
        simp only [Option.some.injEq, Prod.mk.injEq] at g2
        obtain ⟨-, rfl⟩ := g2
        simp [World.step, hh]
  have hruns : p1.m.runs (es2.filterMap PEv.calm ++ .lockMut us :: []) = some (os3' ++ [.unit], p2.m) :=
    runs_append_of k4 (by simp [World.runs, hstep])
  have hmem : ∀ e', e' ∈ es2.filterMap PEv.calm → (∀ w', e' ≠ .poll i w') ∧ e' ≠ .dropSignal i := by
    intro e' he'
    obtain ⟨x, hx, hx'⟩ := List.mem_filterMap.1 he'
    obtain ⟨q1, q2, q3⟩ := hp x hx
    cases x <;> simp only [PEv.calm, Option.some.injEq, reduceCtorEq] at hx' <;> subst hx'
    case call e =>
      exact ⟨fun w' hw => q1 w' (by rw [hw]), fun hw => q3 (by rw [hw])⟩
    case pollPanics j w' =>
      refine ⟨fun w'' hw => ?_, by simp⟩
      simp only [Ev.poll.injEq] at hw
      obtain ⟨rfl, rfl⟩ := hw
      exact q2 _ rfl
    all_goals simp
  have hfm : (es1 ++ [PEv.call (.poll i w)]).filterMap PEv.calm =
      es1.filterMap PEv.calm ++ [.poll i w] := by simp [PEv.calm]
  rw [hfm] at k1
  have hlast : os1'.getLast? = some (.poll .pending) := by
    obtain ⟨os0, o0, p0, q1, q2, rfl⟩ := runE_snoc h1
    obtain ⟨os0', o0', m0, r1, r2, rfl⟩ := runs_snoc k1
    have hl : os0.length = es1.length := runE_length q1
    have hl' : os0'.length = es1.length := by
      have := k3 es1.length (.call (.poll i w)) o0 (by simp) (by rw [← hl]; simp)
      obtain ⟨o', q, -⟩ := this
      have hcl : (es1.filterMap PEv.calm).length = es1.length := by
        rw [hfm] at k2; simpa using k2
      have : ∀ (m m' : World α) (es : List (Ev α)) (os : List (Obs α)), m.runs es = some (os, m') →
          os.length = es.length := by
        intro m m' es
        induction es generalizing m with
        | nil => intro os h; simp only [World.runs, Option.some.injEq, Prod.mk.injEq] at h; simp [← h.1]
        | cons e es ih =>
          intro os h
          simp only [World.runs] at h
          cases hs : m.step e with
          | none => simp [hs] at h
          | some q =>
            obtain ⟨o1, m1⟩ := q
            simp only [hs] at h
            cases hr : m1.runs es with
            | none => simp [hr] at h
            | some q =>
              obtain ⟨os1, m2⟩ := q
              simp only [hr, Option.some.injEq, Prod.mk.injEq] at h
              obtain ⟨rfl, rfl⟩ := h
              simp [ih _ _ hr]
      rw [this _ _ _ _ r1, hcl]
    obtain ⟨o', q, q'⟩ := k3 es1.length (.call (.poll i w)) o0 (by simp) (by rw [← hl]; simp)
    rw [← hl', List.getElem?_concat_length] at q
    simp only [Option.some.injEq] at q
    subst q
    simp only [List.getLast?_concat, Option.some.injEq] at hpend ⊢
    rcases q' with q' | ⟨-, ⟨_, _, q'⟩ | q'⟩
    · rw [hpend] at q'; simpa using q'.symm
    · simp at q'
    · simp at q'
  exact C32_C33_woken a _ _ [] (.lockMut us) i w _ _ _ _ k1 hlast hruns
    (fun w' hm => (hmem _ hm).1 w' rfl) (fun hm => (hmem _ hm).2 rfl) (.inl (by simpa [Ev.notifies] using hus))

theorem callPoisoned_counts {p p' : PWorld α} {e : Ev α} {o : Outcome α} {n : Nat}
    (h : p.callPoisoned e = some (o, p')) (h1 : p.m.senders = n) (h2 : p.m.handles = n) :
    p'.m.senders = e.newHandles n ∧ p'.m.handles = e.newHandles n := by
  cases e <;> simp only [PWorld.callPoisoned] at h
  case drop =>
    split at h
    · simp at h
    · split at h <;> simp only [Option.some.injEq, Prod.mk.injEq] at h <;> obtain ⟨-, rfl⟩ := h <;>
        simp [Ev.newHandles, h1, h2]
  case clone =>
    split at h
    · simp at h
    · simp only [Option.some.injEq, Prod.mk.injEq] at h; obtain ⟨-, rfl⟩ := h
      simp [Ev.newHandles, World.clone, h1, h2]
  case poll i w =>
    split at h
    · split at h
      · simp only [Option.some.injEq, Prod.mk.injEq] at h; obtain ⟨-, rfl⟩ := h; exact ⟨h1, h2⟩
      · split at h <;> simp only [Option.some.injEq, Prod.mk.injEq] at h <;> obtain ⟨-, rfl⟩ := h <;>
          exact ⟨h1, h2⟩
    · simp at h
  case signal =>
    split at h <;> simp only [Option.some.injEq, Prod.mk.injEq] at h <;> obtain ⟨-, rfl⟩ := h
    · exact ⟨h1, h2⟩
    · constructor <;> simp only [World.signalState] <;> split <;> assumption
  case get =>
    simp only [Option.some.injEq, Prod.mk.injEq] at h; obtain ⟨-, rfl⟩ := h; exact ⟨h1, h2⟩
  case dropSignal i =>
    split at h
    · simp only [Option.some.injEq, Prod.mk.injEq] at h; obtain ⟨-, rfl⟩ := h; exact ⟨h1, h2⟩
    · simp at h
  all_goals
    split at h
    · simp at h
    · simp only [Option.some.injEq, Prod.mk.injEq] at h; obtain ⟨-, rfl⟩ := h; exact ⟨h1, h2⟩

/-- The counters in histories with panics: a `drop` that panics was counted. -/
theorem senders_eq {a : α} {es : List (PEv α)} {os : List (Outcome α)} {p : PWorld α}
    (h : (PWorld.new a).runs es = some (os, p)) :
    p.m.senders = handlesAfter 1 (es.filterMap PEv.calm) ∧
    p.m.handles = handlesAfter 1 (es.filterMap PEv.calm) := by
  have key := runE_inv (Inv := fun es (_ : List (Outcome α)) (p : PWorld α) =>
    (p.m.senders = handlesAfter 1 (es.filterMap PEv.calm) ∧
      p.m.handles = handlesAfter 1 (es.filterMap PEv.calm)) ∧
    (p.poisoned = false → ∃ os', (World.new a).runs (es.filterMap PEv.calm) = some (os', p.m)))
    (m := PWorld.new a) ⟨⟨rfl, rfl⟩, fun _ => ⟨[], rfl⟩⟩ ?_ h
  · exact key.1
  intro es os s e o s' hinv hs
  obtain ⟨⟨h1, h2⟩, h3⟩ := hinv
  have happ : ∀ (e' : Ev α) (n : Nat), handlesAfter n (es.filterMap PEv.calm ++ [e']) =
      e'.newHandles (handlesAfter n (es.filterMap PEv.calm)) := by simp [handlesAfter]
  cases hp : s.poisoned with
  | false =>
    obtain ⟨os', h3⟩ := h3 hp
    cases ht : e.tears with
    | false =>
      obtain ⟨k1, -, e', o', k2, k3, -⟩ := step_calm hp ht hs
      have hr : (World.new a).runs (es.filterMap PEv.calm ++ [e']) = some (os' ++ [o'], s'.m) :=
        runs_append_of h3 (by simp [World.runs, k3])
      have hfm : (es ++ [e]).filterMap PEv.calm = es.filterMap PEv.calm ++ [e'] := by simp [k2]
      rw [hfm]
      exact ⟨C33_senders a _ _ _ hr, fun _ => ⟨_, hr⟩⟩
    | true =>
      have hc : e.calm = none := by cases e <;> simp [PEv.tears] at ht <;> rfl
      have hfm : (es ++ [e]).filterMap PEv.calm = es.filterMap PEv.calm := by simp [hc]
      rw [hfm]
      refine ⟨?_, fun hq => by rw [(step_tears ht hs).1] at hq; simp at hq⟩
      unfold PWorld.step at hs
      split at hs
      · simp at hs
      · cases e <;> simp only [PEv.tears, Bool.false_eq_true] at ht <;>
          simp only [hp, Bool.false_eq_true, if_false] at hs <;> split at hs <;> try simp at hs
        case lockMutPanics.isFalse us hh =>
          obtain ⟨-, rfl⟩ := hs
          have hr : (World.new a).runs (es.filterMap PEv.calm ++ [.lockMut us]) =
              some (os' ++ [.unit], s.m.lockMut us) :=
            runs_append_of h3 (by simp [World.runs, World.step, hh])
          have := C33_senders a _ _ _ hr
          rw [happ] at this
          exact this
        all_goals
          obtain ⟨-, rfl⟩ := hs
          exact ⟨h1, h2⟩
  | true =>
    have hq := (step_poisoned hp hs).1
    refine ⟨?_, fun hq' => by rw [hq] at hq'; simp at hq'⟩
    have hfm : (es ++ [e]).filterMap PEv.calm = es.filterMap PEv.calm ++ e.calm.toList := by
      cases hc : e.calm <;> simp [hc]
    rw [hfm]
    unfold PWorld.step at hs
    split at hs
    · simp at hs
    · cases e <;> simp only [PWorld.call, hp, if_true, PEv.calm, Option.toList_some, Option.toList_none,
        List.append_nil] at hs ⊢
      case call e =>
        rw [happ]
        exact callPoisoned_counts hs h1 h2
      case pollPanics i w =>
        rw [happ]
        split at hs
        · split at hs
          · simp only [Option.some.injEq, Prod.mk.injEq] at hs
            obtain ⟨-, rfl⟩ := hs
            exact ⟨h1, h2⟩
          · exact callPoisoned_counts hs h1 h2
        · simp at hs
      case getPanics =>
        rw [happ]
        simp only [Option.some.injEq, Prod.mk.injEq] at hs
        obtain ⟨-, rfl⟩ := hs
        exact ⟨h1, h2⟩
      case dropUnwinding =>
        rw [happ]
        cases hc : s.callPoisoned .drop with
        | none => simp [hc] at hs
        | some q =>
          obtain ⟨o1, p1⟩ := q
          have := callPoisoned_counts hc h1 h2
          cases o1 <;> simp only [hc, Option.some.injEq, Prod.mk.injEq] at hs <;>
            obtain ⟨-, rfl⟩ := hs <;> exact this
      all_goals
        split at hs
        · simp at hs
        · simp only [Option.some.injEq, Prod.mk.injEq] at hs
          obtain ⟨-, rfl⟩ := hs
          exact ⟨h1, h2⟩

/-- **C72**, the end is not lost for those who ask: once user code panicked while the lock was held
for writing and all handles are gone, a poll of a signal reports the end, at the latest the second
one. -/
theorem C72_end_partial (a : α) (es : List (PEv α)) (i : Nat) (w w' : Waker)
    (os : List (Outcome α)) (p : PWorld α)
    (h : (PWorld.new a).runs (es ++ [.call (.poll i w), .call (.poll i w')]) = some (os, p))
    (ht : ∃ x ∈ es, x.tears = true) (hh : handlesAfter 1 (es.filterMap PEv.calm) = 0) :
    os.getLast? = some (.done (.poll (.ready none))) := by
  have e1 : es ++ [.call (.poll i w), .call (.poll i w')] =
      (es ++ [.call (.poll i w)]) ++ [.call (.poll i w')] := by simp
  rw [e1] at h
  obtain ⟨os2, o2, p2, h2, g2, rfl⟩ := runE_snoc h
  obtain ⟨os1, o1, p1, h1, g1, rfl⟩ := runE_snoc h2
  have hp1 := (poisoned_iff h1).2 ht
  have hp2 := (step_poisoned hp1 g1).1
  have hs2 : p2.m.senders = 0 := by
    have := (senders_eq h2).1
    simp only [List.filterMap_append, List.filterMap_cons, PEv.calm, List.filterMap_nil, handlesAfter,
      List.foldl_append, List.foldl_cons, List.foldl_nil, Ev.newHandles] at this
    rw [this]; exact hh
  have hs1 : p1.m.senders = 0 := by rw [(senders_eq h1).1, hh]
  have hc : ((p2.m.cell i).isChanged).1 = false := by
    unfold PWorld.step at g1
    split at g1
    · simp at g1
    · simp only [PWorld.call, hp1, if_true, PWorld.callPoisoned, hs1] at g1
      split at g1
      · split at g1 <;> simp only [Option.some.injEq, Prod.mk.injEq] at g1 <;> obtain ⟨-, rfl⟩ := g1 <;>
          rename_i c hcc <;> simp only [ChangedWaker.isChanged, Prod.mk.injEq] at hcc <;>
          obtain ⟨-, rfl⟩ := hcc <;> simp [World.setCell, ChangedWaker.isChanged]
      · simp at g1
  simp only [List.getLast?_concat, Option.some.injEq]
  unfold PWorld.step at g2
  split at g2
  · simp at g2
  · simp only [PWorld.call, hp2, if_true, PWorld.callPoisoned, hs2] at g2
    split at g2
    · split at g2
      · rename_i c hcc; rw [hcc] at hc; simp at hc
      · simp only [Option.some.injEq, Prod.mk.injEq] at g2; exact g2.1.symm
    · simp at g2

/-- **C72**, nobody is woken any more: after user code panicked while the lock was held for writing
nothing wakes any waker. -/
theorem C72_never_woken (a : α) (es1 es2 : List (PEv α)) (os1 os2 : List (Outcome α))
    (p1 p2 : PWorld α) (h1 : (PWorld.new a).runs es1 = some (os1, p1))
    (ht : ∃ x ∈ es1, x.tears = true) (h2 : p1.runs es2 = some (os2, p2)) :
    p2.m.woken = p1.m.woken := by
  have hp := (poisoned_iff h1).2 ht
  exact (runE_inv (Inv := fun _ (_ : List (Outcome α)) (p : PWorld α) =>
    p.poisoned = true ∧ p.m.woken = p1.m.woken) (m := p1) ⟨hp, rfl⟩
    (fun es os s e o s' hinv hs => by
      obtain ⟨k1, k2, -⟩ := step_poisoned hinv.1 hs
      exact ⟨k1, by rw [k2, hinv.2]⟩) h2).2

/-- A signal that waits with waker 7; then the callback of `replace_with` panics after it changed its
argument, and the last handle is dropped, which panics as well. -/
def demoTorn : List (PEv Nat) :=
  [.call .signal, .call (.poll 0 5), .call (.poll 0 7), .replaceWithPanics (· + 1), .call .drop]

/-- The claim "a signal that waits is woken at the end" is FALSE: all handles are gone, the signal
waits with waker 7, nobody was woken, and (`C72_never_woken`) nobody ever will be; a poll would report
the end. -/
theorem C72_end_lost : ∃ os p, (PWorld.new 1).runs demoTorn = some (os, p) ∧
    os = [.done .unit, .done (.poll (.ready (some 1))), .done (.poll .pending), .panicked, .panicked] ∧
    p.m.woken = [] ∧ handlesAfter 1 (demoTorn.filterMap PEv.calm) = 0 ∧
    (∀ es2 os2 p2, p.runs es2 = some (os2, p2) → p2.m.woken = []) ∧
    ∃ p', p.step (.call (.poll 0 8)) = some (.done (.poll (.ready none)), p') := by
  refine ⟨_, _, rfl, rfl, rfl, rfl, ?_, _, rfl⟩
  intro es2 os2 p2 h
  exact C72_never_woken 1 demoTorn es2 _ os2 _ p2 rfl ⟨.replaceWithPanics (· + 1), by simp [demoTorn], rfl⟩ h

/-- If the thread that panicked owns the last handle the process is aborted: the `unwrap` in the
`drop` panics during the unwinding. -/
theorem C72_aborts (a : α) (es : List (PEv α)) (os : List (Outcome α)) (p : PWorld α)
    (h : (PWorld.new a).runs (es ++ [.dropUnwinding]) = some (os, p))
    (ht : ∃ x ∈ es, x.tears = true) (hh : handlesAfter 1 (es.filterMap PEv.calm) = 1) :
    os.getLast? = some .aborted ∧ p.aborted = true := by
  obtain ⟨os1, o, p1, h1, h2, rfl⟩ := runE_snoc h
  have hp := (poisoned_iff h1).2 ht
  obtain ⟨k1, k2⟩ := senders_eq h1
  rw [hh] at k1 k2
  unfold PWorld.step at h2
  split at h2
  · simp at h2
  · simp only [PWorld.call, hp, if_true, PWorld.callPoisoned, k1, k2, Nat.one_ne_zero, if_false,
      Option.some.injEq, Prod.mk.injEq] at h2
    obtain ⟨rfl, rfl⟩ := h2
    simp

/-- The hypotheses of `C72_readers` are met by a history in which two readers panic; the signal whose
callback panicked does not see that value again. -/
example : ((PWorld.new 1).runs [.call .signal, .pollPanics 0 5, .getPanics, .call (.poll 0 7),
    .call (.set 2), .call (.poll 0 7)]).map (fun q => (q.1, q.2.m.woken)) =
    some ([.done .unit, .panicked, .panicked, .done (.poll .pending), .done .unit,
      .done (.poll (.ready (some 2)))], [7]) := by rfl

/-- The hypotheses of `C72_no_torn_value`, `C72_poisoned`, `C72_end_partial` and `C72_aborts` are
met. -/
example : ∃ os p, (PWorld.new 1).runs ([.call .signal, .getPanics, .call (.set 2)] ++
    [.call (.poll 0 5)]) = some (os, p) ∧ os.getLast? = some (.done (.poll (.ready (some 2)))) :=
  ⟨_, _, rfl, rfl⟩

example : ∃ os p, (PWorld.new 1).runs ([.call .signal, .call .clone, .setIfPanics 3, .call (.set 2),
    .call .drop, .call .drop] ++ [.call (.poll 0 5), .call (.poll 0 6)]) = some (os, p) ∧
    os = [.done .unit, .done .unit, .panicked, .panicked, .done .unit, .panicked, .panicked,
      .done (.poll (.ready none))] := ⟨_, _, rfl, rfl⟩

example : ∃ os p, (PWorld.new 1).runs ([.replaceWithPanics (· + 1)] ++ [.dropUnwinding]) =
    some (os, p) := ⟨_, _, rfl⟩

/-- The hypotheses of `C72_guard_wakes` are met. -/
example : ∃ os1 p1 os2 p2, (PWorld.new 1).runs ([.call .signal, .call (.poll 0 5)] ++
    [.call (.poll 0 7)]) = some (os1, p1) ∧ os1.getLast? = some (.done (.poll .pending)) ∧
    p1.runs ([.getPanics] ++ [.lockMutPanics [.derefMut (· + 1)]]) = some (os2, p2) ∧
    p2.m.woken = [7] := ⟨_, _, _, _, rfl, rfl, rfl, rfl⟩

/-- **C72**, for ever: once user code panicked while the lock was held for writing, a call through a handle that reads
or writes the value, or makes a signal, panics instead of waiting for the lock, and changes nothing. -/
theorem C72_unusable (a : α) (es : List (PEv α)) (os : List (Outcome α)) (p : PWorld α)
    (h : (PWorld.new a).runs es = some (os, p)) (ht : ∃ x ∈ es, x.tears = true) (hh : p.m.handles ≠ 0)
    (hn : p.aborted = false) (e : Ev α)
    (he : (∃ b, e = .set b) ∨ (∃ b, e = .replace b) ∨ (∃ f, e = .replaceWith f) ∨ (∃ b f, e = .setIf b f) ∨
      (∃ us, e = .lockMut us) ∨ e = .get ∨ e = .signal) : p.step (.call e) = some (.panicked, p) := by
  have hp := (poisoned_iff h).2 ht
  have hs : p.m.senders ≠ 0 := by rw [(senders_eq h).1, ← (senders_eq h).2]; exact hh
  rcases he with ⟨b, rfl⟩ | ⟨b, rfl⟩ | ⟨f, rfl⟩ | ⟨b, f, rfl⟩ | ⟨us, rfl⟩ | rfl | rfl <;>
    simp [PWorld.step, hn, PWorld.call, hp, PWorld.callPoisoned, hh, hs]

/-- The hypotheses are met, and the handle can still be cloned and dropped. -/
example : ∃ os p, (PWorld.new 1).runs [.call .clone, .replaceWithPanics (· + 1), .call (.replace 4),
      .call (.replaceWith fun n => (n, n)), .call (.lockMut []), .call .signal, .call .clone, .call .drop] = some (os, p) ∧
    os = [.done .unit, .panicked, .panicked, .panicked, .panicked, .panicked, .done .unit, .done .unit] ∧
    p.m.handles = 2 ∧ p.aborted = false := ⟨_, _, rfl, rfl, rfl, rfl⟩

example : (PWorld.new 1).step (.setIfPanics 4) ≠ none ∧
    ((PWorld.new 1).runs [.call .drop, .setIfPanics 4]).isNone = true := ⟨Option.some_ne_none _, rfl⟩

end Verif.MutPanic
