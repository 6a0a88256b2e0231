import Verif.MutableVecPanic
import Verif.Props.MutableVec

/-!
# Panics in the methods of a `MutableVec` (property C73)

`(PWorld.init vs).runs es = some (os, p)`: the history `es`, in which calls may panic, is possible and
its calls end as `os` says.  `received` and `Op.spec` are in `Verif/MutableVecSpec.lean`.
-/

namespace Verif.MutVecPanic

open MutVec

variable {α : Type}

/-- The calls that had an effect: those that did not panic, and what `extend` pushed before its
iterator, or the `clone` of an element, panicked. -/
def completed : List (PEv α) → List Outcome → List (Ev α)
  | .call e :: es, .done :: os => e :: completed es os
  | .extendPanics as :: es, .panicked :: os => .op (.extend as) :: completed es os
  | .extendClonePanics as _ _ :: es, .panicked :: os => .op (.extend as) :: completed es os
  | _ :: es, _ :: os => completed es os
  | _, _ => []

/-- The contents of a `MutableVec` after these calls, by the plain `Vec` operations. -/
def contents : List α → List (Ev α) → List α
  | l, [] => l
  | l, .op o :: es =>
    match o.spec l with
    | some (_, l') => contents l' es
    | none => contents l es
  | l, _ :: es => contents l es

/-- The `clone` of an element does not panic after the change was made. -/
def PEv.CloneOk : PEv α → Prop
  | .clonePanics _ k => k = 0
  | .extendClonePanics _ _ k => k = 0
  | _ => True

/-! ## Lemmas -/

theorem completed_snoc (es : List (PEv α)) (os : List Outcome) (e : PEv α) (o : Outcome)
    (h : os.length = es.length) :
    completed (es ++ [e]) (os ++ [o]) = completed es os ++ completed [e] [o] := by
  induction es generalizing os with
  | nil =>
    have : os = [] := List.eq_nil_of_length_eq_zero (by simpa using h)
    subst this; rfl
  | cons x es ih =>
    cases os with
    | nil => simp at h
    | cons y os =>
      have := ih os (by simpa using h)
      cases x <;> cases y <;> simp [completed, this]

theorem completed_append (es es' : List (PEv α)) (os os' : List Outcome)
    (h : os.length = es.length) :
    completed (es ++ es') (os ++ os') = completed es os ++ completed es' os' := by
  induction es generalizing os with
  | nil =>
    have : os = [] := List.eq_nil_of_length_eq_zero (by simpa using h)
    subst this; rfl
  | cons x es ih =>
    cases os with
    | nil => simp at h
    | cons y os =>
      have := ih os (by simpa using h)
      cases x <;> cases y <;> simp [completed, this]

/-- A call other than an operation has an effect only if it was made. -/
theorem mem_completed {e : Ev α} (he : ∀ o, e ≠ .op o) {es : List (PEv α)} {os : List Outcome}
    (h : e ∈ completed es os) : .call e ∈ es := by
  induction es generalizing os with
  | nil => simp [completed] at h
  | cons x es ih =>
    cases os with
    | nil => simp [completed] at h
    | cons y os =>
      cases x <;> cases y <;> simp only [completed, List.mem_cons] at h <;> try exact .tail _ (ih h)
      · rcases h with rfl | h
        · exact .head _
        · exact .tail _ (ih h)
      all_goals
        rcases h with rfl | h
        · exact absurd rfl (he _)
        · exact .tail _ (ih h)

theorem runs_append {w w1 : World α} {es es' : List (Ev α)} (h1 : w.runs es = some w1) :
    w.runs (es ++ es') = w1.runs es' := by
  induction es generalizing w with
  | nil =>
    simp only [World.runs, Option.some.injEq] at h1
    subst h1; rfl
  | cons x es ih =>
    simp only [List.cons_append, World.runs] at h1 ⊢
    cases hs : w.step x with
    | none => simp [hs] at h1
    | some w' => simp only [hs] at h1 ⊢; exact ih h1

theorem pruns_append {p p1 p2 : PWorld α} {es es' : List (PEv α)} {os os' : List Outcome}
    (h1 : p.runs es = some (os, p1)) (h2 : p1.runs es' = some (os', p2)) :
    p.runs (es ++ es') = some (os ++ os', p2) := by
  induction es generalizing p os with
  | nil => cases h1; exact h2
  | cons x es ih =>
    simp only [PWorld.runs, runE, List.cons_append] at h1 ⊢
    cases hs : p.step x with
    | none => simp [hs] at h1
    | some q =>
      simp only [hs] at h1 ⊢
      cases hr : runE PWorld.step q.2 es with
      | none => simp [hr] at h1
      | some r =>
        simp only [hr, Option.map_some, Option.some.injEq, Prod.mk.injEq] at h1
        obtain ⟨rfl, rfl⟩ := h1
        have := ih hr
        simp only [PWorld.runs] at this
        simp [this]

/-- What a poll answers depends on the channels only. -/
theorem pollRx_answer {w w' : World α} (h : w.chans = w'.chans) (id : Nat) (cx : Waker) :
    (w.pollRx id cx).1 = (w'.pollRx id cx).1 := by
  simp only [World.pollRx, h]
  cases w'.chans[id]? with
  | none => rfl
  | some c =>
    simp only
    cases c.queue with
    | nil => simp only; split <;> rfl
    | cons d ds => rfl

theorem dropSenders_values (ss : List Nat) (w : World α) (vs : List α) :
    dropSenders ss { w with values := vs } = { dropSenders ss w with values := vs } := by
  induction ss generalizing w with
  | nil => rfl
  | cons s ss ih =>
    have : World.dropTx { w with values := vs } s = { w.dropTx s with values := vs } := by
      unfold World.dropTx
      cases w.chans[s]? <;> rfl
    simp only [dropSenders, this, ih]

theorem dropHandle_values (w : World α) (vs : List α) :
    World.dropHandle { w with values := vs } = { w.dropHandle with values := vs } := by
  simp only [World.dropHandle]
  split
  · have := dropSenders_values w.senders { w with handles := w.handles - 1 } vs
    simp only at this
    rw [this]
  · rfl

theorem pollRx_values (w : World α) (vs : List α) (id : Nat) (cx : Waker) :
    (World.pollRx { w with values := vs } id cx).2 = { (w.pollRx id cx).2 with values := vs } := by
  simp only [World.pollRx]
  cases w.chans[id]? with
  | none => rfl
  | some c =>
    simp only
    cases c.queue with
    | nil => simp only; split <;> rfl
    | cons d ds => rfl

theorem dropRx_values (w : World α) (vs : List α) (id : Nat) :
    World.dropRx { w with values := vs } id = { w.dropRx id with values := vs } := by
  simp only [World.dropRx]
  cases w.chans[id]? <;> rfl

theorem runs_snoc {w w1 w2 : World α} {es : List (Ev α)} {e : Ev α} (h1 : w.runs es = some w1)
    (h2 : w1.step e = some w2) : w.runs (es ++ [e]) = some w2 := by
  induction es generalizing w with
  | nil =>
    simp only [World.runs, Option.some.injEq] at h1
    subst h1
    simp [World.runs, h2]
  | cons x es ih =>
    simp only [List.cons_append, World.runs] at h1 ⊢
    cases hs : w.step x with
    | none => simp [hs] at h1
    | some w' => simp only [hs] at h1 ⊢; exact ih h1

theorem contents_append (l : List α) (es es' : List (Ev α)) :
    contents l (es ++ es') = contents (contents l es) es' := by
  induction es generalizing l with
  | nil => rfl
  | cons e es ih =>
    cases e <;> simp only [List.cons_append, contents, ih]
    split <;> rfl

theorem dropSenders_vals (ss : List Nat) (w : World α) : (dropSenders ss w).values = w.values := by
  induction ss generalizing w with
  | nil => rfl
  | cons s ss ih =>
    simp only [dropSenders, ih, World.dropTx]
    cases w.chans[s]? <;> rfl

/-- What an event with an effect does to the contents. -/
theorem step_contents {w w' : World α} {e : Ev α} (h : w.step e = some w')
    (hh : ∀ o, e = .op o → w.handles ≠ 0) : w'.values = contents w.values [e] := by
  cases e with
  | op o =>
    have h0 := hh o rfl
    simp only [World.step, h0, if_false, Option.map_eq_some_iff] at h
    obtain ⟨⟨r, w1⟩, h1, rfl⟩ := h
    have := C02_ops w o
    rw [h1] at this
    simp only [Option.map_some] at this
    simp [contents, ← this]
  | subscribe =>
    simp only [World.step] at h
    split at h <;> simp only [Option.some.injEq] at h <;> subst h <;> rfl
  | poll id cx =>
    simp only [World.step] at h
    split at h <;> simp only [Option.some.injEq] at h <;> subst h
    · simp only [World.pollRx, contents]
      cases w.chans[id]? with
      | none => rfl
      | some c =>
        simp only
        cases c.queue with
        | nil => simp only; split <;> rfl
        | cons d ds => rfl
    · rfl
  | dropRx id =>
    simp only [World.step] at h
    split at h <;> simp only [Option.some.injEq] at h <;> subst h
    · simp only [World.dropRx, contents]
      cases w.chans[id]? <;> rfl
    · rfl
  | cloneHandle =>
    simp only [World.step] at h
    split at h <;> simp only [Option.some.injEq] at h <;> subst h <;> rfl
  | dropHandle =>
    simp only [World.step] at h
    split at h <;> simp only [Option.some.injEq] at h <;> subst h
    · rfl
    · simp only [World.dropHandle, contents]
      split
      · simp [dropSenders_vals]
      · rfl

/-- The lock stays poisoned, and a panic poisons it. -/
theorem step_poison {p p' : PWorld α} {e : PEv α} {o : Outcome} (h : p.step e = some (o, p')) :
    (p.poisoned = true → p'.poisoned = true) ∧ (o = .panicked → p'.poisoned = true) := by
  cases e with
  | call e =>
    cases e <;> simp only [PWorld.step] at h
    case op op =>
      split at h
      · simp at h
      · split at h
        · simp only [Option.some.injEq, Prod.mk.injEq] at h; obtain ⟨rfl, rfl⟩ := h; simp
        · rename_i hp
          split at h <;> simp only [Option.some.injEq, Prod.mk.injEq] at h <;> obtain ⟨rfl, rfl⟩ := h <;>
            simp [hp]
    case subscribe =>
      split at h
      · simp at h
      · split at h <;> simp only [Option.some.injEq, Prod.mk.injEq] at h <;> obtain ⟨rfl, rfl⟩ := h <;>
          simp
    all_goals
      split at h <;> simp only [Option.some.injEq, Prod.mk.injEq, reduceCtorEq] at h <;>
        obtain ⟨rfl, rfl⟩ := h <;> simp
  | retainPanics f n =>
    simp only [PWorld.step] at h
    split at h
    · simp at h
    · split at h
      · simp only [Option.some.injEq, Prod.mk.injEq] at h; obtain ⟨rfl, rfl⟩ := h; simp
      · split at h <;> simp only [Option.some.injEq, Prod.mk.injEq, reduceCtorEq] at h
        obtain ⟨rfl, rfl⟩ := h; simp
  | guardPanics =>
    simp only [PWorld.step] at h
    split at h
    · simp at h
    · split at h <;> simp only [Option.some.injEq, Prod.mk.injEq] at h <;> obtain ⟨rfl, rfl⟩ := h <;> simp
  | extendPanics as =>
    simp only [PWorld.step] at h
    split at h
    · simp at h
    · split at h
      · simp only [Option.some.injEq, Prod.mk.injEq] at h; obtain ⟨rfl, rfl⟩ := h; simp
      · split at h <;> simp only [Option.some.injEq, Prod.mk.injEq, reduceCtorEq] at h
        obtain ⟨rfl, rfl⟩ := h; simp
  | clonePanics op k =>
    simp only [PWorld.step] at h
    split at h
    · simp at h
    · split at h
      · simp only [Option.some.injEq, Prod.mk.injEq] at h; obtain ⟨rfl, rfl⟩ := h; simp
      · split at h <;> simp only [Option.some.injEq, Prod.mk.injEq, reduceCtorEq] at h
        obtain ⟨rfl, rfl⟩ := h; simp
  | extendClonePanics as a k =>
    simp only [PWorld.step] at h
    split at h
    · simp at h
    · split at h
      · simp only [Option.some.injEq, Prod.mk.injEq] at h; obtain ⟨rfl, rfl⟩ := h; simp
      · split at h
        · simp at h
        · split at h <;> simp only [Option.some.injEq, Prod.mk.injEq, reduceCtorEq] at h
          obtain ⟨rfl, rfl⟩ := h; simp
  | subscribePanics =>
    simp only [PWorld.step] at h
    split at h
    · simp at h
    · split at h
      · simp only [Option.some.injEq, Prod.mk.injEq] at h; obtain ⟨rfl, rfl⟩ := h; simp
      · split at h <;> simp only [Option.some.injEq, Prod.mk.injEq, reduceCtorEq] at h
        obtain ⟨rfl, rfl⟩ := h; simp

/-- The first `clone` of a method comes before it changes anything. -/
theorem clonePanics_zero {w w' : World α} {o : Op α} (h : clonePanics w o 0 = some w') : w' = w := by
  have key : ∀ {β : Type} (v : β) (change : World α → β → Option (World α)) (mk : β → VecDiff α),
      notifyWithPanics w v change mk 0 = some w' → w' = w := by
    intro β v change mk h
    simp only [notifyWithPanics] at h
    split at h
    · simp at h
    · simpa using h.symm
  have hpush : ∀ a, pushClonePanics w a 0 = some w' → w' = w := fun a h => key _ _ _ h
  have hset : ∀ i a, setClonePanics w i a 0 = some w' → w' = w := fun i a h => key _ _ _ h
  have hrep : ∀ vs, replaceClonePanics w vs 0 = some w' → w' = w := fun vs h => key _ _ _ h
  have hins : ∀ i a, insertClonePanics w i a 0 = some w' → w' = w := by
    intro i a h
    simp only [insertClonePanics] at h
    split at h
    · exact hpush a h
    · exact key _ _ _ h
  cases o with
  | pushCloned a => exact hpush a h
  | insertCloned i a => exact hins i a h
  | setCloned i a => exact hset i a h
  | replaceCloned vs => exact hrep vs h
  | applyVecDiff d =>
    cases d with
    | push a => exact hpush a h
    | insertAt i a => exact hins i a h
    | updateAt i a => exact hset i a h
    | replace vs => exact hrep vs h
    | _ => simp [clonePanics] at h
  | _ => simp [clonePanics] at h

/-! ## Theorems -/

/-- **C73**: in every history the subscribers, the handles and the wakers are as in the history of
the calls that had an effect, and so are the contents as long as nothing panicked. -/
theorem C73_as_if_partial (vs : List α) (es : List (PEv α)) (os : List Outcome) (p : PWorld α)
    (h : (PWorld.init vs).runs es = some (os, p)) (hc : ∀ e ∈ es, e.CloneOk) :
    ∃ w, (World.init vs).runs (completed es os) = some w ∧
      w.values = contents vs (completed es os) ∧ p.w.chans = w.chans ∧
      p.w.senders = w.senders ∧ p.w.handles = w.handles ∧ p.w.woken = w.woken ∧
      (p.poisoned = false → p.w = w) := by
  have key := runE_inv (Inv := fun (es : List (PEv α)) (os : List Outcome) (p : PWorld α) =>
    (∀ e ∈ es, e.CloneOk) → os.length = es.length ∧
    ∃ w vs', (World.init vs).runs (completed es os) = some w ∧
      w.values = contents vs (completed es os) ∧ p.w = { w with values := vs' } ∧
      (p.poisoned = false → p.w = w)) (m := PWorld.init vs)
    (fun _ => ⟨rfl, World.init vs, vs, rfl, rfl, rfl, fun _ => rfl⟩) ?_ h hc
  · obtain ⟨-, w, vs', h1, h0, h2, h3⟩ := key
    exact ⟨w, h1, h0, by rw [h2], by rw [h2], by rw [h2], by rw [h2], h3⟩
  · intro es os s e o s' hinv hs hc
    obtain ⟨hl, w, vs', h1, h0, h2, h3⟩ := hinv fun x hx => hc x (by simp [hx])
    refine ⟨by simp [hl], ?_⟩
    rw [completed_snoc _ _ _ _ hl]
    have hhandles : s.w.handles = w.handles := by rw [h2]
    have hlive : ∀ id, s.w.rxLive id = w.rxLive id := by intro id; rw [h2]; rfl
    -- nothing happened
    have stay : completed [e] [o] = [] → ∀ vs'', s'.w = { s.w with values := vs'' } →
        (s'.poisoned = false → s' = s) →
        ∃ w vs', (World.init vs).runs (completed es os ++ completed [e] [o]) = some w ∧
          w.values = contents vs (completed es os ++ completed [e] [o]) ∧
          s'.w = { w with values := vs' } ∧ (s'.poisoned = false → s'.w = w) := by
      intro he vs'' hw hp
      rw [he, List.append_nil]
      refine ⟨w, vs'', h1, h0, by rw [hw, h2], fun hq => ?_⟩
      have := hp hq
      subst this
      exact h3 hq
    -- an event that does not depend on the contents
    have go : ∀ e', completed [e] [o] = [e'] → (∀ o, e' = .op o → w.handles ≠ 0) →
        ∀ w', w.step e' = some w' → ∀ vs'',
        s'.w = { w' with values := vs'' } → (s'.poisoned = false → s'.w = w') →
        ∃ w vs', (World.init vs).runs (completed es os ++ completed [e] [o]) = some w ∧
          w.values = contents vs (completed es os ++ completed [e] [o]) ∧
          s'.w = { w with values := vs' } ∧ (s'.poisoned = false → s'.w = w) := by
      intro e' he ho w' hw vs'' hv hp
      rw [he]
      exact ⟨w', vs'', runs_snoc h1 hw, by rw [contents_append, ← h0, step_contents hw ho], hv, hp⟩
    cases e with
    | call e =>
      cases e with
      | op op =>
        simp only [PWorld.step] at hs
        split at hs
        · simp at hs
        · rename_i hh
          split at hs
          · simp only [Option.some.injEq, Prod.mk.injEq] at hs
            obtain ⟨rfl, rfl⟩ := hs
            exact stay rfl s.w.values rfl fun _ => rfl
          · rename_i hp
            have hw := h3 (by simpa using hp)
            rw [hw] at hs hh
            cases hx : w.exec op with
            | none =>
              simp only [hx, Option.some.injEq, Prod.mk.injEq] at hs
              obtain ⟨rfl, rfl⟩ := hs
              exact stay rfl (torn w.values op) (by rw [hw]) (by simp)
            | some q =>
              obtain ⟨r, w'⟩ := q
              simp only [hx, Option.some.injEq, Prod.mk.injEq] at hs
              obtain ⟨rfl, rfl⟩ := hs
              exact go (.op op) rfl (fun _ _ => hh) w' (by simp [World.step, hh, hx]) w'.values rfl fun _ => rfl
      | subscribe =>
        simp only [PWorld.step] at hs
        split at hs
        · simp at hs
        · rename_i hh
          split at hs
          · simp only [Option.some.injEq, Prod.mk.injEq] at hs
            obtain ⟨rfl, rfl⟩ := hs
            exact stay rfl s.w.values rfl fun _ => rfl
          · rename_i hp
            have hw := h3 (by simpa using hp)
            rw [hw] at hs hh
            simp only [Option.some.injEq, Prod.mk.injEq] at hs
            obtain ⟨rfl, rfl⟩ := hs
            exact go .subscribe rfl (by simp) w.signalVec (by simp [World.step, hh]) w.signalVec.values rfl
              fun _ => rfl
      | poll id cx =>
        simp only [PWorld.step] at hs
        split at hs
        · rename_i hh
          simp only [Option.some.injEq, Prod.mk.injEq] at hs
          obtain ⟨rfl, rfl⟩ := hs
          rw [hlive] at hh
          refine go (.poll id cx) rfl (by simp) (w.pollRx id cx).2 (by simp [World.step, hh]) vs' ?_ ?_
          · simp only [h2, pollRx_values]
          · intro hq
            simp only at hq
            simp only [h3 hq]
        · simp at hs
      | dropRx id =>
        simp only [PWorld.step] at hs
        split at hs
        · rename_i hh
          simp only [Option.some.injEq, Prod.mk.injEq] at hs
          obtain ⟨rfl, rfl⟩ := hs
          rw [hlive] at hh
          refine go (.dropRx id) rfl (by simp) (w.dropRx id) (by simp [World.step, hh]) vs' ?_ ?_
          · simp only [h2, dropRx_values]
          · intro hq
            simp only at hq
            simp only [h3 hq]
        · simp at hs
      | cloneHandle =>
        simp only [PWorld.step] at hs
        split at hs
        · simp at hs
        · rename_i hh
          simp only [Option.some.injEq, Prod.mk.injEq] at hs
          obtain ⟨rfl, rfl⟩ := hs
          rw [hhandles] at hh
          refine go .cloneHandle rfl (by simp) { w with handles := w.handles + 1 } (by simp [World.step, hh])
            vs' ?_ ?_
          · simp only [h2]
          · intro hq
            simp only at hq
            simp only [h3 hq]
      | dropHandle =>
        simp only [PWorld.step] at hs
        split at hs
        · simp at hs
        · rename_i hh
          simp only [Option.some.injEq, Prod.mk.injEq] at hs
          obtain ⟨rfl, rfl⟩ := hs
          rw [hhandles] at hh
          refine go .dropHandle rfl (by simp) w.dropHandle (by simp [World.step, hh]) vs' ?_ ?_
          · simp only [h2, dropHandle_values]
          · intro hq
            simp only at hq
            simp only [h3 hq]
    | retainPanics f n =>
      simp only [PWorld.step] at hs
      split at hs
      · simp at hs
      · split at hs
        · simp only [Option.some.injEq, Prod.mk.injEq] at hs
          obtain ⟨rfl, rfl⟩ := hs
          exact stay rfl s.w.values rfl fun _ => rfl
        · split at hs
          · simp only [Option.some.injEq, Prod.mk.injEq] at hs
            obtain ⟨rfl, rfl⟩ := hs
            exact stay rfl _ rfl (by simp)
          · simp at hs
    | extendPanics as =>
      simp only [PWorld.step] at hs
      split at hs
      · simp at hs
      · rename_i hh
        split at hs
        · simp only [Option.some.injEq, Prod.mk.injEq] at hs
          obtain ⟨rfl, rfl⟩ := hs
          exact stay rfl s.w.values rfl fun _ => rfl
        · rename_i hp
          have hw := h3 (by simpa using hp)
          rw [hw] at hs hh
          cases hx : w.extend as with
          | none => simp [hx] at hs
          | some w' =>
            simp only [hx, Option.some.injEq, Prod.mk.injEq] at hs
            obtain ⟨rfl, rfl⟩ := hs
            exact go (.op (.extend as)) rfl (fun _ _ => hh) w' (by simp [World.step, hh, World.exec, hx]) w'.values rfl
              fun _ => rfl
    | guardPanics =>
      simp only [PWorld.step] at hs
      split at hs
      · simp at hs
      · split at hs <;> simp only [Option.some.injEq, Prod.mk.injEq] at hs <;> obtain ⟨rfl, rfl⟩ := hs
        · exact stay rfl s.w.values rfl fun _ => rfl
        · exact stay rfl s.w.values rfl (by simp)
    | clonePanics op k =>
      have hk : k = 0 := hc (.clonePanics op k) (by simp)
      subst hk
      simp only [PWorld.step] at hs
      split at hs
      · simp at hs
      · split at hs
        · simp only [Option.some.injEq, Prod.mk.injEq] at hs
          obtain ⟨rfl, rfl⟩ := hs
          exact stay rfl s.w.values rfl fun _ => rfl
        · split at hs
          · rename_i w'' hw''
            obtain rfl := clonePanics_zero hw''
            simp only [Option.some.injEq, Prod.mk.injEq] at hs
            obtain ⟨rfl, rfl⟩ := hs
            exact stay rfl s.w.values rfl (by simp)
          · simp at hs
    | extendClonePanics as a k =>
      have hk : k = 0 := hc (.extendClonePanics as a k) (by simp)
      subst hk
      simp only [PWorld.step] at hs
      split at hs
      · simp at hs
      · rename_i hh
        split at hs
        · simp only [Option.some.injEq, Prod.mk.injEq] at hs
          obtain ⟨rfl, rfl⟩ := hs
          exact stay rfl s.w.values rfl fun _ => rfl
        · rename_i hp
          have hw := h3 (by simpa using hp)
          rw [hw] at hs hh
          cases hx : w.extend as with
          | none => simp [hx] at hs
          | some w' =>
            simp only [hx] at hs
            split at hs
            · rename_i w'' hw''
              obtain rfl := clonePanics_zero (o := .pushCloned a) hw''
              simp only [Option.some.injEq, Prod.mk.injEq] at hs
              obtain ⟨rfl, rfl⟩ := hs
              exact go (.op (.extend as)) rfl (fun _ _ => hh) w''
                (by simp [World.step, hh, World.exec, hx]) w''.values rfl fun _ => rfl
            · simp at hs
    | subscribePanics =>
      simp only [PWorld.step] at hs
      split at hs
      · simp at hs
      · split at hs
        · simp only [Option.some.injEq, Prod.mk.injEq] at hs
          obtain ⟨rfl, rfl⟩ := hs
          exact stay rfl s.w.values rfl fun _ => rfl
        · split at hs
          · simp only [Option.some.injEq, Prod.mk.injEq] at hs
            obtain ⟨rfl, rfl⟩ := hs
            exact stay rfl s.w.values rfl (by simp)
          · simp at hs

/-- **C73**, no partial change is ever shown: whatever panicked, the diffs a subscriber received, with
those still queued for it if it is live, rebuild the contents that the calls with an effect make. -/
theorem C73_mirror_partial (vs : List α) (es : List (PEv α)) (os : List Outcome) (p : PWorld α)
    (h : (PWorld.init vs).runs es = some (os, p)) (hc : ∀ e ∈ es, e.CloneOk) (id : Nat) (c : Chan α)
    (hi : p.w.chans[id]? = some c) :
    (∃ ys, replay (received id (World.init vs) (completed es os)) [] = some ys) ∧
    (c.rxAlive = true → replay (received id (World.init vs) (completed es os) ++ c.queue) [] =
      some (contents vs (completed es os))) := by
  obtain ⟨w, h1, h2, h3, -⟩ := C73_as_if_partial vs es os p h hc
  rw [h3] at hi
  have := C01_mirror vs _ w h1 id c hi
  rw [← h2]
  exact this

/-- **C73**, the end is still reported: whatever panicked, a live subscriber's poll answers the end iff
all handles are gone and nothing is queued for it, and `Pending` iff a handle lives and nothing is
queued. -/
theorem C73_poll_partial (vs : List α) (es : List (PEv α)) (os : List Outcome) (p : PWorld α)
    (h : (PWorld.init vs).runs es = some (os, p)) (hc : ∀ e ∈ es, e.CloneOk) (id : Nat) (c : Chan α)
    (hi : p.w.chans[id]? = some c) (hl : c.rxAlive = true) (cx : Waker) :
    ((p.w.pollRx id cx).1 = .ready none ↔ p.w.handles = 0 ∧ c.queue = []) ∧
    ((p.w.pollRx id cx).1 = .pending ↔ p.w.handles ≠ 0 ∧ c.queue = []) := by
  obtain ⟨w, h1, h2, h3, h4, h5, -⟩ := C73_as_if_partial vs es os p h hc
  have hi' := hi
  rw [h3] at hi'
  have := C05_poll vs _ w h1 id c hi' hl cx
  rw [pollRx_answer h3, h5]
  exact ⟨this.1, this.2.1⟩

/-- **C73**, no wake-up is lost: whatever panicked, if a subscriber's poll with waker `x` answered
`Pending` and it was neither polled nor dropped since, then `x` was woken since, or a new poll would
still answer `Pending`. -/
theorem C73_wake_partial (vs : List α) (es es' : List (PEv α)) (os os' : List Outcome) (p p' : PWorld α)
    (h : (PWorld.init vs).runs es = some (os, p)) (k : Nat) (x cx : Waker)
    (hl : p.w.rxLive k = true) (hpend : (p.w.pollRx k x).1 = .pending)
    (h' : p.runs (.call (.poll k x) :: es') = some (os', p'))
    (hc : ∀ e ∈ es ++ es', e.CloneOk)
    (hp : ∀ cx, .call (.poll k cx) ∉ es') (hd : .call (.dropRx k) ∉ es') :
    ∃ new, p'.w.woken = p.w.woken ++ new ∧ (x ∈ new ∨ (p'.w.pollRx k cx).1 = .pending) := by
  obtain ⟨w, h1, -, h3, -, -, h6, -⟩ :=
    C73_as_if_partial vs es os p h fun e he => hc e (List.mem_append_left _ he)
  have hlw : w.rxLive k = true := by simpa [World.rxLive, h3] using hl
  have hlen : os.length = es.length := runE_length h
  obtain ⟨os2, rfl⟩ : ∃ os2, os' = .done :: os2 := by
    simp only [PWorld.runs, runE, PWorld.step, hl, if_true] at h'
    cases hr : runE PWorld.step { p with w := (p.w.pollRx k x).2 } es' with
    | none => simp [hr] at h'
    | some r =>
      simp only [hr, Option.map_some, Option.some.injEq, Prod.mk.injEq] at h'
      exact ⟨_, h'.1.symm⟩
  obtain ⟨w', g1, -, g3, -, -, g6, -⟩ :=
    C73_as_if_partial vs _ _ p' (pruns_append h h') (by
      intro e he
      simp only [List.mem_append, List.mem_cons] at he
      rcases he with he | rfl | he
      · exact hc e (List.mem_append_left _ he)
      · trivial
      · exact hc e (List.mem_append_right _ he))
  rw [completed_append _ _ _ _ hlen, runs_append h1] at g1
  simp only [completed, World.runs, World.step, hlw, if_true] at g1
  have := C05_wake vs _ _ w w' h1 k hlw x cx (by rw [← pollRx_answer h3]; exact hpend) g1
    (fun cx hm => hp cx (mem_completed (by simp) hm)) (fun hm => hd (mem_completed (by simp) hm))
  rw [← h6, ← g6, ← pollRx_answer g3] at this
  exact this

/-- **C73**, a partial change stays hidden: once something panicked with the lock held, every later
method and subscription panics. -/
theorem C73_poisoned (vs : List α) (es : List (PEv α)) (e : PEv α) (os : List Outcome) (o : Outcome)
    (p : PWorld α) (h : (PWorld.init vs).runs (es ++ [e]) = some (os ++ [o], p))
    (hb : .panicked ∈ os)
    (he : (∃ op, e = .call (.op op)) ∨ e = .call .subscribe) : o = .poisoned := by
  obtain ⟨os1, o1, p1, h1, h2, h3⟩ := runE_snoc h
  obtain ⟨rfl, h4⟩ := List.append_inj' h3 rfl
  obtain ⟨rfl⟩ := h4
  have hp : p1.poisoned = true := by
    refine runE_inv (Inv := fun (_ : List (PEv α)) (os : List Outcome) (p : PWorld α) =>
      .panicked ∈ os → p.poisoned = true) (m := PWorld.init vs) (by simp) ?_ h1 hb
    intro es os s e o s' hinv hs hm
    have := step_poison hs
    rcases List.mem_append.1 hm with hm | hm
    · exact this.1 (hinv hm)
    · exact this.2 (List.mem_singleton.1 hm).symm
  rcases he with ⟨op, rfl⟩ | rfl <;> simp only [PWorld.step, hp, if_true] at h2 <;> split at h2 <;>
    simp only [Option.some.injEq, Prod.mk.injEq, reduceCtorEq] at h2 <;> exact h2.1.symm

/-- Two subscribers that have nothing queued; then `clone` panics between the two sends of
`push_cloned`. -/
def demoClone : List (PEv Nat) :=
  [.call .subscribe, .call .subscribe, .call .subscribe, .clonePanics (.pushCloned 5) 2,
    .call (.poll 0 7), .call (.poll 1 7)]

/-- The restriction to a `clone` that does not panic after the change is needed: the subscribers
disagree for ever, because the lock is poisoned. -/
theorem C73_clone_panics : ∃ os p, (PWorld.init []).runs demoClone = some (os, p) ∧
    p.poisoned = true ∧ p.w.chans.map (·.delivered) = [[.push 5], [], []] ∧
    p.w.chans.map (·.queue) = [[], [], []] := ⟨_, _, rfl, rfl, rfl, rfl⟩

/-- The hypotheses of the theorems above are met: an out of range `move_from_to` takes an element out
of the contents and panics; the subscriber still shows all of them, and ends when the handle is
dropped. -/
example : ∃ os p, (PWorld.init [1, 2, 3]).runs [.call .subscribe, .call (.op (.push 4)),
    .call (.op (.moveFromTo 0 4)), .call (.op (.push 5)), .call (.poll 0 7), .call (.poll 0 7),
    .call (.poll 0 8), .call .dropHandle, .call (.poll 0 9)] = some (os, p) ∧
    os = [.done, .done, .panicked, .poisoned, .done, .done, .done, .done, .done] ∧
    p.w.values = [2, 3, 4] ∧ p.w.woken = [8] ∧
    p.w.chans.map (·.delivered) = [[.replace [1, 2, 3], .push 4]] := ⟨_, _, rfl, rfl, rfl, rfl, rfl⟩

/-- **C73**, for ever: once something panicked with the lock held, a method or subscription through a handle panics
instead of waiting for the lock, and changes nothing. -/
theorem C73_unusable (vs : List α) (es : List (PEv α)) (os : List Outcome) (p : PWorld α)
    (h : (PWorld.init vs).runs es = some (os, p)) (hb : .panicked ∈ os) (hh : p.w.handles ≠ 0) (e : PEv α)
    (he : (∃ op, e = .call (.op op)) ∨ e = .call .subscribe) : p.step e = some (.poisoned, p) := by
  have hp : p.poisoned = true := by
    refine runE_inv (Inv := fun (_ : List (PEv α)) (os : List Outcome) (p : PWorld α) =>
      .panicked ∈ os → p.poisoned = true) (m := PWorld.init vs) (by simp) ?_ h hb
    intro es os s e o s' hinv hs hm
    have := step_poison hs
    rcases List.mem_append.1 hm with hm | hm
    · exact this.1 (hinv hm)
    · exact this.2 (List.mem_singleton.1 hm).symm
  rcases he with ⟨op, rfl⟩ | rfl <;> simp [PWorld.step, hp, hh]

/-- What user code that panics leaves: `retain` keeps what its closure has not seen, `extend` what was pushed,
`signal_vec_cloned` everything. -/
example : ((PWorld.init [1, 2, 3]).runs [.call .subscribe, .retainPanics (fun n => n != 1) 2]).map
      (fun q => (q.1, q.2.w.values, q.2.w.chans.map (·.queue))) =
    some ([.done, .panicked], [2, 3], [[.replace [1, 2, 3]]]) := rfl

example : ((PWorld.init [1]).runs [.call .subscribe, .extendPanics [5, 6], .call (.op .clear)]).map
      (fun q => (q.1, q.2.w.values, q.2.w.chans.map (·.queue))) =
    some ([.done, .panicked, .poisoned], [1, 5, 6], [[.replace [1], .push 5, .push 6]]) := rfl

example : ((PWorld.init [1]).runs [.subscribePanics, .call .subscribe]).map
      (fun q => (q.1, q.2.w.values, q.2.w.chans.length)) = some ([.panicked, .poisoned], [1], 0) := rfl

example : ((PWorld.init [1]).runs [.call .subscribe, .call .subscribe, .clonePanics (.insertCloned 0 9) 1,
      .call (.poll 0 4)]).map (fun q => (q.1, q.2.w.values, q.2.w.chans.map (·.queue))) =
    some ([.done, .done, .panicked, .done], [9, 1], [[], [.replace [1]]]) := rfl

example : ((PWorld.init [1]).runs [.call .subscribe, .clonePanics (.insertCloned 0 9) 0, .guardPanics]).map
      (fun q => (q.1, q.2.w.values, q.2.w.chans.map (·.queue))) =
    some ([.done, .panicked, .poisoned], [1], [[.replace [1]]]) := rfl

example : ((PWorld.init [1, 2]).runs [.call (.op (.applyVecDiff (.move 0 2)))]).map (fun q => (q.1, q.2.w.values)) =
    some ([.panicked], [2]) := rfl

/-- These cannot happen: nothing is called that could panic. -/
example : (PWorld.init [1, 2]).step (.retainPanics (fun _ => true) 2) = none ∧
    (PWorld.init ([] : List Nat)).step .subscribePanics = none ∧
    (PWorld.init [1]).step (.clonePanics (.pushCloned 5) 0) = none := ⟨rfl, rfl, rfl⟩

end Verif.MutVecPanic
