/-!
# Histories of events

Not a model of code in `/repo`: a history is a list of events, each of which is one call.
-/

namespace Verif

variable {σ ε ο : Type}

/-- A history of events, with their answers; `none` if one of them cannot happen. -/
def runE (step : σ → ε → Option (ο × σ)) (s : σ) : List ε → Option (List ο × σ)
  | [] => some ([], s)
  | e :: es =>
    match step s e with
    | none => none
    | some (o, s') =>
      match runE step s' es with
      | none => none
      | some (os, s'') => some (o :: os, s'')

variable {step : σ → ε → Option (ο × σ)}

theorem snoc_ind {γ : Type} {P : List γ → Prop} (nil : P []) (snoc : ∀ l x, P l → P (l ++ [x])) :
    ∀ l, P l := by
  intro l
  have key : ∀ n (l : List γ), l.length = n → P l := by
    intro n
    induction n with
    | zero => intro l hl; rw [List.eq_nil_of_length_eq_zero hl]; exact nil
    | succ n ih =>
      intro l hl
      rcases List.eq_nil_or_concat l with rfl | ⟨l, x, rfl⟩
      · simp at hl
      · rw [List.concat_eq_append] at hl ⊢
        exact snoc l x (ih l (by simpa using hl))
  exact key _ l rfl

theorem runE_append {m m' : σ} {es es' : List ε} {os : List ο}
    (h : runE step m (es ++ es') = some (os, m')) :
    ∃ os1 os2 m1, runE step m es = some (os1, m1) ∧ runE step m1 es' = some (os2, m') ∧
      os = os1 ++ os2 := by
  induction es generalizing m os with
  | nil => exact ⟨[], os, m, rfl, h, rfl⟩
  | cons e es ih =>
    simp only [List.cons_append, runE] at h ⊢
    cases hs : step m e with
    | none => simp [hs] at h
    | some p =>
      obtain ⟨o, m1⟩ := p
      simp only [hs] at h
      cases hr : runE step m1 (es ++ es') with
      | none => simp [hr] at h
      | some q =>
        obtain ⟨os', m2⟩ := q
        simp only [hr, Option.some.injEq, Prod.mk.injEq] at h
        obtain ⟨rfl, rfl⟩ := h
        obtain ⟨os1, os2, m3, h1, h2, rfl⟩ := ih hr
        exact ⟨o :: os1, os2, m3, by simp [h1], h2, rfl⟩

theorem runE_snoc {m m' : σ} {es : List ε} {e : ε} {os : List ο}
    (h : runE step m (es ++ [e]) = some (os, m')) :
    ∃ os1 o m1, runE step m es = some (os1, m1) ∧ step m1 e = some (o, m') ∧ os = os1 ++ [o] := by
  obtain ⟨os1, os2, m1, h1, h2, rfl⟩ := runE_append h
  simp only [runE] at h2
  cases hs : step m1 e with
  | none => simp [hs] at h2
  | some p =>
    obtain ⟨o, m2⟩ := p
    simp only [hs, Option.some.injEq, Prod.mk.injEq] at h2
    obtain ⟨rfl, rfl⟩ := h2
    exact ⟨os1, o, m1, h1, hs, rfl⟩

theorem runE_snoc_of {m m1 m' : σ} {es : List ε} {e : ε} {os : List ο} {o : ο}
    (h1 : runE step m es = some (os, m1)) (h2 : step m1 e = some (o, m')) :
    runE step m (es ++ [e]) = some (os ++ [o], m') := by
  induction es generalizing m os with
  | nil => cases h1; simp [runE, h2]
  | cons x es ih =>
    simp only [List.cons_append, runE] at h1 ⊢
    cases hs : step m x with
    | none => simp [hs] at h1
    | some p =>
      obtain ⟨o', m2⟩ := p
      simp only [hs] at h1 ⊢
      cases hr : runE step m2 es with
      | none => simp [hr] at h1
      | some q =>
        obtain ⟨os', m3⟩ := q
        simp only [hr, Option.some.injEq, Prod.mk.injEq] at h1
        obtain ⟨rfl, rfl⟩ := h1
        simp [ih hr]

theorem runE_length {m m' : σ} {es : List ε} {os : List ο} (h : runE step m es = some (os, m')) :
    os.length = es.length := by
  induction es generalizing m os with
  | nil => cases h; rfl
  | cons x es ih =>
    simp only [runE] at h
    cases hs : step m x with
    | none => simp [hs] at h
    | some p =>
      obtain ⟨o', m2⟩ := p
      simp only [hs] at h
      cases hr : runE step m2 es with
      | none => simp [hr] at h
      | some q =>
        obtain ⟨os', m3⟩ := q
        simp only [hr, Option.some.injEq, Prod.mk.injEq] at h
        obtain ⟨rfl, rfl⟩ := h
        simp [ih hr]

/-- An invariant that may mention the history so far. -/
theorem runE_inv {Inv : List ε → List ο → σ → Prop} {m : σ} (h0 : Inv [] [] m)
    (hstep : ∀ es os s e o s', Inv es os s → step s e = some (o, s') → Inv (es ++ [e]) (os ++ [o]) s')
    {es : List ε} {os : List ο} {m' : σ} (h : runE step m es = some (os, m')) : Inv es os m' := by
  revert os m' h
  refine snoc_ind (P := fun es => ∀ {os m'}, runE step m es = some (os, m') → Inv es os m') ?_ ?_ es
  · intro os m' h; cases h; exact h0
  · intro es e ih os m' h
    obtain ⟨os1, o, m1, h1, h2, rfl⟩ := runE_snoc h
    exact hstep _ _ _ _ _ _ (ih h1) h2

theorem snoc_split {γ : Type} {l l1 l2 : List γ} {e x : γ} :
    l ++ [e] = l1 ++ x :: l2 ↔
      (l2 = [] ∧ l = l1 ∧ e = x) ∨ ∃ l2', l2 = l2' ++ [e] ∧ l = l1 ++ x :: l2' := by
  constructor
  · intro h
    rcases List.eq_nil_or_concat l2 with rfl | ⟨l2', y, rfl⟩
    · have := List.append_inj' h rfl
      exact .inl ⟨rfl, this.1, by simpa using this.2⟩
    · rw [List.concat_eq_append, ← List.cons_append, ← List.append_assoc] at h
      have := List.append_inj' h rfl
      refine .inr ⟨l2', ?_, this.1⟩
      rw [List.concat_eq_append]
      have h2 := this.2
      simp only [List.cons.injEq, and_true] at h2
      rw [h2]
  · rintro (⟨rfl, rfl, rfl⟩ | ⟨l2', rfl, rfl⟩) <;> simp

theorem split_idx {γ : Type} {l : List γ} {i : Nat} {c : γ} (h : l[i]? = some c) :
    ∃ l1 l2, l = l1 ++ c :: l2 ∧ (∀ c', l.set i c' = l1 ++ c' :: l2) ∧ l.eraseIdx i = l1 ++ l2 := by
  induction l generalizing i with
  | nil => simp at h
  | cons x l ih =>
    cases i with
    | zero =>
      simp only [List.getElem?_cons_zero, Option.some.injEq] at h
      subst h
      exact ⟨[], l, rfl, fun _ => rfl, rfl⟩
    | succ i =>
      simp only [List.getElem?_cons_succ] at h
      obtain ⟨l1, l2, rfl, h2, h3⟩ := ih h
      refine ⟨x :: l1, l2, rfl, fun c' => by simp [h2 c'], ?_⟩
      rw [List.eraseIdx_cons_succ, h3]; rfl

end Verif
