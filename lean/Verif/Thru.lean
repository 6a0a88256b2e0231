import Verif.Expr

/-!
# Combinators that pass on what one loop body makes of each item

Most combinators with one input are a loop `loop { match input.poll(cx) { … } }` whose body, for every item, continues,
leaves with an item, or panics.  Their relation between the polls at the input and at the output is described here
without the machinery of `run` (for C101).
-/

namespace Verif

variable {A B C σ τ : Type}

/-- `Thru body s u t`: with the loop body `body` and the loop variables `s`, the polls `t` at the output lead to the
polls `u` at the input.  An item for which the body continues is followed by another poll with the same waker. -/
inductive Thru (body : σ → A → Ctl σ B) : σ → List (Waker × Poll (Option A)) → List (Waker × Poll (Option B)) → Prop
  | nil (s : σ) : Thru body s [] []
  | pend (s : σ) (w : Waker) {u t} (h : Thru body s u t) : Thru body s ((w, .pending) :: u) ((w, .pending) :: t)
  | stop (s : σ) (w : Waker) : Thru body s [(w, .ready none)] [(w, .ready none)]
  | keep {s s' : σ} (w : Waker) {a : A} {b : B} {u t} (hb : body s a = .ret s' b) (h : Thru body s' u t) :
      Thru body s ((w, .ready (some a)) :: u) ((w, .ready (some b)) :: t)
  | skip {s s' : σ} {w : Waker} {a : A} {u t} {r : Poll (Option B)} (hb : body s a = .cont s')
      (h : Thru body s' u ((w, r) :: t)) : Thru body s ((w, .ready (some a)) :: u) ((w, r) :: t)

/-- The first polls at input and output have the same waker. -/
theorem Thru.head {body : σ → A → Ctl σ B} {s : σ} {u : List (Waker × Poll (Option A))} {w : Waker}
    {r : Poll (Option B)} {t : List (Waker × Poll (Option B))} (h : Thru body s u ((w, r) :: t)) :
    ∃ q u', u = (w, q) :: u' := by
  cases h with
  | pend _ _ h => exact ⟨_, _, rfl⟩
  | stop => exact ⟨_, _, rfl⟩
  | keep _ _ h => exact ⟨_, _, rfl⟩
  | skip _ h => exact ⟨_, _, rfl⟩

theorem Thru.head' {body : σ → A → Ctl σ B} {s : σ} {t : List (Waker × Poll (Option B))} {w : Waker}
    {q : Poll (Option A)} {u : List (Waker × Poll (Option A))} (h : Thru body s ((w, q) :: u) t) :
    ∃ r t', t = (w, r) :: t' := by
  cases h with
  | pend _ _ h => exact ⟨_, _, rfl⟩
  | stop => exact ⟨_, _, rfl⟩
  | keep _ _ h => exact ⟨_, _, rfl⟩
  | skip _ h => exact ⟨_, _, rfl⟩

/-- A state that consists of an input and loop variables, and a poll that is the loop. -/
structure Loops {M : Type} (poll : Waker → M → Option (Poll (Option B) × M)) (input : M → Src (Option A))
    (mk : Src (Option A) → σ → M) (body : σ → A → Ctl σ B) : Prop where
  poll_eq : ∀ w src s, poll w (mk src s) =
    match src.loop w body s with
    | (.ret b, s', src') => some (.ready (some b), mk src' s')
    | (.ended, s', src') => some (.ready none, mk src' s')
    | (.pending, s', src') => some (.pending, mk src' s')
    | (.panic, _, _) => none
  input_eq : ∀ src s, input (mk src s) = src

theorem pollLoop_hist (w : Waker) (body : σ → A → Ctl σ B) :
    ∀ (todo : List (Poll (Option A))) (h : List (Waker × Poll (Option A))) (s : σ),
      ∃ x : Poll (Option A) × List (Waker × Poll (Option A)),
        (pollLoop w body todo h s).2.2.hist = h ++ (w, x.1) :: x.2
  | [], h, s => ⟨(.pending, []), rfl⟩
  | .pending :: rs, h, s => ⟨(.pending, []), rfl⟩
  | .ready none :: rs, h, s => ⟨(.ready none, []), rfl⟩
  | .ready (some a) :: rs, h, s => by
    simp only [pollLoop]
    split
    · rename_i s' _
      obtain ⟨x, hx⟩ := pollLoop_hist w body rs (h ++ [(w, .ready (some a))]) s'
      exact ⟨(.ready (some a), (w, x.1) :: x.2), by rw [hx]; simp⟩
    · exact ⟨(.ready (some a), []), rfl⟩
    · exact ⟨(.ready (some a), []), rfl⟩

/-- Polls at the input are only added. -/
theorem Loops.grows {M : Type} {poll : Waker → M → Option (Poll (Option B) × M)} {input : M → Src (Option A)}
    {mk : Src (Option A) → σ → M} {body : σ → A → Ctl σ B} (hl : Loops poll input mk body) :
    ∀ (ws : List Waker) (src : Src (Option A)) (s : σ) (rs : List (Poll (Option B))) (m : M),
      run poll ws (mk src s) = some (rs, m) → ∃ x, (input m).hist = src.hist ++ x ∧
        ∀ w ws', ws = w :: ws' → ∃ q x', x = (w, q) :: x'
  | [], src, s, rs, m, h => by
    cases h
    exact ⟨[], by rw [hl.input_eq]; simp, by simp⟩
  | w :: ws, src, s, rs, m, h => by
    simp only [run, hl.poll_eq] at h
    obtain ⟨x, hx⟩ := pollLoop_hist w body src.todo src.hist s
    have hx' : (src.loop w body s).2.2.hist = src.hist ++ (w, x.1) :: x.2 := hx
    rcases hr : src.loop w body s with ⟨r, s', src'⟩
    rw [hr] at hx'
    simp only [hr] at h
    have fin : ∀ rs', run poll ws (mk src' s') = some (rs', m) → ∃ y, (input m).hist = src.hist ++ y ∧
        ∀ v ws', w :: ws = v :: ws' → ∃ q x', y = (v, q) :: x' := by
      intro rs' hrun
      obtain ⟨y, hy, -⟩ := Loops.grows hl ws src' s' rs' m hrun
      refine ⟨(w, x.1) :: x.2 ++ y, by rw [hy, hx']; simp, ?_⟩
      intro v ws' hv
      cases hv
      exact ⟨_, _, rfl⟩
    cases r with
    | panic => simp at h
    | ended =>
      cases h
      refine ⟨(w, x.1) :: x.2, by rw [hl.input_eq]; exact hx', ?_⟩
      intro v ws' hv
      cases hv
      exact ⟨_, _, rfl⟩
    | pending =>
      simp only at h
      split at h
      · cases h
      · rename_i rs' m' hrun
        cases h
        exact fin _ hrun
    | ret b =>
      simp only at h
      split at h
      · cases h
      · rename_i rs' m' hrun
        cases h
        exact fin _ hrun

/-- `run` and `Thru` describe the same. -/
theorem Loops.run_iff {M : Type} {poll : Waker → M → Option (Poll (Option B) × M)} {input : M → Src (Option A)}
    {mk : Src (Option A) → σ → M} {body : σ → A → Ctl σ B} (hl : Loops poll input mk body)
    (u : List (Waker × Poll (Option A))) (t : List (Waker × Poll (Option B))) (s : σ)
    (h : List (Waker × Poll (Option A))) :
    (∃ m, run poll (t.map (·.1)) (mk ⟨u.map (·.2), h⟩ s) = some (t.map (·.2), m) ∧ (input m).hist = h ++ u) ↔
      Thru body s u t := by
  constructor
  · induction u generalizing t s h with
    | nil =>
      rintro ⟨m, hr, hh⟩
      cases t with
      | nil => exact .nil s
      | cons p t =>
        obtain ⟨x, hx, hx'⟩ := hl.grows _ _ _ _ _ hr
        obtain ⟨q, x', rfl⟩ := hx' _ _ rfl
        rw [hx] at hh
        simp at hh
    | cons p u ih =>
      rintro ⟨m, hr, hh⟩
      cases t with
      | nil =>
        cases hr
        rw [hl.input_eq] at hh
        simp at hh
      | cons q t =>
        rcases p with ⟨w0, r0⟩
        rcases q with ⟨w, r⟩
        have hw : w = w0 := by
          obtain ⟨x, hx, hx'⟩ := hl.grows _ _ _ _ _ hr
          obtain ⟨q, x', rfl⟩ := hx' _ _ rfl
          rw [hx] at hh
          simp only [List.append_cancel_left_eq, List.cons.injEq, Prod.mk.injEq] at hh
          exact hh.1.1
        subst hw
        simp only [List.map_cons, run, hl.poll_eq, Src.loop] at hr
        have app : ∀ r1, h ++ (w, r1) :: u = (h ++ [(w, r1)]) ++ u := by simp
        cases r0 with
        | pending =>
          simp only [pollLoop] at hr
          split at hr
          · cases hr
          · rename_i rs m' hrun
            simp only [Option.some.injEq, Prod.mk.injEq, List.cons.injEq] at hr
            obtain ⟨⟨rfl, rfl⟩, rfl⟩ := hr
            exact .pend _ _ (ih t s _ ⟨_, hrun, by rw [hh, app]⟩)
        | ready o =>
          cases o with
          | none =>
            simp only [pollLoop, Option.some.injEq, Prod.mk.injEq, List.cons.injEq] at hr
            obtain ⟨⟨rfl, ht⟩, rfl⟩ := hr
            rw [hl.input_eq] at hh
            simp only [List.append_cancel_left_eq, List.cons.injEq, true_and] at hh
            subst hh
            have : t = [] := List.map_eq_nil_iff.1 ht.symm
            subst this
            exact .stop _ _
          | some a =>
            simp only [pollLoop] at hr
            cases hb : body s a with
            | panic => simp [hb] at hr
            | ret s' b =>
              simp only [hb] at hr
              split at hr
              · cases hr
              · rename_i rs m' hrun
                simp only [Option.some.injEq, Prod.mk.injEq, List.cons.injEq] at hr
                obtain ⟨⟨rfl, rfl⟩, rfl⟩ := hr
                exact .keep _ hb (ih t s' _ ⟨_, hrun, by rw [hh, app]⟩)
            | cont s' =>
              simp only [hb] at hr
              refine .skip hb (ih ((w, r) :: t) s' (h ++ [(w, .ready (some a))]) ⟨m, ?_, by rw [hh, app]⟩)
              simp only [List.map_cons, run, hl.poll_eq, Src.loop]
              exact hr
  · intro ht
    induction ht generalizing h with
    | nil s => exact ⟨_, rfl, by rw [hl.input_eq]; simp⟩
    | pend s w _ ih =>
      obtain ⟨m, hr, hh⟩ := ih (h ++ [(w, .pending)])
      refine ⟨m, ?_, by rw [hh]; simp⟩
      simp only [List.map_cons, run, hl.poll_eq, Src.loop, pollLoop, hr]
    | stop s w =>
      refine ⟨mk ⟨[], h ++ [(w, .ready none)]⟩ s, ?_, by rw [hl.input_eq]⟩
      simp only [List.map_cons, run, hl.poll_eq, Src.loop, pollLoop, List.map_nil]
    | keep w hb _ ih =>
      rename_i s s' a b u t _
      obtain ⟨m, hr, hh⟩ := ih (h ++ [(w, .ready (some a))])
      refine ⟨m, ?_, by rw [hh]; simp⟩
      simp only [List.map_cons, run, hl.poll_eq, Src.loop, pollLoop, hb, hr]
    | skip hb _ ih =>
      rename_i s s' w a u t r _
      obtain ⟨m, hr, hh⟩ := ih (h ++ [(w, .ready (some a))])
      refine ⟨m, ?_, by rw [hh]; simp⟩
      simp only [List.map_cons, run, hl.poll_eq, Src.loop, pollLoop, hb] at hr ⊢
      exact hr

/-- For the relation `Rel` of `Verif/Expr.lean`. -/
theorem Loops.rel {M : Type} {poll : Waker → M → Option (Poll (Option B) × M)} {input : M → Src (Option A)}
    {mk : Src (Option A) → σ → M} {body : σ → A → Ctl σ B} (hl : Loops poll input mk body)
    {init : List (Poll (Option A)) → M} {s0 : σ} (hi : ∀ script, init script = mk (Src.mk' script) s0)
    (u : List (Waker × Poll (Option A))) (t : List (Waker × Poll (Option B))) :
    Rel poll init input u t ↔ Thru body s0 u t := by
  rw [← hl.run_iff u t s0 []]
  simp only [Rel, hi, Src.mk', List.nil_append]

/-- One loop after another. -/
def Ctl.after (b1 : σ → A → Ctl σ B) (b2 : τ → B → Ctl τ C) (s : σ × τ) (a : A) : Ctl (σ × τ) C :=
  match b1 s.1 a with
  | .panic => .panic
  | .cont s1 => .cont (s1, s.2)
  | .ret s1 b =>
    match b2 s.2 b with
    | .panic => .panic
    | .cont s2 => .cont (s1, s2)
    | .ret s2 c => .ret (s1, s2) c

theorem thru_after (b1 : σ → A → Ctl σ B) (b2 : τ → B → Ctl τ C) (s1 : σ) (s2 : τ)
    (u : List (Waker × Poll (Option A))) (t : List (Waker × Poll (Option C))) :
    (∃ v, Thru b1 s1 u v ∧ Thru b2 s2 v t) ↔ Thru (Ctl.after b1 b2) (s1, s2) u t := by
  constructor
  · rintro ⟨v, h1, h2⟩
    induction h1 generalizing s2 t with
    | nil s => cases h2; exact .nil _
    | pend s w _ ih =>
      cases h2 with
      | pend _ _ h => exact .pend _ _ (ih _ _ h)
    | stop s w => cases h2; exact .stop _ _
    | keep w hb _ ih =>
      cases h2 with
      | keep _ hb2 h => exact .keep _ (by simp [Ctl.after, hb, hb2]) (ih _ _ h)
      | skip hb2 h => exact .skip (by simp [Ctl.after, hb, hb2]) (ih _ _ h)
    | skip hb _ ih =>
      obtain ⟨r, t', rfl⟩ := h2.head'
      exact .skip (by simp [Ctl.after, hb]) (ih _ _ h2)
  · intro h
    generalize hs : (s1, s2) = s at h
    induction h generalizing s1 s2 with
    | nil s => exact ⟨[], .nil _, .nil _⟩
    | pend s w _ ih =>
      obtain ⟨v, h1, h2⟩ := ih _ _ hs
      exact ⟨_, .pend _ w h1, .pend _ w h2⟩
    | stop s w => exact ⟨_, .stop _ w, .stop _ w⟩
    | keep w hb _ ih =>
      subst hs
      simp only [Ctl.after] at hb
      split at hb
      · cases hb
      · cases hb
      · rename_i s1' b hb1
        split at hb
        · cases hb
        · cases hb
        · rename_i s2' c hb2
          cases hb
          obtain ⟨v, h1, h2⟩ := ih _ _ rfl
          exact ⟨_, .keep w hb1 h1, .keep w hb2 h2⟩
    | skip hb _ ih =>
      rename_i w _ _ _ _ _
      subst hs
      simp only [Ctl.after] at hb
      split at hb
      · cases hb
      · rename_i s1' hb1
        cases hb
        obtain ⟨v, h1, h2⟩ := ih _ _ rfl
        obtain ⟨q, v', rfl⟩ := h2.head
        exact ⟨_, .skip hb1 h1, h2⟩
      · rename_i s1' b hb1
        split at hb
        · cases hb
        · rename_i s2' hb2
          cases hb
          obtain ⟨v, h1, h2⟩ := ih _ _ rfl
          exact ⟨_, .keep w hb1 h1, .skip hb2 h2⟩
        · cases hb

/-- What two loop bodies do with an item is alike. -/
inductive Ctl.Alike (R : σ → τ → Prop) : Ctl σ B → Ctl τ B → Prop
  | cont {s s'} (h : R s s') : Ctl.Alike R (.cont s) (.cont s')
  | ret {s s'} (b : B) (h : R s s') : Ctl.Alike R (.ret s b) (.ret s' b)
  | panic : Ctl.Alike R .panic .panic

theorem Thru.alike {b1 : σ → A → Ctl σ B} {b2 : τ → A → Ctl τ B} {R : σ → τ → Prop}
    (hR : ∀ s s' a, R s s' → Ctl.Alike R (b1 s a) (b2 s' a)) {s1 : σ} {s2 : τ} (h0 : R s1 s2)
    {u : List (Waker × Poll (Option A))} {t : List (Waker × Poll (Option B))} :
    Thru b1 s1 u t ↔ Thru b2 s2 u t := by
  constructor
  · intro h
    induction h generalizing s2 with
    | nil s => exact .nil _
    | pend s w _ ih => exact .pend _ _ (ih h0)
    | stop s w => exact .stop _ _
    | @keep s s' w a b u t hb h ih =>
      have := hR _ _ a h0
      rw [hb] at this
      generalize hb2 : b2 _ _ = c at this
      cases this
      exact .keep _ hb2 (ih ‹_›)
    | @skip s s' w a u t r hb h ih =>
      have := hR _ _ a h0
      rw [hb] at this
      generalize hb2 : b2 _ _ = c at this
      cases this
      exact .skip hb2 (ih ‹_›)
  · intro h
    induction h generalizing s1 with
    | nil s => exact .nil _
    | pend s w _ ih => exact .pend _ _ (ih h0)
    | stop s w => exact .stop _ _
    | @keep s s' w a b u t hb h ih =>
      have := hR _ _ a h0
      rw [hb] at this
      generalize hb2 : b1 _ _ = c at this
      cases this
      exact .keep _ hb2 (ih ‹_›)
    | @skip s s' w a u t r hb h ih =>
      have := hR _ _ a h0
      rw [hb] at this
      generalize hb2 : b1 _ _ = c at this
      cases this
      exact .skip hb2 (ih ‹_›)

end Verif
