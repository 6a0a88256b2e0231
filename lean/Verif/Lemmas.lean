import Verif.VecDiff

/-!
# Helper lemmas on scripts, loops, runs and checked list operations
-/

namespace Verif

variable {α β σ ρ : Type}

/-! ## Checked list operations, in terms of `p ++ q` decompositions -/

theorem insertIdx_append_len (p q : List α) (a : α) :
    (p ++ q).insertIdx p.length a = p ++ a :: q := by
  induction p with
  | nil => simp
  | cons x p ih => simp [ih]

theorem vInsert_eq_some {l l' : List α} {i : Nat} {a : α} :
    vInsert l i a = some l' ↔ ∃ p q, l = p ++ q ∧ p.length = i ∧ l' = p ++ a :: q := by
  unfold vInsert
  constructor
  · intro h
    split at h
    · rename_i hi
      refine ⟨l.take i, l.drop i, (List.take_append_drop i l).symm, by simp; omega, ?_⟩
      have := Option.some.inj h
      rw [← this]
      have := insertIdx_append_len (l.take i) (l.drop i) a
      rw [List.take_append_drop, List.length_take, Nat.min_eq_left hi] at this
      exact this
    · cases h
  · rintro ⟨p, q, rfl, rfl, rfl⟩
    simp [insertIdx_append_len]

theorem vInsert_append (p q : List α) (a : α) :
    vInsert (p ++ q) p.length a = some (p ++ a :: q) :=
  vInsert_eq_some.2 ⟨p, q, rfl, rfl, rfl⟩

theorem vRemove_eq_some {l l' : List α} {i : Nat} {a : α} :
    vRemove l i = some (a, l') ↔ ∃ p q, l = p ++ a :: q ∧ p.length = i ∧ l' = p ++ q := by
  unfold vRemove
  constructor
  · intro h
    split at h
    · rename_i x hx
      injection h with h
      injection h with h1 h2
      subst h1 h2
      have hi : i < l.length := by
        rcases List.getElem?_eq_some_iff.1 hx with ⟨h, _⟩; exact h
      refine ⟨l.take i, l.drop (i+1), ?_, by simp; omega, List.eraseIdx_eq_take_drop_succ l i⟩
      have hx' : l[i] = x := (List.getElem?_eq_some_iff.1 hx).2
      rw [← hx']
      simp
    · cases h
  · rintro ⟨p, q, rfl, rfl, rfl⟩
    simp [List.eraseIdx_append_of_length_le]

theorem vRemove_append (p q : List α) (a : α) :
    vRemove (p ++ a :: q) p.length = some (a, p ++ q) :=
  vRemove_eq_some.2 ⟨p, q, rfl, rfl, rfl⟩

theorem vRemove_eq_none {l : List α} {i : Nat} : vRemove l i = none ↔ l.length ≤ i := by
  unfold vRemove
  split
  · rename_i x hx
    rcases List.getElem?_eq_some_iff.1 hx with ⟨h, _⟩
    simp; omega
  · rename_i hx
    simp at hx ⊢
    exact hx

theorem vInsert_eq_none {l : List α} {i : Nat} {a : α} : vInsert l i a = none ↔ l.length < i := by
  unfold vInsert
  split <;> simp <;> omega

theorem vSet_eq_some {l l' : List α} {i : Nat} {a : α} :
    vSet l i a = some l' ↔ ∃ p b q, l = p ++ b :: q ∧ p.length = i ∧ l' = p ++ a :: q := by
  unfold vSet
  constructor
  · intro h
    split at h
    · rename_i hi
      refine ⟨l.take i, l[i], l.drop (i+1), by simp, by simp; omega, ?_⟩
      have := Option.some.inj h
      rw [← this, List.set_eq_take_append_cons_drop]
      simp [hi]
    · cases h
  · rintro ⟨p, b, q, rfl, rfl, rfl⟩
    simp

theorem vSet_append (p q : List α) (a b : α) :
    vSet (p ++ b :: q) p.length a = some (p ++ a :: q) :=
  vSet_eq_some.2 ⟨p, b, q, rfl, rfl, rfl⟩

theorem vSet_eq_none {l : List α} {i : Nat} {a : α} : vSet l i a = none ↔ l.length ≤ i := by
  unfold vSet
  split <;> simp <;> omega

theorem vPop_snoc (p : List α) (a : α) : vPop (p ++ [a]) = (some a, p) := by
  simp [vPop]

theorem vPop_eq_some {l l' : List α} {a : α} : vPop l = (some a, l') ↔ l = l' ++ [a] := by
  constructor
  · intro h
    simp only [vPop, Prod.mk.injEq] at h
    obtain ⟨h1, h2⟩ := h
    rw [← h2]
    have hne : l ≠ [] := by rintro rfl; simp at h1
    rw [List.getLast?_eq_some_getLast hne] at h1
    rw [← Option.some.inj h1]
    exact (List.dropLast_concat_getLast hne).symm
  · rintro rfl
    exact vPop_snoc _ _

/-! ## Characterisation of `VecDiff.apply` -/

/-- The graph of `VecDiff.apply`, with indices replaced by decompositions of the list. -/
inductive Applies : VecDiff α → List α → List α → Prop where
  | replace (vs l) : Applies (.replace vs) l vs
  | insertAt (p q a) : Applies (.insertAt p.length a) (p ++ q) (p ++ a :: q)
  | updateAt (p b q a) : Applies (.updateAt p.length a) (p ++ b :: q) (p ++ a :: q)
  | removeAt (p b q) : Applies (.removeAt p.length) (p ++ b :: q) (p ++ q)
  | moveFwd (p a m q) :
      Applies (.move p.length (p.length + m.length)) (p ++ a :: (m ++ q)) (p ++ m ++ a :: q)
  | moveBack (p m a q) :
      Applies (.move (p.length + m.length) p.length) (p ++ m ++ a :: q) (p ++ a :: (m ++ q))
  | push (l a) : Applies (.push a) l (l ++ [a])
  | pop (l a) : Applies .pop (l ++ [a]) l
  | clear (l) : Applies .clear l []

theorem apply_eq_some {d : VecDiff α} {l l' : List α} : d.apply l = some l' ↔ Applies d l l' := by
  constructor
  · intro h
    cases d with
    | replace vs => simp [VecDiff.apply] at h; subst h; exact .replace _ _
    | insertAt i a =>
      obtain ⟨p, q, rfl, rfl, rfl⟩ := vInsert_eq_some.1 h
      exact .insertAt _ _ _
    | updateAt i a =>
      obtain ⟨p, b, q, rfl, rfl, rfl⟩ := vSet_eq_some.1 h
      exact .updateAt _ _ _ _
    | removeAt i =>
      simp only [VecDiff.apply] at h
      split at h
      · rename_i x vec hx
        obtain ⟨p, q, rfl, rfl, rfl⟩ := vRemove_eq_some.1 hx
        cases h
        exact .removeAt _ _ _
      · cases h
    | move i j =>
      simp only [VecDiff.apply] at h
      split at h
      · rename_i x vec hx
        obtain ⟨p, q, rfl, rfl, rfl⟩ := vRemove_eq_some.1 hx
        obtain ⟨p', q', h1, rfl, rfl⟩ := vInsert_eq_some.1 h
        rcases List.append_eq_append_iff.1 h1 with ⟨m, rfl, rfl⟩ | ⟨m, rfl, rfl⟩
        · simpa using Applies.moveFwd p x m q'
        · simpa using Applies.moveBack p' m x q
      · cases h
    | push a => simp [VecDiff.apply] at h; subst h; exact .push _ _
    | pop =>
      simp only [VecDiff.apply] at h
      split at h
      · rename_i x vec hx
        cases vPop_eq_some.1 hx
        cases h
        exact .pop _ _
      · cases h
    | clear => simp [VecDiff.apply] at h; subst h; exact .clear _
  · intro h
    cases h with
    | replace => rfl
    | insertAt p q a => exact vInsert_append _ _ _
    | updateAt p b q a => exact vSet_append _ _ _ _
    | removeAt p b q => simp [VecDiff.apply, vRemove_append]
    | moveFwd p a m q =>
      simp only [VecDiff.apply, vRemove_append]
      rw [← List.length_append, ← List.append_assoc]
      exact vInsert_append _ _ _
    | moveBack p m a q =>
      simp only [VecDiff.apply]
      rw [← List.length_append, vRemove_append]
      simp only [List.append_assoc]
      exact vInsert_append _ _ _
    | push => rfl
    | pop l a => simp [VecDiff.apply, vPop_snoc]
    | clear => rfl

theorem replay_append (ds es : List (VecDiff α)) (xs : List α) :
    replay (ds ++ es) xs = (replay ds xs).bind (replay es) := by
  induction ds generalizing xs with
  | nil => rfl
  | cons d ds ih =>
    simp only [List.cons_append, replay]
    cases d.apply xs with
    | none => rfl
    | some ys => exact ih ys

theorem replay_snoc (ds : List (VecDiff α)) (d : VecDiff α) (xs : List α) :
    replay (ds ++ [d]) xs = (replay ds xs).bind d.apply := by
  rw [replay_append]
  congr 1
  funext ys
  simp only [replay]
  cases d.apply ys <;> rfl

theorem replay_append_some {ds es : List (VecDiff α)} {xs ys zs : List α}
    (h1 : replay ds xs = some ys) (h2 : replay es ys = some zs) :
    replay (ds ++ es) xs = some zs := by
  rw [replay_append, h1]; exact h2

theorem replay_singleton {d : VecDiff α} {xs : List α} : replay [d] xs = d.apply xs := by
  simp only [replay]; cases d.apply xs <;> rfl

theorem replay_cons_some {d : VecDiff α} {ds : List (VecDiff α)} {xs ys : List α}
    (h : d.apply xs = some ys) : replay (d :: ds) xs = replay ds ys := by
  simp only [replay, h]

/-- A prefix of a well-formed diff sequence is well-formed. -/
theorem replay_prefix {ds es : List (VecDiff α)} {xs : List α}
    (h : (replay (ds ++ es) xs).isSome) : ∃ ys, replay ds xs = some ys := by
  rw [replay_append] at h
  cases hd : replay ds xs with
  | none => rw [hd] at h; simp at h
  | some ys => exact ⟨ys, rfl⟩

/-! ## Scripts -/

theorem items_append (xs ys : List (Poll (Option α))) : items (xs ++ ys) = items xs ++ items ys := by
  fun_induction items xs <;> simp_all [items]

@[simp] theorem items_nil : items ([] : List (Poll (Option α))) = [] := rfl
@[simp] theorem items_pending (rs : List (Poll (Option α))) : items (.pending :: rs) = items rs := rfl
@[simp] theorem items_none (rs : List (Poll (Option α))) : items (.ready none :: rs) = items rs := rfl
@[simp] theorem items_some (a : α) (rs : List (Poll (Option α))) :
    items (.ready (some a) :: rs) = a :: items rs := rfl

theorem Src.all_mk' (script : List (Poll (Option α))) : (Src.mk' script).all = items script := by
  simp [Src.all, Src.got, Src.mk']

theorem Src.got_mk' (script : List (Poll (Option α))) : (Src.mk' script).got = [] := rfl

theorem got_snoc (h : List (Waker × Poll (Option α))) (w : Waker) (r : Poll (Option α)) (t) :
    (Src.mk t (h ++ [(w, r)])).got = items (h.map (·.2)) ++ items [r] := by
  simp [Src.got, items_append]

theorem armed_snoc (h : List (Waker × Poll ρ)) (w : Waker) (t) :
    (Src.mk t (h ++ [(w, .pending)])).armed w := by
  simp [Src.armed]

theorem ended_snoc (h : List (Waker × Poll (Option α))) (w : Waker) (t) :
    (Src.mk t (h ++ [(w, .ready none)])).ended := ⟨w, by simp⟩

theorem not_ended_mk' (script : List (Poll (Option α))) : ¬ (Src.mk' script).ended := by
  rintro ⟨w, h⟩; simp [Src.mk'] at h

theorem fused_of_not_ended {s : Src (Option α)} (h : ¬ s.ended) : s.fused := by
  intro pre w post heq
  exact absurd ⟨w, by rw [heq]; simp⟩ h

/-- Polling an input that has not ended keeps it fused. -/
theorem fused_snoc {h : List (Waker × Poll (Option α))} {w : Waker} {r : Poll (Option α)} {t t'}
    (hne : ¬ (Src.mk t h).ended) : (Src.mk t' (h ++ [(w, r)])).fused := by
  intro pre w' post heq
  cases hp : post.reverse with
  | nil => simpa using hp
  | cons x xs =>
    have : post = xs.reverse ++ [x] := by
      have := congrArg List.reverse hp; simpa using this
    rw [this] at heq
    have heq' : h ++ [(w, r)] = (pre ++ (w', Poll.ready none) :: xs.reverse) ++ [x] := by
      simpa using heq
    have h1 := (List.append_inj' heq' (by simp)).1
    exact absurd ⟨w', by rw [h1]; simp⟩ hne

theorem not_ended_snoc {h : List (Waker × Poll (Option α))} {w : Waker} {r : Poll (Option α)} {t t'}
    (hne : ¬ (Src.mk t h).ended) (hr : r ≠ .ready none) : ¬ (Src.mk t' (h ++ [(w, r)])).ended := by
  rintro ⟨w', hw⟩
  simp only [List.mem_append, List.mem_singleton] at hw
  rcases hw with hw | hw
  · exact hne ⟨w', hw⟩
  · cases hw; exact hr rfl

/-! ## Rules for `pollLoop` -/

/-- Invariant rule for loops.  `P` holds before each poll of the input, `Q` is the postcondition. -/
theorem pollLoop_rule {w : Waker} {body : σ → α → Ctl σ ρ}
    (P : σ → Src (Option α) → Prop) (Q : Stop ρ → σ → Src (Option α) → Prop)
    (hcont : ∀ s a t h s', P s ⟨.ready (some a) :: t, h⟩ → body s a = .cont s' →
      P s' ⟨t, h ++ [(w, .ready (some a))]⟩)
    (hret : ∀ s a t h s' r, P s ⟨.ready (some a) :: t, h⟩ → body s a = .ret s' r →
      Q (.ret r) s' ⟨t, h ++ [(w, .ready (some a))]⟩)
    (hpanic : ∀ s a t h, P s ⟨.ready (some a) :: t, h⟩ → body s a = .panic →
      Q .panic s ⟨t, h ++ [(w, .ready (some a))]⟩)
    (hend : ∀ s t h, P s ⟨.ready none :: t, h⟩ → Q .ended s ⟨t, h ++ [(w, .ready none)]⟩)
    (hpend : ∀ s t t' h, P s ⟨t', h⟩ → (t' = .pending :: t ∨ t' = [] ∧ t = []) →
      Q .pending s ⟨t, h ++ [(w, .pending)]⟩)
    (src : Src (Option α)) (s : σ) (h0 : P s src) :
    Q (src.loop w body s).1 (src.loop w body s).2.1 (src.loop w body s).2.2 := by
  obtain ⟨t, h⟩ := src
  unfold Src.loop
  simp only
  induction t generalizing h s with
  | nil => simpa [pollLoop] using hpend s [] [] h h0 (.inr ⟨rfl, rfl⟩)
  | cons r t ih =>
    match r with
    | .pending => simpa [pollLoop] using hpend s t _ h h0 (.inl rfl)
    | .ready none => simpa [pollLoop] using hend s t h h0
    | .ready (some a) =>
      simp only [pollLoop]
      cases hb : body s a with
      | cont s' => exact ih _ _ (hcont s a t h s' h0 hb)
      | ret s' r => exact hret s a t h s' r h0 hb
      | panic => exact hpanic s a t h h0 hb

/-! ## Rule for `run` -/

/-- Invariant rule for a consumer polling repeatedly. `Inv outs s`: the answers so far are `outs`
and the state is `s`. -/
theorem run_rule {poll : Waker → σ → Option (Poll (Option β) × σ)}
    (Inv : List (Poll (Option β)) → σ → Prop)
    (hstep : ∀ w outs s, Inv outs s → .ready none ∉ outs →
      ∃ r s', poll w s = some (r, s') ∧ Inv (outs ++ [r]) s')
    (ws : List Waker) (outs0 : List (Poll (Option β))) (s0 : σ) (h0 : Inv outs0 s0)
    (hne : .ready none ∉ outs0) :
    ∃ outs s, run poll ws s0 = some (outs, s) ∧ Inv (outs0 ++ outs) s := by
  induction ws generalizing outs0 s0 with
  | nil => exact ⟨[], s0, rfl, by simpa using h0⟩
  | cons w ws ih =>
    obtain ⟨r, s', hp, hI⟩ := hstep w outs0 s0 h0 hne
    simp only [run, hp]
    match r with
    | .ready none => exact ⟨[.ready none], s', rfl, hI⟩
    | .ready (some b) =>
      obtain ⟨outs, s, hr, hI'⟩ := ih _ s' hI (by simpa using hne)
      exact ⟨.ready (some b) :: outs, s, by simp [hr], by simpa using hI'⟩
    | .pending =>
      obtain ⟨outs, s, hr, hI'⟩ := ih _ s' hI (by simpa using hne)
      exact ⟨.pending :: outs, s, by simp [hr], by simpa using hI'⟩

theorem plays_mk' {ρ : Type} (script : List (Poll ρ)) : Plays script (Src.mk' script) :=
  ⟨0, by simp [Src.mk']⟩

theorem Plays.poll {ρ : Type} {script : List (Poll ρ)} {src src' : Src ρ} {w : Waker} {r : Poll ρ}
    (h : Plays script src) (hp : src.poll w = (r, src')) : Plays script src' := by
  obtain ⟨k, hk⟩ := h
  obtain ⟨todo, hist⟩ := src
  cases todo with
  | nil =>
    cases hp
    refine ⟨k + 1, ?_⟩
    simp only [List.append_nil] at hk
    simp [hk, List.replicate_succ']
  | cons r rs => cases hp; exact ⟨k, by simpa using hk⟩

theorem Src.poll_hist {ρ : Type} (w : Waker) (s : Src ρ) :
    (s.poll w).2.hist = s.hist ++ [(w, (s.poll w).1)] := by
  obtain ⟨t, h⟩ := s
  match t with
  | [] => rfl
  | r :: t => rfl

end Verif
