import Verif.Props.SameMore

/-!
# C101, continued: two filters are one, if nothing is moved
-/

namespace Verif

variable {α β γ δ : Type}

/-- The flags of a filter, of a filter of what it keeps, and of both together. -/
inductive Nest : List Bool → List Bool → List Bool → Prop
  | nil : Nest [] [] []
  | out {a b c} (h : Nest a b c) : Nest (false :: a) b (false :: c)
  | kept (x : Bool) {a b c} (h : Nest a b c) : Nest (true :: a) (x :: b) (x :: c)

theorem Nest.append {a b c a' b' c' : List Bool} (h : Nest a b c) (h' : Nest a' b' c') :
    Nest (a ++ a') (b ++ b') (c ++ c') := by
  induction h with
  | nil => exact h'
  | out _ ih => exact .out ih
  | kept x _ ih => exact .kept x ih

theorem Nest.lens {a b c : List Bool} (h : Nest a b c) :
    c.length = a.length ∧ b.length = (a.filter id).length ∧ (c.filter id).length = (b.filter id).length := by
  induction h with
  | nil => simp
  | out _ ih => simpa using ih
  | kept x _ ih => cases x <;> simpa using ih

theorem Nest.split : ∀ {a a' b c : List Bool}, Nest (a ++ a') b c →
    ∃ b1 b2 c1 c2, b = b1 ++ b2 ∧ c = c1 ++ c2 ∧ Nest a b1 c1 ∧ Nest a' b2 c2
  | [], _, b, c, h => ⟨[], b, [], c, rfl, rfl, .nil, h⟩
  | _ :: a, _, _, _, .out h => by
    obtain ⟨b1, b2, c1, c2, rfl, rfl, h1, h2⟩ := Nest.split h
    exact ⟨b1, b2, false :: c1, c2, rfl, rfl, .out h1, h2⟩
  | _ :: a, _, _, _, .kept x h => by
    obtain ⟨b1, b2, c1, c2, rfl, rfl, h1, h2⟩ := Nest.split h
    exact ⟨x :: b1, b2, x :: c1, c2, rfl, rfl, .kept x h1, h2⟩

theorem vInsert_at {p q : List α} {i : Nat} (h : p.length = i) (a : α) : vInsert (p ++ q) i a = some (p ++ a :: q) := by
  subst h
  exact vInsert_append p q a

theorem vRemove_at {p q : List α} {i : Nat} (h : p.length = i) (a : α) :
    vRemove (p ++ a :: q) i = some (a, p ++ q) := by
  subst h
  exact vRemove_append p q a

theorem get_at {p q : List α} {i : Nat} (h : p.length = i) (a : α) : (p ++ a :: q)[i]? = some a := by
  subst h
  simp

theorem set_at {p q : List α} {i : Nat} (h : p.length = i) (a b : α) : (p ++ a :: q).set i b = p ++ b :: q := by
  subst h
  simp

theorem findIndex_at {p q : List Bool} {i : Nat} (h : p.length = i) :
    findIndex (p ++ q) i = some (p.filter id).length := by
  subst h
  simp [findIndex]

/-- The state of two loops one after the other, and of the loop for both. -/
def Nested (s : (List Bool × Unit) × (List Bool × Unit)) (s' : List Bool × Unit) : Prop := Nest s.1.1 s.2.1 s'.1

theorem filterMapS_nest (f : β → Option γ) (g : γ → Option δ) : ∀ l : List β,
    (filterMapS (plainly g) () (filterMapS (plainly f) () l).1).1 = (filterMapS (plainly fun x => (f x).bind g) () l).1 ∧
    Nest (filterMapS (plainly f) () l).2.1 (filterMapS (plainly g) () (filterMapS (plainly f) () l).1).2.1
      (filterMapS (plainly fun x => (f x).bind g) () l).2.1
  | [] => ⟨rfl, .nil⟩
  | a :: l => by
    obtain ⟨h1, h2⟩ := filterMapS_nest f g l
    cases hf : f a with
    | none =>
      simp only [filterMapS, plainly, hf, Option.toList, List.nil_append, Option.isSome, Option.bind] at h1 h2 ⊢
      exact ⟨h1, .out h2⟩
    | some b =>
      cases hg : g b with
      | none =>
        simp only [filterMapS, plainly, hf, hg, Option.toList, List.nil_append, List.cons_append, Option.isSome,
          Option.bind] at h1 h2 ⊢
        exact ⟨h1, .kept _ h2⟩
      | some c =>
        simp only [filterMapS, plainly, hf, hg, Option.toList, List.nil_append, List.cons_append, Option.isSome,
          Option.bind] at h1 h2 ⊢
        exact ⟨by rw [h1], .kept _ h2⟩

theorem parts_at {l : List α} {i : Nat} (h : i ≤ l.length) : ∃ p q, l = p ++ q ∧ p.length = i :=
  ⟨l.take i, l.drop i, (List.take_append_drop i l).symm, by simp [h]⟩

theorem parts_at' {l : List α} {i : Nat} (h : i < l.length) : ∃ p a q, l = p ++ a :: q ∧ p.length = i := by
  obtain ⟨p, q, rfl, rfl⟩ := parts_at (Nat.le_of_lt h)
  rcases q with _ | ⟨a, q⟩
  · simp at h
  · exact ⟨p, a, q, rfl, rfl⟩

/-- Two filters do with each change what one does, unless it is a `Move`. -/
theorem nest_body (f : β → Option γ) (g : γ → Option δ) (s : (List Bool × Unit) × (List Bool × Unit))
    (s' : List Bool × Unit) (d : VecDiff β) (hd : ∀ i j, d ≠ .move i j) (h : Nested s s') :
    Ctl.Alike Nested (Ctl.after (filterMapBody (plainly f)) (filterMapBody (plainly g)) s d)
      (filterMapBody (plainly fun x => (f x).bind g) s' d) := by
  obtain ⟨⟨s1, ⟨⟩⟩, s2, ⟨⟩⟩ := s
  obtain ⟨s3, ⟨⟩⟩ := s'
  replace h : Nest s1 s2 s3 := h
  obtain ⟨l1, l2, l3⟩ := h.lens
  cases d with
  | move i j => exact absurd rfl (hd i j)
  | replace l =>
    obtain ⟨h1, h2⟩ := filterMapS_nest f g l
    simp only [Ctl.after, filterMapBody, h1]
    exact .ret _ h2
  | clear => exact .ret _ .nil
  | push v =>
    cases hf : f v with
    | none =>
      simp only [Ctl.after, filterMapBody, plainly, hf, Option.bind]
      exact .cont (by simpa [Nested] using h.append (.out .nil))
    | some b =>
      cases hg : g b with
      | none =>
        simp only [Ctl.after, filterMapBody, plainly, hf, hg, Option.bind]
        exact .cont (h.append (.kept _ .nil))
      | some c =>
        simp only [Ctl.after, filterMapBody, plainly, hf, hg, Option.bind]
        exact .ret _ (h.append (.kept _ .nil))
  | pop =>
    rcases List.eq_nil_or_concat s1 with rfl | ⟨p, x, hp⟩
    · cases h
      exact .panic
    · rw [List.concat_eq_append] at hp
      subst hp
      obtain ⟨b1, b2, c1, c2, rfl, rfl, h1, h2⟩ := h.split
      cases h2 with
      | out h2 =>
        cases h2
        simp only [Ctl.after, filterMapBody, vPop_snoc]
        exact .cont (by simpa [Nested] using h1)
      | kept x h2 =>
        cases h2
        simp only [Ctl.after, filterMapBody, vPop_snoc]
        cases x
        · exact .cont h1
        · exact .ret _ h1
  | removeAt i =>
    by_cases hi : i < s1.length
    · obtain ⟨p, x, q, rfl, hp⟩ := parts_at' hi
      obtain ⟨b1, b2, c1, c2, rfl, rfl, h1, h2⟩ := h.split
      obtain ⟨k1, k2, k3⟩ := h1.lens
      cases h2 with
      | out h2 =>
        simp only [Ctl.after, filterMapBody, vRemove_at hp, vRemove_at (k1.trans hp)]
        exact .cont (h1.append h2)
      | kept x h2 =>
        simp only [Ctl.after, filterMapBody, vRemove_at hp, vRemove_at (k1.trans hp), findIndex_at hp, vRemove_at k2]
        cases x
        · exact .cont (h1.append h2)
        · simp only [findIndex_at k2, findIndex_at (k1.trans hp), k3]
          exact .ret _ (h1.append h2)
    · have e1 : vRemove s1 i = none := vRemove_eq_none.2 (by omega)
      have e3 : vRemove s3 i = none := vRemove_eq_none.2 (by omega)
      simp only [Ctl.after, filterMapBody, e1, e3]
      exact .panic
  | insertAt i v =>
    by_cases hi : i ≤ s1.length
    · obtain ⟨p, q, rfl, hp⟩ := parts_at hi
      obtain ⟨b1, b2, c1, c2, rfl, rfl, h1, h2⟩ := h.split
      obtain ⟨k1, k2, k3⟩ := h1.lens
      cases hf : f v with
      | none =>
        simp only [Ctl.after, filterMapBody, plainly, hf, Option.bind, vInsert_at hp, vInsert_at (k1.trans hp)]
        exact .cont (h1.append (.out h2))
      | some b =>
        cases hg : g b with
        | none =>
          simp only [Ctl.after, filterMapBody, plainly, hf, hg, Option.bind, vInsert_at hp, vInsert_at (k1.trans hp),
            findIndex_at hp, vInsert_at k2]
          exact .cont (h1.append (.kept _ h2))
        | some c =>
          simp only [Ctl.after, filterMapBody, plainly, hf, hg, Option.bind, vInsert_at hp, vInsert_at (k1.trans hp),
            findIndex_at hp, vInsert_at k2, findIndex_at k2, findIndex_at (k1.trans hp), k3]
          exact .ret _ (h1.append (.kept _ h2))
    · have e1 : ∀ x, vInsert s1 i x = none := fun x => vInsert_eq_none.2 (by omega)
      have e3 : ∀ x, vInsert s3 i x = none := fun x => vInsert_eq_none.2 (by omega)
      cases hf : f v with
      | none =>
        simp only [Ctl.after, filterMapBody, plainly, hf, Option.bind, e1, e3]
        exact .panic
      | some b => cases hg : g b <;> simp only [Ctl.after, filterMapBody, plainly, hf, hg, Option.bind, e1, e3] <;> exact .panic
  | updateAt i v =>
    by_cases hi : i < s1.length
    · obtain ⟨p, x, q, rfl, hp⟩ := parts_at' hi
      obtain ⟨b1, b2, c1, c2, rfl, rfl, h1, h2⟩ := h.split
      obtain ⟨k1, k2, k3⟩ := h1.lens
      have k4 := k1.trans hp
      cases h2 with
      | out h2 =>
        cases hf : f v with
        | none =>
          simp only [Ctl.after, filterMapBody, plainly, hf, Option.bind, get_at hp, get_at k4]
          exact .cont (h1.append (.out h2))
        | some b =>
          cases hg : g b with
          | none =>
            simp only [Ctl.after, filterMapBody, plainly, hf, hg, Option.bind, get_at hp, get_at k4, set_at hp,
              findIndex_at hp, vInsert_at k2]
            exact .cont (h1.append (.kept _ h2))
          | some c =>
            simp only [Ctl.after, filterMapBody, plainly, hf, hg, Option.bind, get_at hp, get_at k4, set_at hp,
              set_at k4, findIndex_at hp, findIndex_at k4, vInsert_at k2, findIndex_at k2, k3]
            exact .ret _ (h1.append (.kept _ h2))
      | kept x h2 =>
        cases hf : f v with
        | none =>
          simp only [Ctl.after, filterMapBody, plainly, hf, Option.bind, get_at hp, get_at k4, set_at hp,
            findIndex_at hp, vRemove_at k2]
          cases x
          · exact .cont (h1.append (.out h2))
          · simp only [findIndex_at k2, set_at k4, findIndex_at k4, k3]
            exact .ret _ (h1.append (.out h2))
        | some b =>
          cases hg : g b with
          | none =>
            simp only [Ctl.after, filterMapBody, plainly, hf, hg, Option.bind, get_at hp, get_at k4, findIndex_at hp,
              get_at k2]
            cases x
            · exact .cont (h1.append (.kept _ h2))
            · simp only [set_at k2, findIndex_at k2, set_at k4, findIndex_at k4, k3]
              exact .ret _ (h1.append (.kept _ h2))
          | some c =>
            simp only [Ctl.after, filterMapBody, plainly, hf, hg, Option.bind, get_at hp, get_at k4, findIndex_at hp,
              get_at k2]
            cases x
            · simp only [set_at k2, findIndex_at k2, set_at k4, findIndex_at k4, k3]
              exact .ret _ (h1.append (.kept _ h2))
            · simp only [findIndex_at k2, findIndex_at k4, k3]
              exact .ret _ (h1.append (.kept _ h2))
    · have e1 : s1[i]? = none := List.getElem?_eq_none (by omega)
      have e3 : s3[i]? = none := List.getElem?_eq_none (by omega)
      cases hf : f v with
      | none =>
        simp only [Ctl.after, filterMapBody, plainly, hf, Option.bind, e1, e3]
        exact .panic
      | some b => cases hg : g b <;> simp only [Ctl.after, filterMapBody, plainly, hf, hg, Option.bind, e1, e3] <;> exact .panic

theorem Ctl.Alike.flip {σ τ B : Type} {R : σ → τ → Prop} {c : Ctl σ B} {c' : Ctl τ B} (h : Ctl.Alike R c c') :
    Ctl.Alike (fun s s' => R s' s) c' c := by
  cases h with
  | cont h => exact .cont h
  | ret b h => exact .ret b h
  | panic => exact .panic

/-- As `Thru.alike`, for the items that arrive. -/
theorem Thru.alike_on {A B σ τ : Type} {b1 : σ → A → Ctl σ B} {b2 : τ → A → Ctl τ B} {R : σ → τ → Prop} {P : A → Prop}
    (hR : ∀ s s' a, P a → R s s' → Ctl.Alike R (b1 s a) (b2 s' a)) {s1 : σ} {s2 : τ} (h0 : R s1 s2)
    {u : List (Waker × Poll (Option A))} (hu : ∀ w a, (w, .ready (some a)) ∈ u → P a)
    {t : List (Waker × Poll (Option B))} (h : Thru b1 s1 u t) : Thru b2 s2 u t := by
  induction h generalizing s2 with
  | nil s => exact .nil _
  | pend s w _ ih => exact .pend _ _ (ih h0 fun w a h => hu w a (List.mem_cons_of_mem _ h))
  | stop s w => exact .stop _ _
  | @keep s s' w a b u t hb h ih =>
    have := hR _ _ a (hu w a (.head _)) h0
    rw [hb] at this
    generalize hb2 : b2 _ _ = c at this
    cases this
    exact .keep _ hb2 (ih ‹_› fun w a h => hu w a (List.mem_cons_of_mem _ h))
  | @skip s s' w a u t r hb h ih =>
    have := hR _ _ a (hu w a (.head _)) h0
    rw [hb] at this
    generalize hb2 : b2 _ _ = c at this
    cases this
    exact .skip hb2 (ih ‹_› fun w a h => hu w a (List.mem_cons_of_mem _ h))

theorem in_items {a : α} : ∀ {l : List (Poll (Option α))}, .ready (some a) ∈ l → a ∈ items l
  | [], h => by simp at h
  | r :: l, h => by
    rcases List.mem_cons.1 h with rfl | h
    · exact .head _
    · have := in_items h
      rcases r with (_ | b) | _
      · simpa [items] using this
      · exact List.mem_cons_of_mem _ this
      · simpa [items] using this

namespace Pipe

/-- **C101** (two filters, partial).  `.filter_map(f).filter_map(g)` is `.filter_map(|x| f(x).and_then(g))`, in every run
in which no `Move` arrives.  For `Move` it is false: `C101_not_filter_filter`. -/
theorem C101_filter_filter_partial (f : β → Option γ) (g : γ → Option δ) (p : Pipe α β) (src : Nat → Trace α)
    (hm : ∀ u, p.Exec src u → ∀ i j, .move i j ∉ Trace.diffs u) (t : Trace δ) :
    (filterMap g (filterMap f p)).Exec src t ↔ (filterMap (fun x => (f x).bind g) p).Exec src t := by
  simp only [Pipe.Exec, rel_vFilterMap]
  have hu : ∀ u, p.Exec src u → ∀ w d, (w, Poll.ready (some d)) ∈ u → ∀ i j, d ≠ .move i j := by
    rintro u h w _ hd i j rfl
    refine hm u h i j ?_
    exact in_items (List.mem_map.2 ⟨_, hd, rfl⟩)
  constructor
  · rintro ⟨v, ⟨u, h, h1⟩, h2⟩
    exact ⟨u, h, ((thru_after _ _ _ _ _ _).1 ⟨v, h1, h2⟩).alike_on (R := Nested) (nest_body f g · · · · ·)
      (show Nested (([], ()), ([], ())) ([], ()) from .nil) (hu u h)⟩
  · rintro ⟨u, h, h3⟩
    obtain ⟨v, h1, h2⟩ := (thru_after (filterMapBody (plainly f)) (filterMapBody (plainly g)) ([], ()) ([], ()) u t).2
      (h3.alike_on (R := fun s s' => Nested s' s) (fun s s' d hd h => (nest_body f g s' s d hd h).flip)
        (show Nested (([], ()), ([], ())) ([], ()) from .nil) (hu u h))
    exact ⟨v, ⟨u, h, h1⟩, h2⟩

/-- The case that `.filter(q)` is used twice. -/
theorem C101_filters_partial (q r : β → Bool) (p : Pipe α β) (src : Nat → Trace α)
    (hm : ∀ u, p.Exec src u → ∀ i j, .move i j ∉ Trace.diffs u) (t : Trace β) :
    (filter r (filter q p)).Exec src t ↔ (filter (fun x => q x && r x) p).Exec src t := by
  have h1 : keep (fun x => q x && r x) = fun x => (keep q x).bind (keep r) := by
    funext x
    cases hq : q x <;> cases hr : r x <;> simp [keep, hq, hr]
  rw [(C101_filter (β := β) (fun x => q x && r x) id p p).1 src t, h1, ← C101_filter_filter_partial _ _ p src hm t,
    (C101_filter (β := β) r id (filter q p) (filter q p)).1 src t]
  have := (C101_filter (β := β) q id p p).1
  unfold Same at this
  simp only [Pipe.Exec] at this ⊢
  simp only [this]

/-- A run with all kinds of changes but `Move`. -/
example : (filter (fun x : Nat => decide (x > 2)) (filter (· != 3) (.source 0))).Exec (fun _ =>
      [(9, .ready (some (.replace [1, 3, 5]))), (9, .ready (some (.insertAt 1 4))), (9, .ready (some (.updateAt 2 7))),
        (9, .ready (some (.removeAt 0))), (9, .ready (some .pop)), (9, .ready (some (.push 3))), (9, .pending)])
    [(9, .ready (some (.replace [5]))), (9, .ready (some (.insertAt 0 4))), (9, .ready (some (.insertAt 1 7))),
      (9, .ready (some .pop)), (9, .pending)] := by
  refine (C101_filters_partial (· != 3) (fun x : Nat => decide (x > 2)) (.source 0) _ ?_ _).2 ⟨_, rfl, _, rfl, rfl⟩
  rintro u rfl i j h
  simp [Trace.diffs, Trace.answers, items] at h

end Pipe

end Verif
