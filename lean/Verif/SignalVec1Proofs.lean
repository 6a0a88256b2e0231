import Verif.SignalVec1Spec

/-!
# Proofs about `map`, `filter`, `filter_map`
-/

namespace Verif

variable {α β κ : Type}

/-! ## `map` -/

theorem mapS_logging (f : α → β) (k l : List α) : mapS (logging f) k l = (l.map f, k ++ l) := by
  induction l generalizing k with
  | nil => simp [mapS]
  | cons a l ih => simp [mapS, logging, ih]

theorem VecDiff.mapS_logging (f : α → β) (k : List α) (d : VecDiff α) :
    d.mapS (logging f) k = (d.map f, k ++ d.payload) := by
  cases d <;> simp [VecDiff.mapS, VecDiff.map, VecDiff.payload, Verif.mapS_logging, logging]

theorem map_apply {d : VecDiff α} {xs ys : List α} (f : α → β) (h : d.apply xs = some ys) :
    (d.map f).apply (xs.map f) = some (ys.map f) := by
  rw [apply_eq_some] at h ⊢
  cases h with
  | replace vs l => exact .replace _ _
  | insertAt p q a => simpa [VecDiff.map] using Applies.insertAt (p.map f) (q.map f) (f a)
  | updateAt p b q a => simpa [VecDiff.map] using Applies.updateAt (p.map f) (f b) (q.map f) (f a)
  | removeAt p b q => simpa [VecDiff.map] using Applies.removeAt (p.map f) (f b) (q.map f)
  | moveFwd p a m q =>
    simpa [VecDiff.map] using Applies.moveFwd (p.map f) (f a) (m.map f) (q.map f)
  | moveBack p m a q =>
    simpa [VecDiff.map] using Applies.moveBack (p.map f) (m.map f) (f a) (q.map f)
  | push l a => simpa [VecDiff.map] using Applies.push (xs.map f) (f a)
  | pop l a => simpa [VecDiff.map] using Applies.pop (ys.map f) (f a)
  | clear l => exact .clear _

/-- An out-of-range diff stays out of range. -/
theorem map_apply_none {d : VecDiff α} {xs : List α} (f : α → β) (h : d.apply xs = none) :
    (d.map f).apply (xs.map f) = none := by
  cases d with
  | replace vs => simp [VecDiff.apply] at h
  | insertAt i a => simp only [VecDiff.map, VecDiff.apply, vInsert_eq_none] at h ⊢; simpa using h
  | updateAt i a => simp only [VecDiff.map, VecDiff.apply, vSet_eq_none] at h ⊢; simpa using h
  | removeAt i =>
    simp only [VecDiff.apply] at h
    cases hr : vRemove xs i with
    | some r => simp [hr] at h
    | none =>
      have : vRemove (xs.map f) i = none := by
        rw [vRemove_eq_none] at hr ⊢; simpa using hr
      simp [VecDiff.map, VecDiff.apply, this]
  | move i j =>
    simp only [VecDiff.apply] at h
    cases hr : vRemove xs i with
    | none =>
      have : vRemove (xs.map f) i = none := by
        rw [vRemove_eq_none] at hr ⊢; simpa using hr
      simp [VecDiff.map, VecDiff.apply, this]
    | some r =>
      obtain ⟨a, vs⟩ := r
      simp only [hr] at h
      obtain ⟨p, q, rfl, rfl, rfl⟩ := vRemove_eq_some.1 hr
      have : vRemove ((p ++ a :: q).map f) p.length = some (f a, (p ++ q).map f) := by
        have := vRemove_append (p.map f) (q.map f) (f a)
        simpa using this
      simp only [VecDiff.map, VecDiff.apply, this]
      rw [vInsert_eq_none] at h ⊢
      simpa using h
  | push a => simp [VecDiff.apply] at h
  | pop =>
    simp only [VecDiff.apply] at h
    cases hl : xs.getLast? with
    | some a => simp [vPop, hl] at h
    | none =>
      rw [List.getLast?_eq_none_iff] at hl
      subst hl
      rfl
  | clear => simp [VecDiff.apply] at h

/-! ## `filter`, `filter_map` -/

/-- Which elements are kept. -/
def flags (f : α → Option β) (xs : List α) : List Bool := xs.map fun a => (f a).isSome

@[simp] theorem flags_append (f : α → Option β) (p q : List α) :
    flags f (p ++ q) = flags f p ++ flags f q := by simp [flags]
@[simp] theorem flags_cons (f : α → Option β) (a : α) (q : List α) :
    flags f (a :: q) = (f a).isSome :: flags f q := by simp [flags]
@[simp] theorem flags_nil (f : α → Option β) : flags f [] = [] := rfl
@[simp] theorem flags_length (f : α → Option β) (p : List α) : (flags f p).length = p.length := by
  simp [flags]

theorem flags_count (f : α → Option β) (p : List α) :
    ((flags f p).filter id).length = (p.filterMap f).length := by
  induction p with
  | nil => rfl
  | cons a p ih =>
    cases h : f a <;> simp_all [flags]

theorem findIndex_flags (f : α → Option β) (p : List α) (q : List Bool) :
    findIndex (flags f p ++ q) p.length = some (p.filterMap f).length := by
  unfold findIndex
  have h1 : p.length ≤ (flags f p ++ q).length := by simp
  have h2 : (flags f p ++ q).take p.length = flags f p := by
    rw [List.take_append_of_le_length (by simp), List.take_of_length_le (by simp)]
  rw [if_pos h1, h2, flags_count]

theorem filterMapS_logging (f : α → Option β) (k l : List α) :
    filterMapS (logging f) k l = (l.filterMap f, flags f l, k ++ l) := by
  induction l generalizing k with
  | nil => simp [filterMapS]
  | cons a l ih =>
    cases h : f a <;> simp [filterMapS, logging, ih, h]

/-- One change: what the loop body of `poll_filter_map` does on well-formed input. -/
theorem filterMapBody_spec (f : α → Option β) (log : List α) {d : VecDiff α} {xs ys : List α}
    (hd : d.apply xs = some ys) (hok : MoveOk f d xs) :
    (filterMapBody (logging f) (flags f xs, log) d = .cont (flags f ys, log ++ d.payload) ∧
      ys.filterMap f = xs.filterMap f) ∨
    ∃ e, filterMapBody (logging f) (flags f xs, log) d = .ret (flags f ys, log ++ d.payload) e ∧
      e.apply (xs.filterMap f) = some (ys.filterMap f) := by
  rw [apply_eq_some] at hd
  cases hd with
  | replace vs l =>
    exact .inr ⟨_, by simp [filterMapBody, filterMapS_logging, VecDiff.payload]; rfl, rfl⟩
  | insertAt p q a =>
    cases h : f a with
    | none =>
      refine .inl ⟨?_, by simp [h]⟩
      have := vInsert_append (flags f p) (flags f q) false
      simp only [flags_length] at this
      simp [filterMapBody, logging, h, this, VecDiff.payload]
    | some b =>
      refine .inr ⟨.insertAt (p.filterMap f).length b, ?_, ?_⟩
      · have := vInsert_append (flags f p) (flags f q) true
        simp only [flags_length] at this
        simp [filterMapBody, logging, h, this, findIndex_flags, VecDiff.payload]
      · simp only [apply_eq_some, List.filterMap_append, List.filterMap_cons, h]
        exact .insertAt _ _ _
  | updateAt p b q a =>
    have hget : (flags f p ++ (f b).isSome :: flags f q)[p.length]? = some (f b).isSome := by
      rw [List.getElem?_append_right (by simp)]; simp
    have hset : ∀ v, (flags f p ++ (f b).isSome :: flags f q).set p.length v =
        flags f p ++ v :: flags f q := by
      intro v
      rw [List.set_append_right _ _ (by simp)]; simp
    cases h : f a with
    | none =>
      cases hb : f b with
      | none =>
        refine .inl ⟨?_, by simp [h, hb]⟩
        rw [hb] at hget
        simp [filterMapBody, logging, h, VecDiff.payload, hb] at hget ⊢
      | some c =>
        refine .inr ⟨.removeAt (p.filterMap f).length, ?_, ?_⟩
        · simp only [hb] at hget hset
          simp [filterMapBody, logging, h, VecDiff.payload, hb, findIndex_flags] at hget hset ⊢
        · simp only [apply_eq_some, List.filterMap_append, List.filterMap_cons, h, hb]
          exact .removeAt _ _ _
    | some a' =>
      cases hb : f b with
      | none =>
        refine .inr ⟨.insertAt (p.filterMap f).length a', ?_, ?_⟩
        · simp only [hb] at hget hset
          simp [filterMapBody, logging, h, VecDiff.payload, hb, findIndex_flags] at hget hset ⊢
        · simp only [apply_eq_some, List.filterMap_append, List.filterMap_cons, h, hb]
          exact .insertAt _ _ _
      | some c =>
        refine .inr ⟨.updateAt (p.filterMap f).length a', ?_, ?_⟩
        · simp only [hb] at hget hset
          simp [filterMapBody, logging, h, VecDiff.payload, hb, findIndex_flags] at hget hset ⊢
        · simp only [apply_eq_some, List.filterMap_append, List.filterMap_cons, h, hb]
          exact .updateAt _ _ _ _
  | removeAt p b q =>
    have hrem := vRemove_append (flags f p) (flags f q) (f b).isSome
    simp only [flags_length] at hrem
    cases hb : f b with
    | none =>
      refine .inl ⟨?_, by simp [hb]⟩
      rw [hb] at hrem
      simp [filterMapBody, hb, VecDiff.payload] at hrem ⊢
      simp [hrem]
    | some c =>
      refine .inr ⟨.removeAt (p.filterMap f).length, ?_, ?_⟩
      · rw [hb] at hrem
        simp [filterMapBody, hb, VecDiff.payload] at hrem ⊢
        simp [hrem, findIndex_flags]
      · simp only [apply_eq_some, List.filterMap_append, List.filterMap_cons, hb]
        exact .removeAt _ _ _
  | push l a =>
    cases h : f a with
    | none => exact .inl ⟨by simp [filterMapBody, logging, h, VecDiff.payload], by simp [h]⟩
    | some b =>
      refine .inr ⟨.push b, by simp [filterMapBody, logging, h, VecDiff.payload], ?_⟩
      simp [VecDiff.apply, h]
  | pop l a =>
    cases h : f a with
    | none =>
      refine .inl ⟨?_, by simp [h]⟩
      simp [filterMapBody, h, VecDiff.payload, vPop_snoc]
    | some b =>
      refine .inr ⟨.pop, by simp [filterMapBody, h, VecDiff.payload, vPop_snoc], ?_⟩
      simp only [apply_eq_some, List.filterMap_append, List.filterMap_cons, h]
      exact .pop _ _
  | clear l => exact .inr ⟨.clear, by simp [filterMapBody, VecDiff.payload], rfl⟩
  | moveFwd p a m q =>
    have hrem := vRemove_append (flags f p) (flags f (m ++ q)) (f a).isSome
    simp only [flags_length, flags_append] at hrem
    have hins := fun v => vInsert_append (flags f p ++ flags f m) (flags f q) v
    simp only [List.length_append, flags_length, List.append_assoc] at hins
    cases h : f a with
    | none =>
      refine .inl ⟨?_, by simp [h]⟩
      rw [h] at hrem
      simp [filterMapBody, h, VecDiff.payload] at hrem ⊢
      simp [hrem, hins]
    | some b =>
      refine .inr ⟨.move (p.filterMap f).length ((p ++ m).filterMap f).length, ?_, ?_⟩
      · have h1 := findIndex_flags f p (flags f m ++ true :: flags f q)
        have h2 := findIndex_flags f (p ++ m) (true :: flags f q)
        rw [h] at hrem
        simp [filterMapBody, h, VecDiff.payload] at hrem h1 h2 ⊢
        simp [hrem, hins, h1, h2]
      · simp only [apply_eq_some, List.filterMap_append, List.filterMap_cons, h, List.length_append]
        exact .moveFwd _ _ _ _
  | moveBack p m a q =>
    have hrem := vRemove_append (flags f p ++ flags f m) (flags f q) (f a).isSome
    simp only [List.length_append, flags_length, List.append_assoc] at hrem
    have hins := fun v => vInsert_append (flags f p) (flags f m ++ flags f q) v
    simp only [flags_length] at hins
    cases h : f a with
    | none =>
      refine .inl ⟨?_, by simp [h]⟩
      rw [h] at hrem
      simp [filterMapBody, h, VecDiff.payload] at hrem ⊢
      simp [hrem, hins]
    | some b =>
      refine .inr ⟨.move ((p ++ m).filterMap f).length (p.filterMap f).length, ?_, ?_⟩
      · have h1 := findIndex_flags f p (true :: (flags f m ++ flags f q))
        have h2 : findIndex (flags f p ++ true :: (flags f m ++ flags f q)) (p.length + m.length) =
            some ((p ++ m).filterMap f).length := by
          rcases List.eq_nil_or_concat m with rfl | ⟨m', c, rfl⟩
          · simpa using h1
          · -- the element before the moved one is kept
            have hc : (f c).isSome = true := by
              have := hok (by simp)
              rcases this with h' | h'
              · have := h' a (by
                  rw [List.getElem?_append_right (by simp)]; simp)
                rw [h] at this; cases this
              · apply h'
                simp [List.getElem?_append]
            have hm : findIndex (flags f (p ++ a :: m') ++ ((f c).isSome :: flags f q))
                (p ++ a :: m').length = some ((p ++ a :: m').filterMap f).length :=
              findIndex_flags f (p ++ a :: m') _
            have : flags f p ++ true :: (flags f (m' ++ [c]) ++ flags f q) =
                flags f (p ++ a :: m') ++ ((f c).isSome :: flags f q) := by simp [h]
            simp only [List.concat_eq_append] at *
            rw [this]
            have e1 : p.length + (m' ++ [c]).length = (p ++ a :: m').length := by simp
            rw [e1, hm]
            obtain ⟨c', hc'⟩ := Option.isSome_iff_exists.1 hc
            simp [h, hc']
        rw [h] at hrem
        simp [filterMapBody, h, VecDiff.payload] at hrem h1 h2 ⊢
        simp [hrem, hins, h1, h2]
      · simp only [apply_eq_some, List.filterMap_append, List.filterMap_cons, h, List.length_append]
        exact .moveBack _ _ _ _

end Verif
