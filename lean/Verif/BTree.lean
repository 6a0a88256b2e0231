import Verif.MapDiff

/-!
# Facts about maps, ordered maps and replaying `MapDiff`s
-/

namespace Verif

variable {K V W : Type}

section
variable [DecidableEq K]

theorem upd_same (m : K → Option V) (k : K) (v : Option V) : upd m k v k = v := by simp [upd]

theorem upd_other (m : K → Option V) {k j : K} (v : Option V) (h : j ≠ k) : upd m k v j = m j := by
  simp [upd, h]

theorem mapOf_mem {l : List (K × V)} {k : K} {v : V} (h : mapOf l k = some v) : (k, v) ∈ l := by
  induction l with
  | nil => simp [mapOf] at h
  | cons e l ih =>
    simp only [mapOf] at h
    split at h
    · rename_i he; simp at h; subst he; subst h; simp
    · exact List.mem_cons_of_mem _ (ih h)

theorem mapOf_eq_none {l : List (K × V)} {k : K} : mapOf l k = none ↔ k ∉ l.map (·.1) := by
  induction l with
  | nil => simp [mapOf]
  | cons e l ih =>
    simp only [mapOf, List.map_cons, List.mem_cons, not_or]
    split
    · rename_i he; simp [he]
    · rename_i he; rw [ih]; simp [Ne.symm he]

theorem mapOf_isSome {l : List (K × V)} {k : K} : (mapOf l k).isSome ↔ k ∈ l.map (·.1) := by
  have := mapOf_eq_none (l := l) (k := k)
  cases h : mapOf l k with
  | none => simp only [h, true_iff] at this; simp only [Option.isSome_none, Bool.false_eq_true, false_iff]; exact this
  | some v =>
    simp only [h, reduceCtorEq, false_iff] at this
    simp only [Option.isSome_some, true_iff]
    exact Decidable.not_not.1 this

theorem mapOf_map (f : V → W) (l : List (K × V)) (k : K) :
    mapOf (l.map fun e => (e.1, f e.2)) k = (mapOf l k).map f := by
  induction l with
  | nil => rfl
  | cons e l ih =>
    simp only [List.map_cons, mapOf]
    split <;> simp_all

theorem mapOf_of_mem {l : List (K × V)} (hn : (l.map (·.1)).Nodup) {k : K} {v : V}
    (h : (k, v) ∈ l) : mapOf l k = some v := by
  induction l with
  | nil => simp at h
  | cons e l ih =>
    simp only [List.map_cons, List.nodup_cons] at hn
    simp only [mapOf]
    rcases List.mem_cons.1 h with rfl | h
    · simp
    · have : e.1 ≠ k := by
        rintro rfl
        exact hn.1 (List.mem_map.2 ⟨_, h, rfl⟩)
      simp [this, ih hn.2 h]

theorem mreplay_append (xs ys : List (MapDiff K V)) (m : K → Option V) :
    mreplay (xs ++ ys) m = (mreplay xs m).bind (mreplay ys) := by
  induction xs generalizing m with
  | nil => rfl
  | cons d xs ih =>
    simp only [List.cons_append, mreplay]
    cases d.apply m with
    | none => rfl
    | some m' => simp [ih]

theorem mreplay_append_some {xs ys : List (MapDiff K V)} {m m' : K → Option V}
    (h : mreplay xs m = some m') : mreplay (xs ++ ys) m = mreplay ys m' := by
  rw [mreplay_append, h]; rfl

theorem mreplay_singleton (d : MapDiff K V) (m : K → Option V) : mreplay [d] m = d.apply m := by
  simp only [mreplay]
  cases d.apply m <;> rfl

theorem mreplay_snoc {xs : List (MapDiff K V)} {d : MapDiff K V} {m m' : K → Option V}
    (h : mreplay xs m = some m') : mreplay (xs ++ [d]) m = d.apply m' := by
  rw [mreplay_append_some h, mreplay_singleton]

theorem mreplay_prefix {xs ys : List (MapDiff K V)} {m m' : K → Option V}
    (h : mreplay (xs ++ ys) m = some m') :
    ∃ m1, mreplay xs m = some m1 ∧ mreplay ys m1 = some m' := by
  rw [mreplay_append] at h
  cases hx : mreplay xs m with
  | none => simp [hx] at h
  | some m1 => exact ⟨m1, rfl, by simpa [hx] using h⟩

theorem mreplay_cons_some {d : MapDiff K V} {ds : List (MapDiff K V)} {m m' : K → Option V}
    (h : mreplay (d :: ds) m = some m') : ∃ m1, d.apply m = some m1 ∧ mreplay ds m1 = some m' := by
  simp only [mreplay] at h
  cases hd : d.apply m with
  | none => simp [hd] at h
  | some m1 => exact ⟨m1, rfl, by simpa [hd] using h⟩

/-- Naturality of `MapDiff::map`. -/
theorem map_apply' (f : V → W) (d : MapDiff K V) (m : K → Option V) :
    (d.map f).apply (fun k => (m k).map f) = (d.apply m).map (fun m' k => (m' k).map f) := by
  cases d with
  | replace es =>
    simp only [MapDiff.map, MapDiff.apply, List.map_map, Function.comp_def]
    split
    · simp only [Option.map_some, Option.some.injEq]
      funext k; exact mapOf_map f es k
    · rfl
  | insert k v =>
    simp only [MapDiff.map, MapDiff.apply, Option.isNone_map]
    split
    · simp only [Option.map_some, Option.some.injEq]
      funext j; simp only [upd]; split <;> rfl
    · rfl
  | update k v =>
    simp only [MapDiff.map, MapDiff.apply, Option.isSome_map]
    split
    · simp only [Option.map_some, Option.some.injEq]
      funext j; simp only [upd]; split <;> rfl
    · rfl
  | remove k =>
    simp only [MapDiff.map, MapDiff.apply, Option.isSome_map]
    split
    · simp only [Option.map_some, Option.some.injEq]
      funext j; simp only [upd]; split <;> rfl
    · rfl
  | clear => rfl

end

section
variable [LinearOrder K]

theorem Ascending.nodup {l : List (K × V)} (h : Ascending l) : (l.map (·.1)).Nodup := by
  unfold List.Nodup
  rw [List.pairwise_map]
  exact List.Pairwise.imp (fun h => ne_of_lt h) h

theorem mapOf_lt {l : List (K × V)} {k : K} (h : ∀ e ∈ l, k < e.1) : mapOf l k = none := by
  rw [mapOf_eq_none]
  intro hm
  obtain ⟨e, he, rfl⟩ := List.mem_map.1 hm
  exact lt_irrefl _ (h e he)

theorem bInsert_spec {l : List (K × V)} (hl : Ascending l) (k : K) (v : V) :
    (bInsert k v l).1 = mapOf l k ∧ Ascending (bInsert k v l).2 ∧
    mapOf (bInsert k v l).2 = upd (mapOf l) k (some v) ∧
    (∀ e ∈ (bInsert k v l).2, e = (k, v) ∨ e ∈ l) := by
  induction l with
  | nil =>
    refine ⟨rfl, by simp [bInsert, Ascending], ?_, by simp [bInsert]⟩
    funext j
    simp only [bInsert, mapOf, upd, eq_comm]
  | cons e l ih =>
    have hl' := List.pairwise_cons.1 hl
    obtain ⟨h1, h2, h3, h4⟩ := ih hl'.2
    simp only [bInsert]
    split
    · rename_i hlt
      refine ⟨?_, ?_, ?_, ?_⟩
      · refine (mapOf_lt ?_).symm
        intro x hx
        rcases List.mem_cons.1 hx with rfl | hx
        · exact hlt
        · exact lt_trans hlt (hl'.1 x hx)
      · refine List.pairwise_cons.2 ⟨?_, hl⟩
        intro x hx
        rcases List.mem_cons.1 hx with rfl | hx
        · exact hlt
        · exact lt_trans hlt (hl'.1 x hx)
      · funext j
        simp only [upd]
        rw [mapOf]
        simp only [eq_comm (a := k)]
      · intro x hx
        rcases List.mem_cons.1 hx with rfl | hx
        · exact .inl rfl
        · exact .inr hx
    · rename_i hlt
      split
      · rename_i heq
        subst heq
        refine ⟨by simp [mapOf], ?_, ?_, ?_⟩
        · exact List.pairwise_cons.2 ⟨hl'.1, hl'.2⟩
        · funext j
          simp only [mapOf, upd, eq_comm (a := e.1)]
          split <;> rfl
        · intro x hx
          rcases List.mem_cons.1 hx with rfl | hx
          · exact .inl rfl
          · exact .inr (List.mem_cons_of_mem _ hx)
      · rename_i hne
        have hgt : e.1 < k := lt_of_le_of_ne (le_of_not_gt hlt) (Ne.symm hne)
        refine ⟨?_, ?_, ?_, ?_⟩
        · rw [h1]; simp [mapOf, Ne.symm hne]
        · refine List.pairwise_cons.2 ⟨?_, h2⟩
          intro x hx
          rcases h4 x hx with rfl | hx
          · exact hgt
          · exact hl'.1 x hx
        · funext j
          simp only [mapOf, h3, upd]
          by_cases hj : j = k
          · subst hj; simp [Ne.symm hne]
          · simp [hj]
        · intro x hx
          rcases List.mem_cons.1 hx with rfl | hx
          · exact .inr (by simp)
          · rcases h4 x hx with h | h
            · exact .inl h
            · exact .inr (List.mem_cons_of_mem _ h)

theorem bRemove_spec {l : List (K × V)} (hl : Ascending l) (k : K) :
    (bRemove k l).1 = mapOf l k ∧ Ascending (bRemove k l).2 ∧
    mapOf (bRemove k l).2 = upd (mapOf l) k none ∧
    (∀ e ∈ (bRemove k l).2, e ∈ l) := by
  induction l with
  | nil =>
    refine ⟨rfl, by simp [bRemove, Ascending], ?_, by simp [bRemove]⟩
    funext j
    simp [bRemove, mapOf, upd]
  | cons e l ih =>
    have hl' := List.pairwise_cons.1 hl
    obtain ⟨h1, h2, h3, h4⟩ := ih hl'.2
    simp only [bRemove]
    split
    · rename_i hlt
      have hn : mapOf (e :: l) k = none := by
        refine mapOf_lt ?_
        intro x hx
        rcases List.mem_cons.1 hx with rfl | hx
        · exact hlt
        · exact lt_trans hlt (hl'.1 x hx)
      refine ⟨hn.symm, hl, ?_, fun _ h => h⟩
      funext j
      simp only [upd]
      split
      · rename_i h; subst h; exact hn
      · rfl
    · rename_i hlt
      split
      · rename_i heq
        subst heq
        refine ⟨by simp [mapOf], hl'.2, ?_, fun x h => List.mem_cons_of_mem _ h⟩
        funext j
        simp only [upd, mapOf]
        split
        · rename_i h; subst h; exact mapOf_lt hl'.1
        · rename_i h; simp [Ne.symm h]
      · rename_i hne
        refine ⟨?_, ?_, ?_, ?_⟩
        · rw [h1]; simp [mapOf, Ne.symm hne]
        · exact List.pairwise_cons.2 ⟨fun x hx => hl'.1 x (h4 x hx), h2⟩
        · funext j
          simp only [mapOf, h3, upd]
          by_cases hj : j = k
          · subst hj; simp [Ne.symm hne]
          · simp [hj]
        · intro x hx
          rcases List.mem_cons.1 hx with rfl | hx
          · simp
          · exact List.mem_cons_of_mem _ (h4 x hx)

theorem bUpdate_spec {l : List (K × V)} (hl : Ascending l) (k : K) (v : V)
    (hk : (mapOf l k).isSome) :
    ∃ l', bUpdate k v l = some l' ∧ Ascending l' ∧ mapOf l' = upd (mapOf l) k (some v) ∧
      l'.map (·.1) = l.map (·.1) := by
  induction l with
  | nil => simp [mapOf] at hk
  | cons e l ih =>
    have hl' := List.pairwise_cons.1 hl
    simp only [bUpdate]
    split
    · rename_i heq
      subst heq
      refine ⟨_, rfl, List.pairwise_cons.2 ⟨hl'.1, hl'.2⟩, ?_, by simp⟩
      funext j
      simp only [mapOf, upd, eq_comm (a := e.1)]
      split <;> rfl
    · rename_i hne
      simp only [mapOf, Ne.symm hne, ↓reduceIte] at hk
      obtain ⟨l', h1, h2, h3, h4⟩ := ih hl'.2 hk
      refine ⟨e :: l', by simp [h1], List.pairwise_cons.2 ⟨?_, h2⟩, ?_, by simp [h4]⟩
      · intro x hx
        have : x.1 ∈ l.map (·.1) := h4 ▸ List.mem_map_of_mem hx
        obtain ⟨y, hy, hxy⟩ := List.mem_map.1 this
        rw [← hxy]; exact hl'.1 y hy
      · funext j
        simp only [mapOf, h3, upd]
        by_cases hj : j = k
        · subst hj; simp [Ne.symm hne]
        · simp [hj]

/-- An ordered map is determined by its entries. -/
theorem mapOf_inj {l l' : List (K × V)} (hl : Ascending l) (hl' : Ascending l')
    (h : mapOf l = mapOf l') : l = l' := by
  induction l generalizing l' with
  | nil =>
    cases l' with
    | nil => rfl
    | cons e l' =>
      have := congrFun h e.1
      simp [mapOf] at this
  | cons e l ih =>
    cases l' with
    | nil =>
      have := congrFun h e.1
      simp [mapOf] at this
    | cons e' l' =>
      have h1 := List.pairwise_cons.1 hl
      have h2 := List.pairwise_cons.1 hl'
      have hk : e.1 = e'.1 := by
        rcases lt_trichotomy e.1 e'.1 with hlt | heq | hgt
        · have := congrFun h e.1
          rw [mapOf_lt (l := e' :: l')] at this
          · simp [mapOf] at this
          · intro x hx
            rcases List.mem_cons.1 hx with rfl | hx
            · exact hlt
            · exact lt_trans hlt (h2.1 x hx)
        · exact heq
        · have := congrFun h e'.1
          rw [mapOf_lt (l := e :: l)] at this
          · simp [mapOf] at this
          · intro x hx
            rcases List.mem_cons.1 hx with rfl | hx
            · exact hgt
            · exact lt_trans hgt (h1.1 x hx)
      have hv : e.2 = e'.2 := by
        have := congrFun h e.1
        simpa [mapOf, hk] using this
      have he : e = e' := Prod.ext hk hv
      subst he
      congr 1
      refine ih h1.2 h2.2 ?_
      funext j
      by_cases hj : e.1 = j
      · subst hj; rw [mapOf_lt h1.1, mapOf_lt h2.1]
      · have := congrFun h j
        simpa [mapOf, hj] using this

theorem ascending_of_keys {l : List (K × V)} {l' : List (K × W)}
    (h : l'.map (·.1) = l.map (·.1)) (hl : Ascending l) : Ascending l' := by
  have h1 : (l.map (·.1)).Pairwise (· < ·) := List.pairwise_map.2 hl
  rw [← h] at h1
  exact List.pairwise_map.1 h1

end

end Verif
