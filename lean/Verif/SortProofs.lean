import Verif.SortSpec
import Verif.Lemmas

/-!
# Proofs for `sort_by_cloned`
-/

namespace Verif

variable {α : Type}

namespace TotalPreorder

variable {cmp : α → α → Ordering}

theorem refl (h : TotalPreorder cmp) (a : α) : cmp a a = .eq := by
  have := h.swap a a
  cases hc : cmp a a <;> simp_all [Ordering.swap]

theorem trans_lt (h : TotalPreorder cmp) {a b c : α} (h1 : cmp a b = .lt) (h2 : cmp b c ≠ .gt) :
    cmp a c = .lt := by
  have h3 := h.trans a b c (by simp [h1]) h2
  cases hc : cmp a c with
  | lt => rfl
  | gt => exact absurd hc h3
  | eq =>
    have h4 := h.trans b c a h2 (by rw [h.swap a c, hc]; simp [Ordering.swap])
    rw [h.swap a b, h1] at h4
    simp [Ordering.swap] at h4

theorem trans_lt' (h : TotalPreorder cmp) {a b c : α} (h1 : cmp a b ≠ .gt) (h2 : cmp b c = .lt) :
    cmp a c = .lt := by
  have h3 := h.trans a b c h1 (by simp [h2])
  cases hc : cmp a c with
  | lt => rfl
  | gt => exact absurd hc h3
  | eq =>
    have h4 := h.trans c a b (by rw [h.swap a c, hc]; simp [Ordering.swap]) h1
    rw [h.swap b c, h2] at h4
    simp [Ordering.swap] at h4

theorem trans_eq (h : TotalPreorder cmp) {a b c : α} (h1 : cmp a b = .eq) (h2 : cmp b c = .eq) :
    cmp a c = .eq := by
  have h3 := h.trans a b c (by simp [h1]) (by simp [h2])
  have h4 := h.trans c b a (by rw [h.swap b c, h2]; simp [Ordering.swap])
    (by rw [h.swap a b, h1]; simp [Ordering.swap])
  rw [h.swap a c] at h4
  cases hc : cmp a c <;> simp_all [Ordering.swap]

end TotalPreorder

section

variable {cmp : α → α → Ordering}

theorem sortCmp_of {values : List α} {i j : Nat} {a b : α} (hi : values[i]? = some a)
    (hj : values[j]? = some b) : sortCmp cmp values i j = (cmp a b).then (compare i j) := by
  simp [sortCmp, hi, hj]

theorem get_of_lt {values : List α} {i : Nat} (h : i < values.length) :
    ∃ a, values[i]? = some a := ⟨values[i], by simp [h]⟩

theorem then_eq_lt {a : Ordering} {i j : Nat} :
    a.then (compare i j) = .lt ↔ a = .lt ∨ (a = .eq ∧ i < j) := by
  cases a <;> simp [Ordering.then, Nat.compare_eq_lt]
theorem then_eq_gt {a : Ordering} {i j : Nat} :
    a.then (compare i j) = .gt ↔ a = .gt ∨ (a = .eq ∧ j < i) := by
  cases a <;> simp [Ordering.then, Nat.compare_eq_gt]
theorem then_eq_eq {a : Ordering} {i j : Nat} :
    a.then (compare i j) = .eq ↔ a = .eq ∧ i = j := by
  cases a <;> simp [Ordering.then, Nat.compare_eq_eq]

theorem sortCmp_swap (h : TotalPreorder cmp) {values : List α} {i j : Nat} (hi : i < values.length)
    (hj : j < values.length) : sortCmp cmp values j i = (sortCmp cmp values i j).swap := by
  obtain ⟨a, ha⟩ := get_of_lt hi
  obtain ⟨b, hb⟩ := get_of_lt hj
  rw [sortCmp_of ha hb, sortCmp_of hb ha, h.swap a b, Ordering.swap_then]
  congr 1
  exact (Nat.compare_swap i j).symm

theorem sortCmp_eq (h : TotalPreorder cmp) {values : List α} {i j : Nat} (hi : i < values.length)
    (hj : j < values.length) : sortCmp cmp values i j = .eq ↔ i = j := by
  obtain ⟨a, ha⟩ := get_of_lt hi
  obtain ⟨b, hb⟩ := get_of_lt hj
  rw [sortCmp_of ha hb, then_eq_eq]
  constructor
  · exact fun h => h.2
  · rintro rfl
    rw [ha] at hb
    cases hb
    exact ⟨h.refl a, rfl⟩

theorem sortCmp_trans (h : TotalPreorder cmp) {values : List α} {i j k : Nat} (hi : i < values.length)
    (hj : j < values.length) (hk : k < values.length) (h1 : sortCmp cmp values i j = .lt)
    (h2 : sortCmp cmp values j k = .lt) : sortCmp cmp values i k = .lt := by
  obtain ⟨a, ha⟩ := get_of_lt hi
  obtain ⟨b, hb⟩ := get_of_lt hj
  obtain ⟨c, hc⟩ := get_of_lt hk
  rw [sortCmp_of ha hb, then_eq_lt] at h1
  rw [sortCmp_of hb hc, then_eq_lt] at h2
  rw [sortCmp_of ha hc, then_eq_lt]
  rcases h1 with h1 | ⟨h1, g1⟩ <;> rcases h2 with h2 | ⟨h2, g2⟩
  · exact .inl (h.trans_lt h1 (by simp [h2]))
  · exact .inl (h.trans_lt h1 (by simp [h2]))
  · exact .inl (h.trans_lt' (by simp [h1]) h2)
  · exact .inr ⟨h.trans_eq h1 h2, by omega⟩

theorem sortCmp_trans_le (h : TotalPreorder cmp) {values : List α} {i j k : Nat}
    (hi : i < values.length) (hj : j < values.length) (hk : k < values.length)
    (h1 : sortCmp cmp values i j ≠ .gt) (h2 : sortCmp cmp values j k ≠ .gt) :
    sortCmp cmp values i k ≠ .gt := by
  by_cases e1 : i = j
  · subst e1; exact h2
  · by_cases e2 : j = k
    · subst e2; exact h1
    · have l1 : sortCmp cmp values i j = .lt := by
        cases hc : sortCmp cmp values i j with
        | lt => rfl
        | gt => exact absurd hc h1
        | eq => exact absurd ((sortCmp_eq h hi hj).1 hc) e1
      have l2 : sortCmp cmp values j k = .lt := by
        cases hc : sortCmp cmp values j k with
        | lt => rfl
        | gt => exact absurd hc h2
        | eq => exact absurd ((sortCmp_eq h hj hk).1 hc) e2
      rw [sortCmp_trans h hi hj hk l1 l2]
      simp

/-- `indexes` lists the positions of `values` in sorted order. -/
structure SInv (cmp : α → α → Ordering) (values : List α) (indexes : List Nat) : Prop where
  mem : ∀ i, i ∈ indexes ↔ i < values.length
  sorted : indexes.Pairwise (fun i j => sortCmp cmp values i j = .lt)

/-- `indexes` lists the positions of `values` except `index` in sorted order. -/
structure SPart (cmp : α → α → Ordering) (values : List α) (indexes : List Nat) (index : Nat) :
    Prop where
  mem : ∀ i, i ∈ indexes ↔ i < values.length ∧ i ≠ index
  sorted : indexes.Pairwise (fun i j => sortCmp cmp values i j = .lt)

/-- `zs` are the values at the positions `indexes`. -/
def Out (values : List α) (indexes : List Nat) (zs : List α) : Prop :=
  indexes.map (fun i => values[i]?) = zs.map some

theorem Out.append {values : List α} {ls gs : List Nat} {zs : List α} (h : Out values (ls ++ gs) zs) :
    ∃ z1 z2, zs = z1 ++ z2 ∧ z1.length = ls.length ∧ Out values ls z1 ∧ Out values gs z2 := by
  unfold Out at h ⊢
  rw [List.map_append] at h
  obtain ⟨z1, z2, rfl, h1, h2⟩ := List.append_eq_map_iff.1 h
  exact ⟨z1, z2, rfl, by simpa using congrArg List.length h1, h1.symm, h2.symm⟩

theorem Out.cons {values : List α} {i : Nat} {gs : List Nat} {zs : List α}
    (h : Out values (i :: gs) zs) : ∃ a z2, zs = a :: z2 ∧ values[i]? = some a ∧ Out values gs z2 := by
  unfold Out at h ⊢
  rw [List.map_cons] at h
  obtain ⟨a, z2, rfl, h1, h2⟩ := List.map_eq_cons_iff.1 h.symm
  exact ⟨a, z2, rfl, h1.symm, h2.symm⟩

theorem Out.insert {values : List α} {ls gs : List Nat} {z1 z2 : List α} {i : Nat} {v : α}
    (h1 : Out values ls z1) (h2 : Out values gs z2) (hv : values[i]? = some v) :
    Out values (ls ++ i :: gs) (z1 ++ v :: z2) := by
  unfold Out at *
  simp [h1, h2, hv]

/-- Splitting a sorted list at a position not in it. -/
theorem split_at (h : TotalPreorder cmp) {values : List α} {is : List Nat} {index : Nat}
    (hx : index < values.length) (hm : ∀ i ∈ is, i < values.length ∧ i ≠ index)
    (hs : is.Pairwise (fun i j => sortCmp cmp values i j = .lt)) :
    ∃ ls gs, is = ls ++ gs ∧ (∀ i ∈ ls, sortCmp cmp values i index = .lt) ∧
      (∀ i ∈ gs, sortCmp cmp values i index = .gt) := by
  induction is with
  | nil => exact ⟨[], [], rfl, by simp, by simp⟩
  | cons i is ih =>
    have hi := hm i (by simp)
    rw [List.pairwise_cons] at hs
    cases hc : sortCmp cmp values i index with
    | eq => exact absurd ((sortCmp_eq h hi.1 hx).1 hc) hi.2
    | lt =>
      obtain ⟨ls, gs, rfl, h1, h2⟩ := ih (fun j hj => hm j (by simp [hj])) hs.2
      exact ⟨i :: ls, gs, rfl, by simpa [hc] using h1, h2⟩
    | gt =>
      refine ⟨[], i :: is, rfl, by simp, fun j hj => ?_⟩
      rcases List.mem_cons.1 hj with rfl | hj
      · exact hc
      · have hj' := hm j (by simp [hj])
        have h3 : sortCmp cmp values index i = .lt := by
          rw [sortCmp_swap h hi.1 hx, hc]; rfl
        have h4 := sortCmp_trans h hx hi.1 hj'.1 h3 (hs.1 j hj)
        rw [sortCmp_swap h hx hj'.1, h4]; rfl

theorem all_lt {is : List Nat} {n : Nat} (h : ∀ i ∈ is, i < n) : is.all (· < n) = true := by
  simpa using h

theorem searchInsert_spec {S : SliceFns} (hS : S.Lawful) (h : TotalPreorder cmp) {values : List α}
    {is : List Nat} {index : Nat} (hp : SPart cmp values is index) (hx : index < values.length) :
    ∃ ls gs, is = ls ++ gs ∧ sortSearchInsert S cmp values is index = some ls.length ∧
      SInv cmp values (ls ++ index :: gs) := by
  obtain ⟨ls, gs, rfl, h1, h2⟩ := split_at h hx (fun i hi => (hp.mem i).1 hi) hp.sorted
  refine ⟨ls, gs, rfl, ?_, ?_, ?_⟩
  · simp only [sortSearchInsert, sortSearch, all_lt (fun i hi => ((hp.mem i).1 hi).1), hx,
      decide_true, Bool.and_self, if_true,
      hS.search_missing (fun i => sortCmp cmp values i index) ls gs h1 h2]
  · intro i
    have := hp.mem i
    simp only [List.mem_append, List.mem_cons] at this ⊢
    by_cases e : i = index
    · simp [e, hx]
    · simp [e] at this ⊢; exact this
  · have hs := hp.sorted
    rw [List.pairwise_append] at hs ⊢
    refine ⟨hs.1, List.pairwise_cons.2 ⟨fun j hj => ?_, hs.2.1⟩, fun i hi j hj => ?_⟩
    · have hj' := (hp.mem j).1 (by simp [hj])
      rw [sortCmp_swap h hj'.1 hx, h2 j hj]; rfl
    · rcases List.mem_cons.1 hj with rfl | hj
      · exact h1 i hi
      · exact hs.2.2 i hi j hj

theorem searchRemove_spec {S : SliceFns} (hS : S.Lawful) (h : TotalPreorder cmp) {values : List α}
    {is : List Nat} {index : Nat} (hp : SInv cmp values is) (hx : index < values.length) :
    ∃ ls gs, is = ls ++ index :: gs ∧ sortSearchRemove S cmp values is index = some ls.length ∧
      SPart cmp values (ls ++ gs) index := by
  obtain ⟨ls, gs, rfl⟩ := List.append_of_mem ((hp.mem index).2 hx)
  have hs := hp.sorted
  rw [List.pairwise_append, List.pairwise_cons] at hs
  have hlt : ∀ i ∈ ls ++ index :: gs, i < values.length := fun i hi => (hp.mem i).1 hi
  have h1 : ∀ i ∈ ls, sortCmp cmp values i index = .lt := fun i hi => hs.2.2 i hi index (by simp)
  have h2 : ∀ i ∈ gs, sortCmp cmp values i index = .gt := fun i hi => by
    rw [sortCmp_swap h hx (hlt i (by simp [hi])), hs.2.1.1 i hi]; rfl
  refine ⟨ls, gs, rfl, ?_, ?_, ?_⟩
  · obtain ⟨k, hk, k1, k2⟩ := hS.search_found (fun i => sortCmp cmp values i index) ls [index] gs h1
      (by simpa using (sortCmp_eq h hx hx).2 rfl) h2 (by simp)
    have : k = ls.length := by simp at k2; omega
    subst this
    simp only [List.append_assoc, List.singleton_append] at hk
    simp only [sortSearchRemove, sortSearch, all_lt hlt, hx, decide_true, Bool.and_self, if_true, hk]
  · intro i
    have := hp.mem i
    simp only [List.mem_append, List.mem_cons] at this ⊢
    by_cases e : i = index
    · subst e
      simp only [hx, ne_eq, not_true_eq_false, and_false, iff_false, not_or]
      constructor
      · intro hi; have := h1 i hi; rw [(sortCmp_eq h hx hx).2 rfl] at this; cases this
      · intro hi; have := h2 i hi; rw [(sortCmp_eq h hx hx).2 rfl] at this; cases this
    · simp [e] at this ⊢; exact this
  · rw [List.pairwise_append]
    exact ⟨hs.1, hs.2.1.2, fun i hi j hj => hs.2.2 i hi j (by simp [hj])⟩

/-! ## Relabelling -/

theorem get_inc (p q : List α) (v : α) (i : Nat) :
    (p ++ v :: q)[if i ≥ p.length then i + 1 else i]? = (p ++ q)[i]? := by
  by_cases h : i ≥ p.length
  · simp only [h, if_true]
    rw [List.getElem?_append_right (by omega), List.getElem?_append_right h,
      show i + 1 - p.length = (i - p.length) + 1 by omega, List.getElem?_cons_succ]
  · simp only [h, if_false]
    rw [List.getElem?_append_left (by omega), List.getElem?_append_left (by omega)]

theorem get_dec (p q : List α) (v : α) (i : Nat) (h : i ≠ p.length) :
    (p ++ q)[if i > p.length then i - 1 else i]? = (p ++ v :: q)[i]? := by
  have := get_inc p q v (if i > p.length then i - 1 else i)
  rw [← this]
  congr 1
  split <;> split <;> omega

theorem compare_inc (n i j : Nat) :
    compare (if i ≥ n then i + 1 else i) (if j ≥ n then j + 1 else j) = compare i j := by
  simp only [compare, compareOfLessAndEq]
  grind

theorem compare_dec (n i j : Nat) (hi : i ≠ n) (hj : j ≠ n) :
    compare (if i > n then i - 1 else i) (if j > n then j - 1 else j) = compare i j := by
  simp only [compare, compareOfLessAndEq]
  grind

theorem sortCmp_congr {v1 v2 : List α} {i j i' j' : Nat} (hi : v1[i]? = v2[i']?)
    (hj : v1[j]? = v2[j']?) (hc : compare i j = compare i' j') :
    sortCmp cmp v1 i j = sortCmp cmp v2 i' j' := by
  unfold sortCmp
  rw [hi, hj]
  split <;> simp_all

theorem SInv.inc {p q : List α} {is : List Nat} (v : α) (h : SInv cmp (p ++ q) is) :
    SPart cmp (p ++ v :: q) (incIndexes is p.length) p.length := by
  refine ⟨fun i => ?_, ?_⟩
  · unfold incIndexes
    simp only [List.mem_map, h.mem, List.length_append, List.length_cons]
    constructor
    · rintro ⟨j, hj, rfl⟩; split <;> omega
    · rintro ⟨h1, h2⟩
      by_cases hlt : i < p.length
      · exact ⟨i, by omega, by split <;> omega⟩
      · exact ⟨i - 1, by omega, by split <;> omega⟩
  · unfold incIndexes
    rw [List.pairwise_map]
    refine h.sorted.imp fun {a b} hab => ?_
    rw [← hab]
    exact sortCmp_congr (get_inc p q v a) (get_inc p q v b) (compare_inc _ _ _)

theorem SPart.dec {p q : List α} {v : α} {is : List Nat} (h : SPart cmp (p ++ v :: q) is p.length) :
    SInv cmp (p ++ q) (decIndexes is p.length) := by
  refine ⟨fun i => ?_, ?_⟩
  · unfold decIndexes
    simp only [List.mem_map, h.mem, List.length_append, List.length_cons]
    constructor
    · rintro ⟨j, hj, rfl⟩; split <;> omega
    · intro h1
      by_cases hlt : i < p.length
      · exact ⟨i, by omega, by split <;> omega⟩
      · exact ⟨i + 1, by omega, by split <;> omega⟩
  · unfold decIndexes
    rw [List.pairwise_map]
    refine List.Pairwise.imp_of_mem ?_ h.sorted
    intro a b ha hb hab
    rw [← hab]
    have ha' := ((h.mem a).1 ha).2
    have hb' := ((h.mem b).1 hb).2
    exact sortCmp_congr (get_dec p q v a ha') (get_dec p q v b hb') (compare_dec _ _ _ ha' hb')

theorem get_set (p q : List α) (a b : α) (i : Nat) (h : i ≠ p.length) :
    (p ++ a :: q)[i]? = (p ++ b :: q)[i]? := by
  rw [← get_dec p q a i h, ← get_dec p q b i h]

theorem SPart.set {p q : List α} {b : α} {is : List Nat} (a : α)
    (h : SPart cmp (p ++ b :: q) is p.length) : SPart cmp (p ++ a :: q) is p.length := by
  refine ⟨fun i => by simpa using h.mem i, ?_⟩
  refine List.Pairwise.imp_of_mem ?_ h.sorted
  intro x y hx hy hxy
  rw [← hxy]
  exact sortCmp_congr (get_set p q a b x ((h.mem x).1 hx).2) (get_set p q a b y ((h.mem y).1 hy).2) rfl

theorem Out.inc {p q : List α} {is : List Nat} {zs : List α} (v : α) (h : Out (p ++ q) is zs) :
    Out (p ++ v :: q) (incIndexes is p.length) zs := by
  unfold Out incIndexes at *
  rw [← h, List.map_map]
  refine List.map_congr_left fun i _ => get_inc p q v i

theorem Out.dec {p q : List α} {v : α} {is : List Nat} {zs : List α} (hm : ∀ i ∈ is, i ≠ p.length)
    (h : Out (p ++ v :: q) is zs) : Out (p ++ q) (decIndexes is p.length) zs := by
  unfold Out decIndexes at *
  rw [← h, List.map_map]
  refine List.map_congr_left fun i hi => get_dec p q v i (hm i hi)

theorem Out.set {p q : List α} {b : α} {is : List Nat} {zs : List α} (a : α)
    (hm : ∀ i ∈ is, i ≠ p.length) (h : Out (p ++ b :: q) is zs) : Out (p ++ a :: q) is zs := by
  unfold Out at *
  rw [← h]
  refine List.map_congr_left fun i hi => get_set p q a b i (hm i hi)

theorem incIndexes_id {is : List Nat} {n : Nat} (h : ∀ i ∈ is, i < n) : incIndexes is n = is := by
  unfold incIndexes
  conv => rhs; rw [← List.map_id is]
  refine List.map_congr_left fun i hi => ?_
  have := h i hi
  simp only [id_eq]; split <;> omega

theorem decIndexes_id {is : List Nat} {n : Nat} (h : ∀ i ∈ is, i ≤ n) : decIndexes is n = is := by
  unfold decIndexes
  conv => rhs; rw [← List.map_id is]
  refine List.map_congr_left fun i hi => ?_
  have := h i hi
  simp only [id_eq]; split <;> omega

theorem decIndexes_append (ls gs : List Nat) (n : Nat) :
    decIndexes (ls ++ n :: gs) n = decIndexes ls n ++ n :: decIndexes gs n := by
  simp [decIndexes]

/-! ## The diffs -/

theorem sortInsertAt_spec (ls gs : List Nat) (index : Nat) (v : α) :
    ∃ d, sortInsertAt (ls ++ gs) ls.length index v = some (ls ++ index :: gs, d) ∧
      ∀ z1 z2 : List α, z1.length = ls.length → z2.length = gs.length →
        d.apply (z1 ++ z2) = some (z1 ++ v :: z2) := by
  unfold sortInsertAt
  cases gs with
  | nil =>
    refine ⟨.push v, by simp, fun z1 z2 h1 h2 => ?_⟩
    have : z2 = [] := List.length_eq_zero_iff.1 h2
    subst this
    simp [VecDiff.apply]
  | cons g gs =>
    refine ⟨.insertAt ls.length v, ?_, fun z1 z2 h1 h2 => ?_⟩
    · simp [vInsert_append]
    · rw [← h1]; exact vInsert_append z1 z2 v

theorem sortRemoveAt_spec (ls gs : List Nat) (index : Nat) :
    ∃ d : VecDiff α, sortRemoveAt (ls ++ index :: gs) ls.length = some (ls ++ gs, d) ∧
      ∀ (z1 z2 : List α) (v : α), z1.length = ls.length → z2.length = gs.length →
        d.apply (z1 ++ v :: z2) = some (z1 ++ z2) := by
  unfold sortRemoveAt
  cases gs with
  | nil =>
    refine ⟨.pop, by simp [vPop], fun z1 z2 v h1 h2 => ?_⟩
    have : z2 = [] := List.length_eq_zero_iff.1 h2
    subst this
    simp [VecDiff.apply, vPop]
  | cons g gs =>
    refine ⟨.removeAt ls.length, ?_, fun z1 z2 v h1 h2 => ?_⟩
    · simp [vRemove_append]
    · rw [← h1]; simp [VecDiff.apply, vRemove_append]

theorem Out.length {values : List α} {is : List Nat} {zs : List α} (h : Out values is zs) :
    zs.length = is.length := by simpa using (congrArg List.length h).symm

theorem out_replace {values : List α} {is : List Nat} (h : ∀ i ∈ is, i < values.length) :
    ∃ zs, gather values is = some zs ∧ Out values is zs := by
  induction is with
  | nil => exact ⟨[], rfl, rfl⟩
  | cons i is ih =>
    obtain ⟨zs, h1, h2⟩ := ih fun j hj => h j (by simp [hj])
    obtain ⟨a, ha⟩ := get_of_lt (h i (by simp))
    refine ⟨a :: zs, by simp [gather, ha, h1], ?_⟩
    unfold Out at *
    simp [ha, h2]

theorem sinv_sort {S : SliceFns} (hS : S.Lawful) (h : TotalPreorder cmp) (values : List α) :
    SInv cmp values (S.sort (sortCmp cmp values) (List.range values.length)) := by
  have hsw : ∀ a ∈ List.range values.length, ∀ b ∈ List.range values.length,
      sortCmp cmp values b a = (sortCmp cmp values a b).swap := by
    simp only [List.mem_range]
    intro a ha b hb
    exact sortCmp_swap h ha hb
  have htr : ∀ a ∈ List.range values.length, ∀ b ∈ List.range values.length,
      ∀ c ∈ List.range values.length, sortCmp cmp values a b ≠ .gt → sortCmp cmp values b c ≠ .gt →
      sortCmp cmp values a c ≠ .gt := by
    simp only [List.mem_range]
    intro a ha b hb c hc
    exact sortCmp_trans_le h ha hb hc
  have hp := hS.sort_perm (sortCmp cmp values) _ hsw htr
  have hs := hS.sort_sorted (sortCmp cmp values) _ hsw htr
  have hm : ∀ i, i ∈ S.sort (sortCmp cmp values) (List.range values.length) ↔ i < values.length := by
    intro i; rw [hp.mem_iff, List.mem_range]
  refine ⟨hm, ?_⟩
  have hn : (S.sort (sortCmp cmp values) (List.range values.length)).Pairwise (· ≠ ·) :=
    hp.nodup_iff.2 List.nodup_range
  refine List.Pairwise.imp_of_mem ?_ (hs.and hn)
  rintro a b ha hb ⟨h1, h2⟩
  cases hc : sortCmp cmp values a b with
  | lt => rfl
  | gt => exact absurd hc h1
  | eq => exact absurd ((sortCmp_eq h ((hm a).1 ha) ((hm b).1 hb)).1 hc) h2

/-- What the body of the loop achieves. -/
def SortStep (cmp : α → α → Ordering) (ys zs : List α)
    (r : Ctl (List α × List Nat) (VecDiff α × Option (VecDiff α))) : Prop :=
  (∃ is, r = .cont (ys, is) ∧ SInv cmp ys is ∧ Out ys is zs) ∨
  (∃ is e pend zs1 zs', r = .ret (ys, is) (e, pend) ∧ SInv cmp ys is ∧ Out ys is zs' ∧
    e.apply zs = some zs1 ∧ zs1.Sublist zs' ∧ replay pend.toList zs1 = some zs')

theorem SortStep.ret {ys zs zs' : List α} {is : List Nat} {e : VecDiff α} (h1 : SInv cmp ys is)
    (h2 : Out ys is zs') (h3 : e.apply zs = some zs') : SortStep cmp ys zs (.ret (ys, is) (e, none)) :=
  .inr ⟨is, e, none, zs', zs', rfl, h1, h2, h3, List.Sublist.refl _, rfl⟩

theorem sortBody_move {S : SliceFns} (hS : S.Lawful) (h : TotalPreorder cmp) {p q p' q' zs : List α}
    {a : α} {is : List Nat} (hi : SInv cmp (p ++ a :: q) is) (ho : Out (p ++ a :: q) is zs)
    (hpq : p ++ q = p' ++ q') :
    SortStep cmp (p' ++ a :: q') zs (sortBody S cmp (p ++ a :: q, is) (.move p.length p'.length)) := by
  obtain ⟨ls, gs, rfl, e2, e3⟩ := searchRemove_spec hS h (index := p.length) hi (by simp)
  obtain ⟨z1, z2', rfl, l1, o1, o2'⟩ := ho.append
  obtain ⟨c, z2, rfl, hc, o2⟩ := o2'.cons
  have hc : a = c := by simpa using hc
  subst hc
  have hne : ∀ i ∈ ls ++ gs, i ≠ p.length := fun i hi => ((e3.mem i).1 hi).2
  have o12 : Out (p ++ q) (decIndexes (ls ++ gs) p.length) (z1 ++ z2) := by
    refine Out.dec (v := a) hne ?_
    unfold Out at *
    simp [o1, o2]
  have hdec := e3.dec
  rw [hpq] at hdec o12
  have hl : ∀ x, (decIndexes x p.length).length = x.length := by simp [decIndexes]
  have hrem : vRemove (decIndexes (ls ++ p.length :: gs) p.length) ls.length =
      some (p.length, decIndexes (ls ++ gs) p.length) := by
    rw [decIndexes_append, ← hl ls, vRemove_append]
    simp [decIndexes]
  obtain ⟨ls', gs', e4, e5, e6⟩ := searchInsert_spec hS h (hdec.inc a) (by simp)
  have o3 := o12.inc a
  rw [e4] at o3
  obtain ⟨y1, y2, he, l1', o1', o2'⟩ := o3.append
  simp only [sortBody, e2, vRemove_append, hrem, hpq, vInsert_append, e5]
  simp only [e4, vInsert_append]
  have hout := o1'.insert o2' (i := p'.length) (v := a) (by simp)
  by_cases heq : ls.length = ls'.length
  · simp only [heq, if_true]
    obtain ⟨rfl, rfl⟩ := List.append_inj he (by omega)
    exact .inl ⟨_, rfl, e6, hout⟩
  · simp only [heq, if_false]
    refine .ret e6 hout ?_
    rw [← l1, ← l1']
    simp [VecDiff.apply, vRemove_append, he, vInsert_append]

theorem sortBody_spec {S : SliceFns} (hS : S.Lawful) (h : TotalPreorder cmp) {values ys zs : List α}
    {is : List Nat} {d : VecDiff α} (hi : SInv cmp values is) (ho : Out values is zs)
    (hd : d.apply values = some ys) : SortStep cmp ys zs (sortBody S cmp (values, is) d) := by
  cases apply_eq_some.1 hd with
  | replace vs l =>
    have hv := sinv_sort hS h ys
    obtain ⟨zs', g1, g2⟩ := out_replace fun i hi => (hv.mem i).1 hi
    simp only [sortBody, g1]
    exact .ret hv g2 rfl
  | insertAt p q a =>
    obtain ⟨ls, gs, e1, e2, e3⟩ := searchInsert_spec hS h (hi.inc a) (by simp)
    obtain ⟨d', f1, f2⟩ := sortInsertAt_spec ls gs p.length a
    have ho' := ho.inc a
    rw [e1] at ho'
    obtain ⟨z1, z2, rfl, l1, o1, o2⟩ := ho'.append
    simp only [sortBody, vInsert_append, e2]
    simp only [e1, f1]
    exact .ret e3 (o1.insert o2 (by simp)) (f2 z1 z2 l1 o2.length)
  | push l a =>
    have hp := SInv.inc (cmp := cmp) (p := values) (q := []) a (by simpa using hi)
    have ho' := Out.inc (p := values) (q := []) a (by simpa using ho)
    rw [incIndexes_id fun i h' => (hi.mem i).1 h'] at hp ho'
    obtain ⟨ls, gs, rfl, e2, e3⟩ := searchInsert_spec hS h hp (by simp)
    obtain ⟨d', f1, f2⟩ := sortInsertAt_spec ls gs values.length a
    obtain ⟨z1, z2, rfl, l1, o1, o2⟩ := ho'.append
    simp only [sortBody, e2, f1]
    exact .ret e3 (o1.insert o2 (by simp)) (f2 z1 z2 l1 o2.length)
  | updateAt p b q a =>
    obtain ⟨ls, gs, rfl, e2, e3⟩ := searchRemove_spec hS h (index := p.length) hi (by simp)
    obtain ⟨d', f1, f2⟩ := sortRemoveAt_spec (α := α) ls gs p.length
    obtain ⟨z1, z2', rfl, l1, o1, o2'⟩ := ho.append
    obtain ⟨c, z2, rfl, -, o2⟩ := o2'.cons
    have hne : ∀ i ∈ ls ++ gs, i ≠ p.length := fun i hi => ((e3.mem i).1 hi).2
    have hs := e3.set a
    have o12 : Out (p ++ a :: q) (ls ++ gs) (z1 ++ z2) := by
      refine Out.set a (b := b) hne ?_
      unfold Out at *
      simp [o1, o2]
    obtain ⟨ls', gs', e4, e5, e6⟩ := searchInsert_spec hS h hs (by simp)
    simp only [sortBody, e2, f1, vSet_append, e5]
    by_cases heq : ls.length = ls'.length
    · obtain ⟨rfl, rfl⟩ := List.append_inj e4 heq
      simp only [if_true, vInsert_append]
      obtain ⟨y1, y2, he, l1', o1', o2'⟩ := o12.append
      obtain ⟨rfl, rfl⟩ := List.append_inj he (l1.trans l1'.symm)
      refine .ret e6 (o1'.insert o2' (v := a) (by simp)) ?_
      rw [← l1]
      exact vSet_append _ _ _ _
    · simp only [heq, if_false]
      obtain ⟨d2, f3, f4⟩ := sortInsertAt_spec ls' gs' p.length a
      rw [e4] at o12 ⊢
      obtain ⟨y1, y2, he, l1', o1', o2'⟩ := o12.append
      simp only [f3]
      refine .inr ⟨_, _, _, z1 ++ z2, y1 ++ a :: y2, rfl, e6, o1'.insert o2' (by simp),
        f2 z1 z2 c l1 o2.length, ?_, ?_⟩
      · rw [he]
        exact (List.Sublist.refl _).append (List.sublist_cons_self _ _)
      · rw [he]
        simp [replay, f4 y1 y2 l1' o2'.length]
  | removeAt p b q =>
    obtain ⟨ls, gs, rfl, e2, e3⟩ := searchRemove_spec hS h (index := p.length) hi (by simp)
    obtain ⟨z1, z2', rfl, l1, o1, o2'⟩ := ho.append
    obtain ⟨c, z2, rfl, -, o2⟩ := o2'.cons
    have hne : ∀ i ∈ ls ++ gs, i ≠ p.length := fun i hi => ((e3.mem i).1 hi).2
    have o12 : Out (p ++ q) (decIndexes (ls ++ gs) p.length) (z1 ++ z2) := by
      refine Out.dec (v := b) hne ?_
      unfold Out at *
      simp [o1, o2]
    obtain ⟨d', f1, f2⟩ := sortRemoveAt_spec (α := α) (decIndexes ls p.length) (decIndexes gs p.length) p.length
    have hl : ∀ x, (decIndexes x p.length).length = x.length := by simp [decIndexes]
    rw [hl] at f1
    simp only [sortBody, e2, vRemove_append, decIndexes_append, f1]
    refine .ret ?_ (zs' := z1 ++ z2) ?_ (f2 z1 z2 c (by rw [hl]; exact l1) (by rw [hl]; exact o2.length))
    · have := e3.dec
      rw [decIndexes, List.map_append] at this
      exact this
    · rw [decIndexes, List.map_append] at o12
      exact o12
  | pop l b =>
    obtain ⟨ls, gs, rfl, e2, e3⟩ := searchRemove_spec hS h (index := ys.length) hi (by simp)
    obtain ⟨z1, z2', rfl, l1, o1, o2'⟩ := ho.append
    obtain ⟨c, z2, rfl, -, o2⟩ := o2'.cons
    have hne : ∀ i ∈ ls ++ gs, i ≠ ys.length := fun i hi => ((e3.mem i).1 hi).2
    have hle : ∀ i ∈ ls ++ gs, i ≤ ys.length := fun i hi => by
      have := ((e3.mem i).1 hi).1
      simp at this
      omega
    have o12 : Out (ys ++ []) (decIndexes (ls ++ gs) ys.length) (z1 ++ z2) := by
      refine Out.dec (v := b) hne ?_
      unfold Out at *
      simp [o1, o2]
    have e3' := SPart.dec (q := []) e3
    rw [decIndexes_id hle, List.append_nil] at e3' o12
    obtain ⟨d', f1, f2⟩ := sortRemoveAt_spec (α := α) ls gs ys.length
    have hlen : (ys ++ [b]).length - 1 = ys.length := by simp
    have hlen0 : (ys ++ [b]).length ≠ 0 := by simp
    simp only [sortBody, hlen0, if_false, hlen, e2, vPop_snoc, f1]
    exact .ret e3' o12 (f2 z1 z2 c l1 o2.length)
  | clear l => exact .ret (zs' := []) ⟨by simp, List.Pairwise.nil⟩ rfl rfl
  | moveFwd p a m q =>
    have := sortBody_move hS h (p := p) (q := m ++ q) (p' := p ++ m) (q' := q) hi ho (by simp)
    simpa using this
  | moveBack p m a q =>
    have := sortBody_move hS h (p := p ++ m) (q := q) (p' := p) (q' := m ++ q) hi ho (by simp)
    simpa using this

end

end Verif
