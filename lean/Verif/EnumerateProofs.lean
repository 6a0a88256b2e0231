import Verif.SignalVec1Spec

/-!
# Proofs about `enumerate`
-/

namespace Verif

variable {α : Type}

/-- The cells `ids` hold `n`, `n+1`, … -/
def Idx (cells : Cells) : Nat → List Nat → Prop
  | _, [] => True
  | n, id :: ids => cells[id]? = some (some n) ∧ Idx cells (n + 1) ids

theorem idx_append {cells : Cells} {n : Nat} {p q : List Nat} :
    Idx cells n (p ++ q) ↔ Idx cells n p ∧ Idx cells (n + p.length) q := by
  induction p generalizing n with
  | nil => simp [Idx]
  | cons a p ih =>
    simp only [List.cons_append, Idx, ih, and_assoc, List.length_cons]
    rw [show n + 1 + p.length = n + (p.length + 1) by omega]

theorem idx_congr {cells cells' : Cells} {n : Nat} {ids : List Nat}
    (h : ∀ id ∈ ids, cells'[id]? = cells[id]?) (hi : Idx cells n ids) : Idx cells' n ids := by
  induction ids generalizing n with
  | nil => trivial
  | cons a ids ih =>
    exact ⟨by rw [h a (by simp)]; exact hi.1, ih (fun id hid => h id (by simp [hid])) hi.2⟩

theorem idx_get {cells : Cells} {n : Nat} {ids : List Nat} (hi : Idx cells n ids) {i id : Nat}
    (h : ids[i]? = some id) : cells[id]? = some (some (n + i)) := by
  induction ids generalizing n i with
  | nil => simp at h
  | cons a ids ih =>
    cases i with
    | zero => simp at h; subst h; exact hi.1
    | succ i =>
      have := ih hi.2 (by simpa using h)
      rw [this]; congr 2; omega

theorem idx_lt {cells : Cells} {n : Nat} {ids : List Nat} (hi : Idx cells n ids) :
    ∀ id ∈ ids, id < cells.length := by
  intro id hid
  obtain ⟨i, hlt, hg⟩ := List.getElem_of_mem hid
  have := idx_get hi (i := i) (id := id) (by simp [hg, hlt])
  exact (List.getElem?_eq_some_iff.1 this).1

theorem cellsClear_get (cells : Cells) (ids : List Nat) (j : Nat) :
    (cellsClear cells ids)[j]? = if j ∈ ids then cells[j]?.map (fun _ => none) else cells[j]? := by
  induction ids generalizing cells with
  | nil => simp [cellsClear]
  | cons a ids ih =>
    simp only [cellsClear, ih, cellSet, List.getElem?_set, List.mem_cons]
    by_cases h : a = j
    · subst h
      by_cases hlt : a < cells.length <;> simp [hlt]
    · have h' : ¬ j = a := fun e => h e.symm
      simp [h, h']

theorem cellsClear_length (cells : Cells) (ids : List Nat) :
    (cellsClear cells ids).length = cells.length := by
  induction ids generalizing cells with
  | nil => rfl
  | cons a ids ih => simp [cellsClear, ih, cellSet]

theorem incrementIndexes_get (cells : Cells) (ids : List Nat) (hnd : ids.Nodup) (j : Nat) :
    (incrementIndexes cells ids)[j]? =
      if j ∈ ids then cells[j]?.map (Option.map (· + 1)) else cells[j]? := by
  induction ids generalizing cells with
  | nil => simp [incrementIndexes]
  | cons a ids ih =>
    simp only [List.nodup_cons] at hnd
    simp only [incrementIndexes, ih _ hnd.2, List.getElem?_modify, List.mem_cons]
    by_cases h : a = j
    · subst h; simp [hnd.1]
    · have h' : ¬ j = a := fun e => h e.symm
      by_cases hm : j ∈ ids <;> simp [h, h', hm]

theorem incrementIndexes_length (cells : Cells) (ids : List Nat) :
    (incrementIndexes cells ids).length = cells.length := by
  induction ids generalizing cells with
  | nil => rfl
  | cons a ids ih => simp [incrementIndexes, ih]

theorem decrementIndexes_spec (cells : Cells) (n : Nat) (ids : List Nat) (hnd : ids.Nodup)
    (hi : Idx cells (n + 1) ids) :
    ∃ cells', decrementIndexes cells ids = some cells' ∧ cells'.length = cells.length ∧
      Idx cells' n ids ∧ ∀ j, j ∉ ids → cells'[j]? = cells[j]? := by
  induction ids generalizing cells n with
  | nil => exact ⟨cells, rfl, rfl, trivial, fun _ _ => rfl⟩
  | cons a ids ih =>
    simp only [List.nodup_cons] at hnd
    simp only [decrementIndexes]
    have hi1 := hi.1
    rw [hi1]
    simp only
    have hother : ∀ j, j ≠ a → (cells.modify a (fun v => v.map (· - 1)))[j]? = cells[j]? := by
      intro j hj
      rw [List.getElem?_modify]; simp [Ne.symm hj]
    obtain ⟨cells', g1, g2, g3, g4⟩ := ih (cells.modify a (fun v => v.map (· - 1))) (n + 1) hnd.2
      (idx_congr (fun id hid => hother id (fun e => hnd.1 (e ▸ hid))) hi.2)
    refine ⟨cells', g1, by simpa using g2, ⟨?_, g3⟩, ?_⟩
    · rw [g4 a hnd.1, List.getElem?_modify, hi1]; simp
    · intro j hj
      simp only [List.mem_cons, not_or] at hj
      rw [g4 j hj.2, hother j hj.1]

theorem idx_increment {cells : Cells} {n : Nat} {ids : List Nat} (hnd : ids.Nodup)
    (hi : Idx cells n ids) : Idx (incrementIndexes cells ids) (n + 1) ids := by
  have key : ∀ (l : List Nat) (m : Nat), (∀ id ∈ l, id ∈ ids) → Idx cells m l →
      Idx (incrementIndexes cells ids) (m + 1) l := by
    intro l
    induction l with
    | nil => intros; trivial
    | cons a l ih =>
      intro m hs h
      refine ⟨?_, ih (m + 1) (fun id hid => hs id (by simp [hid])) h.2⟩
      rw [incrementIndexes_get _ _ hnd, if_pos (hs a (by simp)), h.1]; rfl
  exact key ids n (fun _ h => h) hi

theorem enumValues_spec (cells : Cells) (n : Nat) (vs : List α) :
    ∃ (ys : List (Nat × α)) (new : Cells), enumValues cells n vs = (ys, ys.map (·.1), cells ++ new) ∧
      ys.map (·.2) = vs ∧ (ys.map (·.1)).Nodup ∧
      (∀ id, id ∈ ys.map (·.1) ↔ cells.length ≤ id ∧ id < cells.length + new.length) ∧
      Idx (cells ++ new) n (ys.map (·.1)) := by
  induction vs generalizing cells n with
  | nil => exact ⟨[], [], by simp [enumValues], rfl, by simp, fun id => by simp, trivial⟩
  | cons v vs ih =>
    obtain ⟨ys, new, h1, h2, h3, h4, h5⟩ := ih (cells ++ [some n]) (n + 1)
    refine ⟨(cells.length, v) :: ys, some n :: new, ?_, by simp [h2], ?_, ?_, ?_⟩
    · simp [enumValues, h1]
    · simp only [List.map_cons, List.nodup_cons]
      refine ⟨fun hm => ?_, h3⟩
      have := (h4 _).1 hm
      simp at this
      omega
    · intro id
      simp only [List.map_cons, List.mem_cons, h4, List.length_append, List.length_cons,
        List.length_nil]
      omega
    · refine ⟨by simp, ?_⟩
      simpa using h5

/-- The invariant of `Enumerate`: `ids` are the cells of the current elements. -/
structure CellInv (ids : List Nat) (cells : Cells) : Prop where
  nodup : ids.Nodup
  idx : Idx cells 0 ids
  rest : ∀ id v, cells[id]? = some v → id ∉ ids → v = none

theorem cellSet_ne {cells : Cells} {id j : Nat} {v : Option Nat} (h : j ≠ id) :
    (cellSet cells id v)[j]? = cells[j]? := by
  simp [cellSet, List.getElem?_set, Ne.symm h]

theorem cellSet_eq {cells : Cells} {id : Nat} {v : Option Nat} (h : id < cells.length) :
    (cellSet cells id v)[id]? = some v := by
  simp [cellSet, h]

theorem cellSet_none_rest {cells : Cells} {id j : Nat} {v : Option Nat} {ids : List Nat}
    (hr : ∀ v, cells[j]? = some v → j ∉ ids → j ≠ id → v = none)
    (hv : (cellSet cells id none)[j]? = some v) (hn : j ∉ ids) : v = none := by
  by_cases hj : j = id
  · subst hj
    have hlt := (List.getElem?_eq_some_iff.1 hv).1
    rw [cellSet_eq (by simpa [cellSet] using hlt)] at hv
    exact (Option.some.inj hv).symm
  · rw [cellSet_ne hj] at hv
    exact hr v hv hn hj

theorem CellInv.clear {ids : List Nat} {cells : Cells} (h : CellInv ids cells) :
    ∀ (id : Nat) (v : Option Nat), (cellsClear cells ids)[id]? = some v → v = none := by
  intro id v hv
  rw [cellsClear_get] at hv
  split at hv
  · cases hc : cells[id]? <;> simp [hc] at hv; exact hv.symm
  · rename_i hm; exact h.rest id v hv hm

theorem CellInv.fresh {ids : List Nat} {cells : Cells} (h : CellInv ids cells) :
    cells.length ∉ ids := fun hm => Nat.lt_irrefl _ (idx_lt h.idx _ hm)

theorem CellInv.insert {p q : List Nat} {cells : Cells} (h : CellInv (p ++ q) cells) :
    CellInv (p ++ cells.length :: q) (incrementIndexes (cells ++ [some p.length]) q) := by
  have hf := h.fresh
  have hnd := h.nodup
  have hidx := h.idx
  simp only [List.mem_append, not_or] at hf
  rw [List.nodup_append] at hnd
  rw [idx_append] at hidx
  have hold : ∀ j, j < cells.length → (cells ++ [some p.length])[j]? = cells[j]? := fun j hj =>
    List.getElem?_append_left hj
  have hnotq : ∀ j, j ∉ q → (incrementIndexes (cells ++ [some p.length]) q)[j]? =
      (cells ++ [some p.length])[j]? := fun j hj => by
    rw [incrementIndexes_get _ _ hnd.2.1, if_neg hj]
  refine ⟨?_, ?_, ?_⟩
  · rw [List.nodup_append]
    refine ⟨hnd.1, List.nodup_cons.2 ⟨hf.2, hnd.2.1⟩, ?_⟩
    intro a ha b hb
    rcases List.mem_cons.1 hb with rfl | hb
    · rintro rfl; exact hf.1 ha
    · exact hnd.2.2 a ha b hb
  · rw [idx_append]
    refine ⟨idx_congr (fun j hj => ?_) hidx.1, ?_, ?_⟩
    · rw [hnotq j (fun hq => hnd.2.2 j hj j hq rfl), hold j (idx_lt hidx.1 j hj)]
    · rw [hnotq _ hf.2]; simp
    · refine idx_increment hnd.2.1 (idx_congr (fun j hj => hold j (idx_lt hidx.2 j hj)) ?_)
      exact hidx.2
  · intro j v hv hn
    simp only [List.mem_append, List.mem_cons, not_or] at hn
    rw [hnotq j hn.2.2] at hv
    have hlt := (List.getElem?_eq_some_iff.1 hv).1
    simp only [List.length_append, List.length_cons, List.length_nil] at hlt
    rw [hold j (by omega)] at hv
    exact h.rest j v hv (by simp [hn.1, hn.2.2])

theorem CellInv.remove {p q : List Nat} {id : Nat} {cells : Cells}
    (h : CellInv (p ++ id :: q) cells) :
    ∃ cells', decrementIndexes cells q = some cells' ∧ cells'.length = cells.length ∧
      CellInv (p ++ q) (cellSet cells' id none) := by
  have hnd := h.nodup
  have hidx := h.idx
  rw [List.nodup_append, List.nodup_cons] at hnd
  simp only [idx_append, Idx, Nat.zero_add] at hidx
  obtain ⟨cells', g1, g2, g3, g4⟩ := decrementIndexes_spec cells p.length q hnd.2.1.2 hidx.2.2
  have hpid : ∀ j ∈ p, j ≠ id := fun j hj => hnd.2.2 j hj id (by simp)
  have hpq : ∀ j ∈ p, j ∉ q := fun j hj hq => hnd.2.2 j hj j (by simp [hq]) rfl
  have hqid : ∀ j ∈ q, j ≠ id := fun j hj e => hnd.2.1.1 (e ▸ hj)
  refine ⟨cells', g1, g2, ?_, ?_, ?_⟩
  · rw [List.nodup_append]
    exact ⟨hnd.1, hnd.2.1.2, fun a ha b hb => hnd.2.2 a ha b (by simp [hb])⟩
  · rw [idx_append, Nat.zero_add]
    refine ⟨idx_congr (fun j hj => ?_) hidx.1, idx_congr (fun j hj => ?_) g3⟩
    · rw [cellSet_ne (hpid j hj), g4 j (hpq j hj)]
    · rw [cellSet_ne (hqid j hj)]
  · intro j v hv hn
    refine cellSet_none_rest (ids := p ++ q) (fun v hv hn hj => ?_) hv hn
    simp only [List.mem_append, not_or] at hn
    rw [g4 j hn.2] at hv
    exact h.rest j v hv (by simp [hn, hj])

theorem CellInv.moveFwd {p m q : List Nat} {id : Nat} {cells : Cells}
    (h : CellInv (p ++ id :: (m ++ q)) cells) :
    ∃ cells', decrementIndexes cells m = some cells' ∧ cells'.length = cells.length ∧
      CellInv (p ++ m ++ id :: q) (cellSet cells' id (some (p.length + m.length))) := by
  have hnd := h.nodup
  have hidx := h.idx
  have hlt : id < cells.length := idx_lt h.idx id (by simp)
  rw [List.nodup_append, List.nodup_cons, List.nodup_append] at hnd
  simp only [idx_append, Idx, Nat.zero_add] at hidx
  obtain ⟨hp, ⟨hid, hm, hq, hmq⟩, hpr⟩ := hnd
  simp only [List.mem_append, not_or] at hid
  obtain ⟨cells', g1, g2, g3, g4⟩ := decrementIndexes_spec cells p.length m hm hidx.2.2.1
  have hpid : ∀ j ∈ p, j ≠ id := fun j hj => hpr j hj id (by simp)
  have hpm : ∀ j ∈ p, j ∉ m := fun j hj hq => hpr j hj j (by simp [hq]) rfl
  refine ⟨cells', g1, g2, ?_, ?_, ?_⟩
  · refine (List.Perm.nodup_iff ?_).1 h.nodup
    simp only [List.append_assoc]
    refine List.Perm.append_left p ?_
    exact (List.perm_middle (l₁ := m) (l₂ := q) (a := id)).symm
  · simp only [idx_append, Idx, Nat.zero_add, List.length_append]
    refine ⟨⟨idx_congr (fun j hj => ?_) hidx.1, idx_congr (fun j hj => ?_) g3⟩, ?_, ?_⟩
    · rw [cellSet_ne (hpid j hj), g4 j (hpm j hj)]
    · rw [cellSet_ne (j := j) (id := id) (fun e => hid.1 (e ▸ hj))]
    · exact cellSet_eq (by omega)
    · refine idx_congr (fun j hj => ?_) (show Idx cells _ q from ?_)
      · rw [cellSet_ne (j := j) (id := id) (fun e => hid.2 (e ▸ hj)), g4 j (fun hj' => hmq j hj' j hj rfl)]
      · have := hidx.2.2.2
        rwa [show p.length + 1 + m.length = p.length + m.length + 1 by omega] at this
  · intro j v hv hn
    simp only [List.mem_append, List.mem_cons, not_or] at hn
    rw [cellSet_ne hn.2.1, g4 j hn.1.2] at hv
    exact h.rest j v hv (by simp [hn])

theorem CellInv.moveBack {p m q : List Nat} {id : Nat} {cells : Cells}
    (h : CellInv (p ++ m ++ id :: q) cells) :
    CellInv (p ++ id :: (m ++ q)) (cellSet (incrementIndexes cells m) id (some p.length)) := by
  have hlt : id < cells.length := idx_lt h.idx id (by simp)
  have hidx := h.idx
  simp only [idx_append, Idx, Nat.zero_add, List.length_append] at hidx
  have hnd' : (p ++ id :: (m ++ q)).Nodup := by
    refine (List.Perm.nodup_iff ?_).1 h.nodup
    simp only [List.append_assoc]
    exact List.Perm.append_left p List.perm_middle
  have hnd := hnd'
  rw [List.nodup_append, List.nodup_cons, List.nodup_append] at hnd
  obtain ⟨hp, ⟨hid, hm, hq, hmq⟩, hpr⟩ := hnd
  simp only [List.mem_append, not_or] at hid
  have hpid : ∀ j ∈ p, j ≠ id := fun j hj => hpr j hj id (by simp)
  have hpm : ∀ j ∈ p, j ∉ m := fun j hj hq => hpr j hj j (by simp [hq]) rfl
  have hnotm : ∀ j, j ∉ m → (incrementIndexes cells m)[j]? = cells[j]? := fun j hj => by
    rw [incrementIndexes_get _ _ hm, if_neg hj]
  refine ⟨hnd', ?_, ?_⟩
  · simp only [idx_append, Idx, Nat.zero_add]
    refine ⟨idx_congr (fun j hj => ?_) hidx.1.1, ?_, idx_congr (fun j hj => ?_)
      (idx_increment hm hidx.1.2), ?_⟩
    · rw [cellSet_ne (hpid j hj), hnotm j (hpm j hj)]
    · exact cellSet_eq (by rw [incrementIndexes_length]; exact hlt)
    · rw [cellSet_ne (j := j) (id := id) (fun e => hid.1 (e ▸ hj))]
    · refine idx_congr (fun j hj => ?_) (show Idx cells _ q from ?_)
      · rw [cellSet_ne (j := j) (id := id) (fun e => hid.2 (e ▸ hj)), hnotm j (fun hj' => hmq j hj' j hj rfl)]
      · have := hidx.2.2
        rwa [show p.length + m.length + 1 = p.length + 1 + m.length by omega] at this
  · intro j v hv hn
    simp only [List.mem_append, List.mem_cons, not_or] at hn
    rw [cellSet_ne hn.2.1, hnotm j hn.2.2.1] at hv
    exact h.rest j v hv (by simp [hn])

/-- One change: the emitted diff takes the old output to the new one. -/
theorem enumChange_spec {ys : List (Nat × α)} {cells : Cells} {d : VecDiff α} {xs' : List α}
    (hE : CellInv (ys.map (·.1)) cells) (hd : d.apply (ys.map (·.2)) = some xs') :
    ∃ e ys' cells', enumChange (ys.map (·.1)) cells d = some (e, ys'.map (·.1), cells') ∧
      e.apply ys = some ys' ∧ ys'.map (·.2) = xs' ∧ CellInv (ys'.map (·.1)) cells' ∧
      cells.length ≤ cells'.length ∧ (∀ y ∈ e.payload, y.1 < cells'.length) := by
  rw [apply_eq_some] at hd
  generalize hxs : ys.map (·.2) = xs at hd
  cases hd with
  | replace vs l =>
    obtain ⟨zs, new, h1, h2, h3, h4, h5⟩ :=
      enumValues_spec (cellsClear cells (ys.map (·.1))) 0 xs'
    refine ⟨.replace zs, zs, cellsClear cells (ys.map (·.1)) ++ new, by simp [enumChange, h1], rfl,
      h2, ⟨h3, h5, ?_⟩, by simp [cellsClear_length], ?_⟩
    · intro id v hv hn
      have hlt := (List.getElem?_eq_some_iff.1 hv).1
      simp only [List.length_append] at hlt
      rw [h4] at hn
      have hlt' : id < (cellsClear cells (ys.map (·.1))).length := by omega
      rw [List.getElem?_append_left hlt'] at hv
      exact hE.clear id v hv
    · intro y hy
      have := (h4 y.1).1 (List.mem_map_of_mem hy)
      simpa using this.2
  | clear l =>
    refine ⟨.clear, [], cellsClear cells (ys.map (·.1)), rfl, rfl, rfl, ⟨by simp, trivial, ?_⟩,
      by simp [cellsClear_length], by simp [VecDiff.payload]⟩
    intro id v hv _
    exact hE.clear id v hv
  | push l a =>
    subst hxs
    have := CellInv.insert (p := ys.map (·.1)) (q := []) (cells := cells) (by simpa using hE)
    refine ⟨.push (cells.length, a), ys ++ [(cells.length, a)], cells ++ [some ys.length], ?_, rfl,
      by simp, ?_, by simp, by simp [VecDiff.payload]⟩
    · simp [enumChange]
    · simpa [incrementIndexes] using this
  | pop l a =>
    obtain ⟨zs, zl, rfl, hz1, hz2⟩ := List.map_eq_append_iff.1 hxs
    obtain ⟨⟨id, a'⟩, zt, rfl, hz3, hz4⟩ := List.map_eq_cons_iff.1 hz2
    have : zt = [] := by simpa using hz4
    subst this
    obtain ⟨cells', h1, h2, h3⟩ := CellInv.remove (p := zs.map (·.1)) (q := []) (id := id)
      (cells := cells) (by simpa using hE)
    cases h1
    refine ⟨.pop, zs, cellSet cells id none, ?_, ?_, hz1, by simpa using h3, by simp [cellSet],
      by simp [VecDiff.payload]⟩
    · simp [enumChange, vPop_snoc]
    · rw [apply_eq_some]; exact .pop _ _
  | insertAt p q a =>
    obtain ⟨zp, zq, rfl, rfl, rfl⟩ := List.map_eq_append_iff.1 hxs
    rw [List.map_append] at hE
    have hins := vInsert_append (zp.map (·.1)) (zq.map (·.1)) cells.length
    simp only [List.length_map] at hins
    refine ⟨.insertAt zp.length (cells.length, a), zp ++ (cells.length, a) :: zq,
      incrementIndexes (cells ++ [some zp.length]) (zq.map (·.1)), ?_, ?_, by simp, ?_,
      by simp [incrementIndexes_length], by simp [VecDiff.payload, incrementIndexes_length]⟩
    · have : (zp.map (·.1)).drop (zp.length + 1) = [] := List.drop_eq_nil_of_le (by simp)
      simp [enumChange, hins, List.drop_append, this]
    · rw [apply_eq_some]; exact .insertAt _ _ _
    · simpa using hE.insert
  | updateAt p b q a =>
    obtain ⟨zp, zr, rfl, rfl, hz2⟩ := List.map_eq_append_iff.1 hxs
    obtain ⟨⟨id, b'⟩, zq, rfl, hz3, rfl⟩ := List.map_eq_cons_iff.1 hz2
    refine ⟨.updateAt zp.length (id, a), zp ++ (id, a) :: zq, cells, ?_, ?_, by simp, by simpa using hE,
      Nat.le_refl _, ?_⟩
    · simp [enumChange]
    · rw [apply_eq_some]; exact .updateAt _ _ _ _
    · simp only [VecDiff.payload, List.mem_singleton, forall_eq]
      exact idx_lt hE.idx id (by simp)
  | removeAt p b q =>
    obtain ⟨zp, zr, rfl, rfl, hz2⟩ := List.map_eq_append_iff.1 hxs
    obtain ⟨⟨id, b'⟩, zq, rfl, hz3, rfl⟩ := List.map_eq_cons_iff.1 hz2
    obtain ⟨cells', h1, h2, h3⟩ := CellInv.remove (p := zp.map (·.1)) (q := zq.map (·.1)) (id := id)
      (cells := cells) (by simpa using hE)
    have hrem := vRemove_append (zp.map (·.1)) (zq.map (·.1)) id
    simp only [List.length_map] at hrem
    refine ⟨.removeAt zp.length, zp ++ zq, cellSet cells' id none, ?_, ?_, by simp, by simpa using h3,
      by simp [cellSet, h2], by simp [VecDiff.payload]⟩
    · simp [enumChange, hrem, List.drop_append, h1]
    · rw [apply_eq_some]; exact .removeAt _ _ _
  | moveFwd p a m q =>
    obtain ⟨zp, zr, rfl, rfl, hz2⟩ := List.map_eq_append_iff.1 hxs
    obtain ⟨⟨id, b'⟩, zs, rfl, rfl, hz4⟩ := List.map_eq_cons_iff.1 hz2
    obtain ⟨zm, zq, rfl, rfl, rfl⟩ := List.map_eq_append_iff.1 hz4
    obtain ⟨cells', h1, h2, h3⟩ := CellInv.moveFwd (p := zp.map (·.1)) (m := zm.map (·.1))
      (q := zq.map (·.1)) (id := id) (cells := cells) (by simpa using hE)
    have hrem := vRemove_append (zp.map (·.1)) (zm.map (·.1) ++ zq.map (·.1)) id
    have hins := vInsert_append (zp.map (·.1) ++ zm.map (·.1)) (zq.map (·.1)) id
    simp only [List.length_map, List.length_append] at hrem hins
    simp only [List.length_map] at h3
    refine ⟨.move zp.length (zp.length + zm.length), zp ++ zm ++ (id, b') :: zq,
      cellSet cells' id (some (zp.length + zm.length)), ?_, ?_, by simp, by simpa using h3,
      by simp [cellSet, h2], by simp [VecDiff.payload]⟩
    · simp only [List.append_assoc] at hins
      by_cases hm : zm = []
      · subst hm
        simp [decrementIndexes] at h1
        subst h1
        simp at hins hrem
        simp [enumChange, hrem, hins]
      · have hpos : 0 < zm.length := List.length_pos_iff.2 hm
        have htd : ((zp.map (·.1) ++ (zm.map (·.1) ++ id :: zq.map (·.1))).take
            (zp.length + zm.length)).drop zp.length = zm.map (·.1) := by
          simp [List.take_append, List.drop_append]
        simp [enumChange, hrem, hins, hpos, htd, h1]
    · rw [apply_eq_some]; simpa using Applies.moveFwd zp (id, b') zm zq
  | moveBack p m a q =>
    obtain ⟨zr, zs, rfl, hz1, hz2⟩ := List.map_eq_append_iff.1 hxs
    obtain ⟨zp, zm, rfl, rfl, rfl⟩ := List.map_eq_append_iff.1 hz1
    obtain ⟨⟨id, b'⟩, zq, rfl, rfl, rfl⟩ := List.map_eq_cons_iff.1 hz2
    have h3 := CellInv.moveBack (p := zp.map (·.1)) (m := zm.map (·.1))
      (q := zq.map (·.1)) (id := id) (cells := cells) (by simpa using hE)
    have hrem := vRemove_append (zp.map (·.1) ++ zm.map (·.1)) (zq.map (·.1)) id
    have hins := vInsert_append (zp.map (·.1)) (zm.map (·.1) ++ zq.map (·.1)) id
    simp only [List.length_map, List.length_append] at hrem hins
    simp only [List.length_map] at h3
    refine ⟨.move (zp.length + zm.length) zp.length, zp ++ (id, b') :: (zm ++ zq),
      cellSet (incrementIndexes cells (zm.map (·.1))) id (some zp.length), ?_, ?_, by simp,
      by simpa using h3,
      by simp [cellSet, incrementIndexes_length], by simp [VecDiff.payload]⟩
    · simp only [List.append_assoc] at hins hrem
      by_cases hm : zm = []
      · subst hm
        simp at hins hrem
        simp [enumChange, hrem, hins, incrementIndexes]
      · have hpos : 0 < zm.length := List.length_pos_iff.2 hm
        have htd : ((zp.map (·.1) ++ id :: (zm.map (·.1) ++ zq.map (·.1))).take
            (zp.length + zm.length + 1)).drop (zp.length + 1) = zm.map (·.1) := by
          simp [List.take_append, List.drop_append, Nat.add_assoc, Nat.add_sub_cancel_left]
        have : ¬ zp.length + zm.length < zp.length := by omega
        simp [enumChange, hrem, hins, hpos, htd, this]
    · rw [apply_eq_some]; simpa using Applies.moveBack zp zm (id, b') zq

end Verif
