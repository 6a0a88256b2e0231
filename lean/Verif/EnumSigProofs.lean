import Verif.EnumSigSpec
import Verif.EnumerateProofs
import Verif.FlowProofs
import Verif.Hist
import Verif.Input
import Verif.Props.Mutable

/-!
# Proofs about the index signals of `enumerate`

The cells with their signals do what the cells of `Verif/SignalVec1.lean` do (`change_sim`), and the
number of handles of a cell is the number of its places in `mutables`.
-/

namespace Verif.Mut

variable {α : Type}

theorem last_drop {n : Nat} {es : List (Ev α)} (hn : n ≠ 0) (h : handlesAfter n es = 0) :
    ∃ es1 es2, es = es1 ++ .drop :: es2 ∧ handlesAfter n es1 = 1 := by
  induction es generalizing n with
  | nil => exact absurd h hn
  | cons e es ih =>
    by_cases h0 : e.newHandles n = 0
    · refine ⟨[], es, ?_, ?_⟩
      · cases e <;> simp [Ev.newHandles, hn] at h0 ⊢
      · cases e <;> simp [Ev.newHandles, hn] at h0
        simp only [handlesAfter, List.foldl_nil]; omega
    · obtain ⟨es1, es2, rfl, g⟩ := ih h0 h
      exact ⟨e :: es1, es2, rfl, g⟩

/-- A signal that had to wait is woken when the last handle goes. -/
theorem end_woken {a : α} {es : List (Ev α)} {os : List (Obs α)} {m : World α} {i : Nat}
    (h : (World.new a).runs es = some (os, m)) (hh : Held m i) {x : Waker}
    (hr : (polled i es os).getLast? = some (x, .pending)) (h0 : handlesAfter 1 es = 0) :
    WokenSince a i es m x := by
  obtain ⟨es1, es2, os1, os2, m1, rfl, rfl, k1, k2, k3, k4⟩ := polled_split h hr
  have hn : handlesAfter 1 (es1 ++ [.poll i x]) ≠ 0 := by
    obtain ⟨r, n1, n2, n3, n4⟩ := C31_C32_C33_poll a es1 i x _ m1 k1
    rw [k2] at n1
    simp only [Option.some.injEq, Obs.poll.injEq] at n1
    subst n1
    intro hz
    have hz : handlesAfter 1 es1 = 0 := by simpa [handlesAfter, Ev.newHandles] using hz
    by_cases hu : Unread a i es1
    · simpa using n2 hu
    · simpa using n3 hu hz
  obtain ⟨es3, f2, rfl, hd⟩ := last_drop (es := es2) hn (by simpa [handlesAfter] using h0)
  have s1 := sim_runs_new k1
  have s2 := (s1.runs k3).1
  obtain ⟨q1, q2, q3, q4, q5, -⟩ := runs_snoc k1
  have hcell : i < ((Spec.new a).after (es1 ++ [.poll i x])).subs.length := by
    have q6 := (sim_runs_new q4).cells
    have : i < q3.cells := by
      simp only [World.step] at q5
      split at q5
      · rename_i hc; exact hc.1
      · simp at q5
    have hn := next_length ((Spec.new a).after es1) (.poll i x)
    have : (Spec.new a).after (es1 ++ [.poll i x]) = ((Spec.new a).after es1).next (.poll i x) := by
      simp [Spec.after]
    rw [this]; omega
  obtain ⟨y, hy⟩ : ∃ y, (((Spec.new a).after (es1 ++ [.poll i x])).after (es3 ++ .drop :: f2)).subs[i]? =
      some y := ⟨_, List.getElem?_eq_getElem (by rw [← s2.cells]; exact hh.1)⟩
  have hyd : y.dropped = false := by simpa [s2.cell i y hy, Sub.cell] using hh.2
  have hnd := not_dropped hcell hy hyd
  obtain ⟨l, l1, l2⟩ := C32_C33_woken a es1 es3 f2 .drop i x os1 os2 m1 m k1 k2 k3
    (fun w hw => k4 w (by simp [hw])) (fun hw => hnd (by simp [hw]))
    (.inr ⟨rfl, by simpa [handlesAfter] using hd⟩)
  obtain ⟨l', hw⟩ : ∃ l', m1.woken = q3.woken ++ l' := ⟨_, ((sim_runs_new q4).step q5).2.2⟩
  exact ⟨es1, es3 ++ .drop :: f2, q1, q3, l' ++ l, by simp, k4, q4,
    by rw [l1, hw, List.append_assoc], by simp [l2]⟩

end Verif.Mut

namespace Verif.EnumSig

variable {α : Type}

/-- The values of the cells. -/
def vals (s : Store) : Cells := s.map (·.m.value)

/-- The cell has come about by its log. -/
def Cell.Reach (c : Cell) : Prop := (Mut.World.new (some c.start)).runs c.es = some (c.os, c.m)

/-- All cells have come about by their logs, and cell `id` has `n id` handles. -/
def Ok (s : Store) (n : Nat → Nat) : Prop :=
  ∀ (id : Nat) (c : Cell), s[id]? = some c → c.Reach ∧ c.m.handles = n id

theorem vals_length (s : Store) : (vals s).length = s.length := by simp [vals]

theorem Ok.congr {s : Store} {n n' : Nat → Nat} (h : Ok s n) (e : ∀ j, n j = n' j) : Ok s n' :=
  fun id c hc => ⟨(h id c hc).1, by rw [(h id c hc).2, e]⟩

theorem Cell.Reach.value {c : Cell} (h : c.Reach) : c.m.value = Mut.valueAfter (some c.start) c.es :=
  (Mut.C34_refines _ _ _ _ h).2.2

theorem Cell.Reach.handles {c : Cell} (h : c.Reach) : c.m.handles = Mut.handlesAfter 1 c.es :=
  (Mut.C33_senders _ _ _ _ h).2

theorem Cell.act_reach {c c' : Cell} {e : Mut.Ev (Option Nat)} (h : c.Reach) (ha : c.act e = some c') :
    c'.Reach ∧ c'.m.value = e.newValue c.m.value ∧ c'.m.handles = e.newHandles c.m.handles := by
  unfold Cell.act at ha
  cases hs : c.m.step e with
  | none => simp [hs] at ha
  | some p =>
    obtain ⟨o, m⟩ := p
    simp only [hs, Option.some.injEq] at ha
    subst ha
    have hr : Cell.Reach ⟨c.start, c.es ++ [e], c.os ++ [o], m⟩ :=
      Mut.runs_append_of h (by simp [Mut.World.runs, hs])
    refine ⟨hr, ?_, ?_⟩
    · rw [hr.value, h.value]; simp [Mut.valueAfter]
    · rw [hr.handles, h.handles]; simp [Mut.handlesAfter]

/-- What a call does to the store. -/
theorem act_some {s s' : Store} {n : Nat → Nat} {id : Nat} {e : Mut.Ev (Option Nat)} (h : Ok s n)
    (ha : act s id e = some s') :
    s'.length = s.length ∧ vals s' = (vals s).modify id e.newValue ∧
      Ok s' (fun j => if j = id then e.newHandles (n j) else n j) := by
  unfold act at ha
  cases hc : s[id]? with
  | none => simp [hc] at ha
  | some c =>
    simp only [hc] at ha
    cases hc' : c.act e with
    | none => simp [hc'] at ha
    | some c' =>
      simp only [hc', Option.some.injEq] at ha
      subst ha
      obtain ⟨h1, h2⟩ := h id c hc
      obtain ⟨g1, g2, g3⟩ := Cell.act_reach h1 hc'
      refine ⟨by simp, ?_, ?_⟩
      · apply List.ext_getElem?
        intro j
        simp only [vals, List.getElem?_map, List.getElem?_set, List.getElem?_modify]
        have hlt := (List.getElem?_eq_some_iff.1 hc).1
        by_cases hj : id = j
        · subst hj; simp [hlt, hc, g2]
          have := (List.getElem?_eq_some_iff.1 hc).2
          rw [this]
        · simp [hj]
      · intro j d hd
        rw [List.getElem?_set] at hd
        have hlt := (List.getElem?_eq_some_iff.1 hc).1
        by_cases hj : id = j
        · subst hj
          simp only [hlt, if_true, Option.some.injEq] at hd
          subst hd
          exact ⟨g1, by simp [g3, h2]⟩
        · simp only [hj, if_false] at hd
          have hj' : ¬ j = id := fun e => hj e.symm
          simpa [hj'] using h j d hd

/-- Calls that a holder of a `Mutable` can always make. -/
def Owned (e : Mut.Ev (Option Nat)) : Prop :=
  ∀ m : Mut.World (Option Nat), m.handles ≠ 0 → ∃ q, m.step e = some q

theorem owned_set (v : Option Nat) : Owned (.set v) := fun m h => by simp [Mut.World.step, h]
theorem owned_clone : Owned .clone := fun m h => by simp [Mut.World.step, h]
theorem owned_drop : Owned .drop := fun m h => by simp [Mut.World.step, h]
theorem owned_with (f : Option Nat → Option Nat × Option Nat) : Owned (.replaceWith f) :=
  fun m h => by simp [Mut.World.step, h]

theorem act_ok {s : Store} {n : Nat → Nat} {id : Nat} {e : Mut.Ev (Option Nat)} (h : Ok s n)
    (hlt : id < s.length) (hn : n id ≠ 0) (he : Owned e) : ∃ s', act s id e = some s' ∧
      s'.length = s.length ∧ vals s' = (vals s).modify id e.newValue ∧
      Ok s' (fun j => if j = id then e.newHandles (n j) else n j) := by
  have hc : s[id]? = some s[id] := List.getElem?_eq_getElem hlt
  obtain ⟨h1, h2⟩ := h id _ hc
  obtain ⟨⟨o, m⟩, hq⟩ := he s[id].m (by rw [h2]; exact hn)
  have ha : act s id e = some (s.set id ⟨s[id].start, s[id].es ++ [e], s[id].os ++ [o], m⟩) := by
    simp [act, hc, Cell.act, hq]
  exact ⟨_, ha, act_some h ha⟩

theorem modify_const {cells : Cells} {id : Nat} {v : Option Nat} :
    cells.modify id (fun _ => v) = cellSet cells id v := by
  apply List.ext_getElem?
  intro j
  simp only [cellSet, List.getElem?_modify, List.getElem?_set]
  by_cases hj : id = j
  · subst hj
    by_cases hlt : id < cells.length
    · simp [hlt]
    · simp [hlt]
  · simp [hj]

theorem modify_id {cells : Cells} {id : Nat} : cells.modify id (fun v => v) = cells := by
  apply List.ext_getElem?
  intro j
  simp only [List.getElem?_modify]
  split <;> simp

theorem act_set {s : Store} {n : Nat → Nat} {id : Nat} (v : Option Nat) (h : Ok s n)
    (hlt : id < s.length) (hn : n id ≠ 0) : ∃ s', act s id (.set v) = some s' ∧
      s'.length = s.length ∧ vals s' = cellSet (vals s) id v ∧ Ok s' n := by
  obtain ⟨s', h1, h2, h3, h4⟩ := act_ok h hlt hn (owned_set v)
  exact ⟨s', h1, h2, by rw [h3, ← modify_const]; rfl,
    h4.congr fun j => by split <;> rfl⟩

theorem act_with {s : Store} {n : Nat → Nat} {id : Nat} (f : Option Nat → Option Nat) (h : Ok s n)
    (hlt : id < s.length) (hn : n id ≠ 0) :
    ∃ s', act s id (.replaceWith fun v => (f v, v)) = some s' ∧
      s'.length = s.length ∧ vals s' = (vals s).modify id f ∧ Ok s' n := by
  obtain ⟨s', h1, h2, h3, h4⟩ := act_ok h hlt hn (owned_with fun v => (f v, v))
  exact ⟨s', h1, h2, h3, h4.congr fun j => by split <;> rfl⟩

theorem act_drop {s : Store} {n : Nat → Nat} {id : Nat} (h : Ok s n)
    (hlt : id < s.length) (hn : n id ≠ 0) : ∃ s', act s id .drop = some s' ∧
      s'.length = s.length ∧ vals s' = vals s ∧ Ok s' (fun j => if j = id then n j - 1 else n j) := by
  obtain ⟨s', h1, h2, h3, h4⟩ := act_ok h hlt hn owned_drop
  exact ⟨s', h1, h2, by rw [h3]; exact modify_id, h4⟩

theorem act_clone {s : Store} {n : Nat → Nat} {id : Nat} (h : Ok s n)
    (hlt : id < s.length) (hn : n id ≠ 0) : ∃ s', act s id .clone = some s' ∧
      s'.length = s.length ∧ vals s' = vals s ∧ Ok s' (fun j => if j = id then n j + 1 else n j) := by
  obtain ⟨s', h1, h2, h3, h4⟩ := act_ok h hlt hn owned_clone
  exact ⟨s', h1, h2, by rw [h3]; exact modify_id, h4⟩

theorem setDrop_ok {s : Store} {n : Nat → Nat} {id : Nat} (v : Option Nat) (h : Ok s n)
    (hlt : id < s.length) (hn : n id ≠ 0) : ∃ s', setDrop s id v = some s' ∧
      s'.length = s.length ∧ vals s' = cellSet (vals s) id v ∧
      Ok s' (fun j => if j = id then n j - 1 else n j) := by
  obtain ⟨s1, h1, h2, h3, h4⟩ := act_set v h hlt hn
  obtain ⟨s2, g1, g2, g3, g4⟩ := act_drop h4 (by omega) hn
  exact ⟨s2, by simp [setDrop, h1, g1], by omega, by rw [g3, h3], g4⟩

/-- `ids` holds the handles. -/
def Owns (s : Store) (ids : List Nat) : Prop := Ok s (fun j => ids.count j)

theorem count_ne {ids : List Nat} {id : Nat} (h : id ∈ ids) : ids.count id ≠ 0 := by
  have := List.count_pos_iff.2 h; omega

theorem count_drop (id : Nat) (ids : List Nat) (j : Nat) :
    (if j = id then (id :: ids).count j - 1 else (id :: ids).count j) = ids.count j := by
  by_cases h : j = id
  · subst h; simp
  · have : ¬ id = j := fun e => h e.symm
    simp [h, List.count_cons, this]

theorem clearAll_ok {s : Store} {ids : List Nat} (h : Owns s ids) (hlt : ∀ id ∈ ids, id < s.length) :
    ∃ s', clearAll s ids = some s' ∧ vals s' = cellsClear (vals s) ids ∧ Owns s' [] := by
  induction ids generalizing s with
  | nil => exact ⟨s, rfl, rfl, h⟩
  | cons id ids ih =>
    obtain ⟨s1, h1, h2, h3, h4⟩ := act_set none h (hlt id (by simp)) (count_ne (by simp))
    obtain ⟨s2, g1, g2, g3, g4⟩ := act_drop h4 (by rw [h2]; exact hlt id (by simp)) (count_ne (by simp))
    obtain ⟨s3, k1, k2, k3⟩ := ih (s := s2) (g4.congr (count_drop id ids))
      (fun j hj => by rw [g2, h2]; exact hlt j (by simp [hj]))
    exact ⟨s3, by simp [clearAll, h1, g1, k1], by rw [k2, g3, h3]; rfl, k3⟩

theorem dropAll_ok {s : Store} {ids : List Nat} (h : Owns s ids) (hlt : ∀ id ∈ ids, id < s.length) :
    ∃ s', dropAll s ids = some s' ∧ vals s' = vals s ∧ Owns s' [] := by
  induction ids generalizing s with
  | nil => exact ⟨s, rfl, rfl, h⟩
  | cons id ids ih =>
    obtain ⟨s2, g1, g2, g3, g4⟩ := act_drop h (hlt id (by simp)) (count_ne (by simp))
    obtain ⟨s3, k1, k2, k3⟩ := ih (s := s2) (g4.congr (count_drop id ids))
      (fun j hj => by rw [g2]; exact hlt j (by simp [hj]))
    exact ⟨s3, by simp [dropAll, g1, k1], by rw [k2, g3], k3⟩

theorem increment_ok {s : Store} {n : Nat → Nat} {ids : List Nat} (h : Ok s n)
    (hlt : ∀ id ∈ ids, id < s.length) (hn : ∀ id ∈ ids, n id ≠ 0) :
    ∃ s', increment s ids = some s' ∧ s'.length = s.length ∧
      vals s' = incrementIndexes (vals s) ids ∧ Ok s' n := by
  induction ids generalizing s with
  | nil => exact ⟨s, rfl, rfl, rfl, h⟩
  | cons id ids ih =>
    obtain ⟨s1, h1, h2, h3, h4⟩ := act_with (Option.map (· + 1)) h (hlt id (by simp)) (hn id (by simp))
    obtain ⟨s2, k1, k2, k3, k4⟩ := ih h4 (fun j hj => by rw [h2]; exact hlt j (by simp [hj]))
      (fun j hj => hn j (by simp [hj]))
    exact ⟨s2, by simp only [increment, h1, k1], by omega, by rw [k3, h3]; rfl, k4⟩

theorem decrement_ok {s : Store} {n : Nat → Nat} {ids : List Nat} {cells : Cells} (h : Ok s n)
    (hlt : ∀ id ∈ ids, id < s.length) (hn : ∀ id ∈ ids, n id ≠ 0)
    (hd : decrementIndexes (vals s) ids = some cells) :
    ∃ s', decrement s ids = some s' ∧ s'.length = s.length ∧ vals s' = cells ∧ Ok s' n := by
  induction ids generalizing s with
  | nil => cases hd; exact ⟨s, rfl, rfl, rfl, h⟩
  | cons id ids ih =>
    obtain ⟨s1, h1, h2, h3, h4⟩ := act_with (Option.map (· - 1)) h (hlt id (by simp)) (hn id (by simp))
    have hv : s[id]?.map (·.m.value) = (vals s)[id]? := by simp [vals]
    simp only [decrementIndexes] at hd
    split at hd
    · cases hd
    · rename_i hz
      rw [← h3] at hd
      obtain ⟨s2, k1, k2, k3, k4⟩ := ih h4 (fun j hj => by rw [h2]; exact hlt j (by simp [hj]))
        (fun j hj => hn j (by simp [hj])) hd
      refine ⟨s2, ?_, by omega, k3, k4⟩
      simp only [decrement]
      split
      · rename_i h0; exact absurd (hv ▸ h0) (by simpa using hz)
      · simp only [h1, k1]

theorem Ok.push {s : Store} {n : Nat → Nat} (h : Ok s n) (i : Nat) :
    Ok (s ++ [Cell.new i]) (fun j => if j = s.length then 1 else n j) := by
  intro j c hc
  by_cases hj : j < s.length
  · rw [List.getElem?_append_left hj] at hc
    have : ¬ j = s.length := by omega
    simpa [this] using h j c hc
  · have hlt := (List.getElem?_eq_some_iff.1 hc).1
    simp only [List.length_append, List.length_cons, List.length_nil] at hlt
    have : j = s.length := by omega
    subst this
    simp only [List.getElem?_concat_length, Option.some.injEq] at hc
    subst hc
    exact ⟨rfl, by simp [Cell.new, Mut.World.new]⟩

theorem count_fresh {ids : List Nat} {k : Nat} (h : ∀ id ∈ ids, id < k) : ids.count k = 0 :=
  List.count_eq_zero.2 fun hm => Nat.lt_irrefl _ (h k hm)

theorem vals_push (s : Store) (i : Nat) : vals (s ++ [Cell.new i]) = vals s ++ [some i] := by
  simp [vals, Cell.new, Mut.World.new]

theorem newValues_ok {s : Store} {ids : List Nat} (h : Owns s ids) (hlt : ∀ id ∈ ids, id < s.length)
    (k : Nat) (vs : List α) :
    (newValues s k vs).1 = (enumValues (vals s) k vs).1 ∧
    (newValues s k vs).2.1 = (enumValues (vals s) k vs).2.1 ∧
    vals (newValues s k vs).2.2 = (enumValues (vals s) k vs).2.2 ∧
    Owns (newValues s k vs).2.2 (ids ++ (newValues s k vs).2.1) := by
  induction vs generalizing s k ids with
  | nil => simp only [newValues, enumValues, List.append_nil]; exact ⟨trivial, trivial, trivial, h⟩
  | cons v vs ih =>
    have h' : Owns (s ++ [Cell.new k]) (ids ++ [s.length]) := (h.push k).congr fun j => by
      by_cases hj : j = s.length
      · subst hj; simp [count_fresh hlt]
      · have : ¬ s.length = j := fun e => hj e.symm
        simp [hj, List.count_append, List.count_cons, this]
    obtain ⟨h1, h2, h3, h4⟩ := ih h' (k := k + 1) (fun j hj => by
      simp only [List.mem_append, List.mem_singleton] at hj
      simp only [List.length_append, List.length_cons, List.length_nil]
      rcases hj with hj | rfl
      · have := hlt j hj; omega
      · omega)
    simp only [newValues, enumValues, vals_length]
    rw [vals_push] at h1 h2 h3
    refine ⟨by rw [h1], by rw [h2], h3, ?_⟩
    simpa using h4

/-- One change, on cells with signals. -/
theorem change_sim {ids ids' : List Nat} {s : Store} {d : VecDiff α} {e : VecDiff (Nat × α)}
    {cells : Cells} (h : Owns s ids) (hlt : ∀ id ∈ ids, id < s.length)
    (hc : enumChange ids (vals s) d = some (e, ids', cells)) :
    ∃ s', change ids s d = some (e, ids', s') ∧ vals s' = cells ∧ Owns s' ids' := by
  cases d with
  | replace vs =>
    obtain ⟨s1, h1, h2, h3⟩ := clearAll_ok h hlt
    obtain ⟨g1, g2, g3, g4⟩ := newValues_ok h3 (by simp) 0 vs
    simp only [enumChange, Option.some.injEq, Prod.mk.injEq] at hc
    rw [← h2] at hc
    obtain ⟨rfl, rfl, rfl⟩ := hc
    exact ⟨_, by simp [change, h1, g1, g2], g3, by rw [← g2]; simpa using g4⟩
  | insertAt i v =>
    simp only [enumChange, vals_length] at hc
    cases hv : vInsert ids i s.length with
    | none => simp [hv] at hc
    | some ms =>
      simp only [hv, Option.some.injEq, Prod.mk.injEq] at hc
      obtain ⟨rfl, rfl, rfl⟩ := hc
      have hp : ms.Perm (s.length :: ids) := by
        unfold vInsert at hv
        split at hv
        · cases hv
          exact List.perm_insertIdx _ _ (by assumption)
        · cases hv
      have ho : Owns (s ++ [Cell.new i]) ms := (h.push i).congr fun j => by
        rw [hp.count_eq]
        by_cases hj : j = s.length
        · subst hj; simp [count_fresh hlt]
        · have : ¬ s.length = j := fun e => hj e.symm
          simp [hj, List.count_cons, this]
      obtain ⟨s1, k1, k2, k3, k4⟩ := increment_ok (ids := ms.drop (i + 1)) ho
        (fun id hid => by
          have := hp.mem_iff.1 (List.mem_of_mem_drop hid)
          simp only [List.length_append, List.length_cons, List.length_nil]
          rcases List.mem_cons.1 this with rfl | h'
          · omega
          · have := hlt id h'; omega)
        (fun id hid => count_ne (List.mem_of_mem_drop hid))
      exact ⟨s1, by simp [change, hv, k1], by rw [k3, vals_push], k4⟩
  | updateAt i v =>
    simp only [enumChange] at hc
    cases hv : ids[i]? with
    | none => simp [hv] at hc
    | some id =>
      simp only [hv, Option.some.injEq, Prod.mk.injEq] at hc
      obtain ⟨rfl, rfl, rfl⟩ := hc
      exact ⟨s, by simp [change, hv], rfl, h⟩
  | push v =>
    simp only [enumChange, vals_length, Option.some.injEq, Prod.mk.injEq] at hc
    obtain ⟨rfl, rfl, rfl⟩ := hc
    refine ⟨_, rfl, vals_push _ _, (h.push _).congr fun j => ?_⟩
    by_cases hj : j = s.length
    · subst hj; simp [count_fresh hlt]
    · have : ¬ s.length = j := fun e => hj e.symm
      simp [hj, List.count_append, List.count_cons, this]
  | move a b =>
    simp only [enumChange] at hc
    cases hr : vRemove ids a with
    | none => simp [hr] at hc
    | some q =>
      obtain ⟨id, ms⟩ := q
      simp only [hr] at hc
      cases hi : vInsert ms b id with
      | none => simp [hi] at hc
      | some ms' =>
        simp only [hi] at hc
        have hp1 : ids.Perm (id :: ms) := by
          unfold vRemove at hr
          split at hr
          · rename_i x hx
            cases hr
            obtain ⟨l1, l2, e1, -, e2⟩ := split_idx hx
            rw [e2, e1]; exact List.perm_middle
          · cases hr
        have hp2 : ms'.Perm (id :: ms) := by
          unfold vInsert at hi
          split at hi
          · cases hi
            exact List.perm_insertIdx _ _ (by assumption)
          · cases hi
        have hmem : ∀ j ∈ ms', j ∈ ids := fun j hj => hp1.mem_iff.2 (hp2.mem_iff.1 hj)
        have hid : id ∈ ids := hp1.mem_iff.2 (by simp)
        obtain ⟨s1, c1, c2, c3, c4⟩ := act_clone h (hlt id hid) (count_ne hid)
        have hn : ∀ j ∈ ids, (if j = id then ids.count j + 1 else ids.count j) ≠ 0 := fun j hj => by
          have := count_ne hj; split <;> omega
        have mid : ∀ s2, s2.length = s.length → Ok s2 (fun j => if j = id then ids.count j + 1 else ids.count j) →
            ∃ s3, setDrop s2 id (some b) = some s3 ∧ vals s3 = cellSet (vals s2) id (some b) ∧ Owns s3 ms' := by
          intro s2 e1 e2
          obtain ⟨s3, f1, f2, f3, f4⟩ := setDrop_ok (some b) e2 (by rw [e1]; exact hlt id hid) (hn id hid)
          refine ⟨s3, f1, f3, f4.congr fun j => ?_⟩
          rw [(hp2.trans hp1.symm).count_eq]
          split <;> simp
        have hlt1 : ∀ j ∈ ms', j < s1.length := fun j hj => by rw [c2]; exact hlt j (hmem j hj)
        by_cases hab : a < b
        · simp only [hab, if_true] at hc
          rw [← c3] at hc
          cases hd : decrementIndexes (vals s1) ((ms'.take b).drop a) with
          | none => simp [hd] at hc
          | some cs =>
            simp only [hd, Option.some.injEq, Prod.mk.injEq] at hc
            obtain ⟨rfl, rfl, rfl⟩ := hc
            have hs : ∀ j ∈ (ms'.take b).drop a, j ∈ ms' := fun j hj =>
              List.mem_of_mem_take (List.mem_of_mem_drop hj)
            obtain ⟨s2, d1, d2, d3, d4⟩ := decrement_ok c4 (fun j hj => hlt1 j (hs j hj))
              (fun j hj => hn j (hmem j (hs j hj))) hd
            obtain ⟨s3, f1, f2, f3⟩ := mid s2 (by omega) d4
            exact ⟨s3, by simp [change, hr, c1, hi, hab, d1, f1], by rw [f2, d3], f3⟩
        · by_cases hba : b < a
          · simp only [hab, hba, if_true, if_false, Option.some.injEq, Prod.mk.injEq] at hc
            obtain ⟨rfl, rfl, rfl⟩ := hc
            have hs : ∀ j ∈ (ms'.take (a + 1)).drop (b + 1), j ∈ ms' := fun j hj =>
              List.mem_of_mem_take (List.mem_of_mem_drop hj)
            obtain ⟨s2, d1, d2, d3, d4⟩ := increment_ok c4 (fun j hj => hlt1 j (hs j hj))
              (fun j hj => hn j (hmem j (hs j hj)))
            obtain ⟨s3, f1, f2, f3⟩ := mid s2 (by omega) d4
            exact ⟨s3, by simp [change, hr, c1, hi, hab, hba, d1, f1], by rw [f2, d3, c3], f3⟩
          · simp only [hab, hba, if_false, Option.some.injEq, Prod.mk.injEq] at hc
            obtain ⟨rfl, rfl, rfl⟩ := hc
            obtain ⟨s3, f1, f2, f3⟩ := mid s1 c2 c4
            exact ⟨s3, by simp [change, hr, c1, hi, hab, hba, f1], by rw [f2, c3], f3⟩
  | removeAt a =>
    simp only [enumChange] at hc
    cases hr : vRemove ids a with
    | none => simp [hr] at hc
    | some q =>
      obtain ⟨id, ms⟩ := q
      simp only [hr] at hc
      have hp1 : ids.Perm (id :: ms) := by
        unfold vRemove at hr
        split at hr
        · rename_i x hx
          cases hr
          obtain ⟨l1, l2, e1, -, e2⟩ := split_idx hx
          rw [e2, e1]; exact List.perm_middle
        · cases hr
      have hid : id ∈ ids := hp1.mem_iff.2 (by simp)
      have hmem : ∀ j ∈ ms.drop a, j ∈ ids := fun j hj =>
        hp1.mem_iff.2 (by simp [List.mem_of_mem_drop hj])
      cases hd : decrementIndexes (vals s) (ms.drop a) with
      | none => simp [hd] at hc
      | some cs =>
        simp only [hd, Option.some.injEq, Prod.mk.injEq] at hc
        obtain ⟨rfl, rfl, rfl⟩ := hc
        obtain ⟨s2, d1, d2, d3, d4⟩ := decrement_ok h (fun j hj => hlt j (hmem j hj))
          (fun j hj => count_ne (hmem j hj)) hd
        obtain ⟨s3, f1, f2, f3, f4⟩ := setDrop_ok none d4 (by rw [d2]; exact hlt id hid) (count_ne hid)
        refine ⟨s3, by simp [change, hr, d1, f1], by rw [f3, d3], f4.congr fun j => ?_⟩
        rw [hp1.count_eq, count_drop]
  | pop =>
    simp only [enumChange] at hc
    rcases hv : vPop ids with ⟨_ | id, ms⟩
    · simp [hv] at hc
    · simp only [hv, Option.some.injEq, Prod.mk.injEq] at hc
      obtain ⟨rfl, rfl, rfl⟩ := hc
      have hp1 : ids.Perm (id :: ms) := by
        rcases List.eq_nil_or_concat ids with rfl | ⟨l, x, rfl⟩
        · simp [vPop] at hv
        · rw [List.concat_eq_append, vPop_snoc] at hv
          cases hv
          rw [List.concat_eq_append]
          exact (List.perm_append_comm (l₁ := ms) (l₂ := [id]))
      have hid : id ∈ ids := hp1.mem_iff.2 (by simp)
      obtain ⟨s3, f1, f2, f3, f4⟩ := setDrop_ok none h (hlt id hid) (count_ne hid)
      refine ⟨s3, by simp [change, hv, f1], f3, f4.congr fun j => ?_⟩
      rw [hp1.count_eq, count_drop]
  | clear =>
    obtain ⟨s1, h1, h2, h3⟩ := clearAll_ok h hlt
    simp only [enumChange, Option.some.injEq, Prod.mk.injEq] at hc
    obtain ⟨rfl, rfl, rfl⟩ := hc
    exact ⟨s1, by simp [change, h1], h2, h3⟩

/-! ## Histories -/

/-- The invariant. -/
structure Inv (W : World α) (ys : List (Nat × α)) : Prop where
  outs : replay (items W.outs) [] = some ys
  signal : Valid anyDiff W.signal (ys.map (·.2))
  going : W.ended = false → ¬ W.signal.ended
  mutables : W.mutables = if W.gone then [] else ys.map (·.1)
  cells : CellInv (ys.map (·.1)) (vals W.store)
  owns : Owns W.store W.mutables
  given : ∀ d ∈ items W.outs, ∀ y ∈ d.payload, y.1 < W.store.length

theorem Inv.lt {W : World α} {ys : List (Nat × α)} (h : Inv W ys) :
    ∀ id ∈ W.mutables, id < W.store.length := by
  intro id hid
  rw [h.mutables] at hid
  split at hid
  · simp at hid
  · have := idx_lt h.cells.idx id hid
    rwa [vals_length] at this

theorem Inv.init {script : List (Poll (Option (VecDiff α)))}
    (hwf : ∃ z, replay (items script) [] = some z) : Inv (World.init script) [] :=
  ⟨rfl, valid_mk' (feed_any.2 hwf), fun _ => not_ended_mk' _, rfl,
    ⟨by simp, trivial, by simp [World.init, vals]⟩, fun id c hc => by simp [World.init] at hc,
    by simp [World.init]⟩

theorem Use.newValue (u : Use) (v : Option Nat) : u.ev.newValue v = v := by cases u <;> rfl
theorem Use.newHandles (u : Use) (n : Nat) : u.ev.newHandles n = n := by cases u <;> rfl

theorem Inv.step {W : World α} {ys : List (Nat × α)} (h : Inv W ys) (e : Ev) :
    W.step e = .no ∨ ∃ W' ys', W.step e = .ok W' ∧ Inv W' ys' := by
  cases e with
  | poll w =>
    by_cases hg : W.gone = true ∨ W.ended = true
    · left; simp [World.step, hg]
    · right
      simp only [not_or, Bool.not_eq_true] at hg
      have hm := h.mutables
      simp only [hg.1, Bool.false_eq_true, if_false] at hm
      obtain ⟨r, src', xs', h1, h2, h3, h4⟩ := Src.vpoll_rule w W.signal _ (h.going hg.2) h.signal
      cases r with
      | pending =>
        obtain ⟨rfl, he, -⟩ := h4
        exact ⟨⟨src', W.mutables, W.store, W.gone, W.ended, W.outs ++ [.pending]⟩, ys,
          by simp [World.step, hg, World.poll, h1],
          by simpa [items_append] using h.outs, h3, fun _ => he, by simp [hm, hg.1], h.cells, h.owns,
          by simpa [items_append] using h.given⟩
      | ready x =>
        cases x with
        | none =>
          obtain ⟨rfl, he⟩ := h4
          exact ⟨⟨src', W.mutables, W.store, W.gone, true, W.outs ++ [.ready none]⟩, ys,
            by simp [World.step, hg, World.poll, h1],
            by simpa [items_append] using h.outs, h3, fun hf => by simp at hf, by simp [hm, hg.1],
            h.cells, h.owns, by simpa [items_append] using h.given⟩
        | some d =>
          obtain ⟨-, hd, he⟩ := h4
          obtain ⟨e, ys', cells', e1, e2, e3, e4, e5, e6⟩ := enumChange_spec h.cells hd
          subst e3
          rw [← hm] at e1
          obtain ⟨s', k1, k2, k3⟩ := change_sim h.owns h.lt e1
          subst k2
          refine ⟨⟨src', ys'.map (·.1), s', W.gone, W.ended, W.outs ++ [.ready (some e)]⟩, ys',
            by simp [World.step, hg, World.poll, h1, k1], ?_, h3, fun _ => he,
            by simp [hg.1], e4, k3, ?_⟩
          · simp only [items_append]; exact replay_append_some h.outs (by simp [replay, e2])
          · simp only [items_append, items_some, items_nil, List.mem_append, List.mem_singleton,
              vals_length] at e5 e6 ⊢
            rintro d' (hd' | rfl) y hy
            · exact Nat.lt_of_lt_of_le (h.given d' hd' y hy) e5
            · exact e6 y hy
  | drop =>
    by_cases hg : W.gone = true
    · left; simp [World.step, hg]
    · right
      obtain ⟨s', k1, k2, k3⟩ := dropAll_ok h.owns h.lt
      have hl : s'.length = W.store.length := by rw [← vals_length, k2, vals_length]
      exact ⟨⟨W.signal, [], s', true, W.ended, W.outs⟩, ys, by simp [World.step, hg, k1], h.outs, h.signal, h.going, by simp,
        by simp only [k2]; exact h.cells, k3, by simp only [hl]; exact h.given⟩
  | use id u =>
    cases ha : act W.store id u.ev with
    | none => left; simp [World.step, ha]
    | some s' =>
      right
      obtain ⟨k1, k2, k3⟩ := act_some h.owns ha
      have hv : vals s' = vals W.store := by
        rw [k2, show u.ev.newValue = fun v => v from funext u.newValue]; exact modify_id
      exact ⟨⟨W.signal, W.mutables, s', W.gone, W.ended, W.outs⟩, ys, by simp [World.step, ha], h.outs, h.signal, h.going, h.mutables,
        by simp only [hv]; exact h.cells, k3.congr fun j => by simp [Use.newHandles],
        by simp only [k1]; exact h.given⟩

theorem Inv.runs {W : World α} {ys : List (Nat × α)} (h : Inv W ys) (es : List Ev) :
    W.runs es = .no ∨ ∃ W' ys', W.runs es = .ok W' ∧ Inv W' ys' := by
  induction es generalizing W ys with
  | nil => exact .inr ⟨W, ys, rfl, h⟩
  | cons e es ih =>
    rcases h.step e with h1 | ⟨W', ys', h1, h2⟩
    · left; simp [World.runs, h1]
    · simp only [World.runs, h1]; exact ih h2

theorem runs_inv {script : List (Poll (Option (VecDiff α)))}
    (hwf : ∃ z, replay (items script) [] = some z) {es : List Ev} {W : World α}
    (h : (World.init script).runs es = .ok W) : ∃ ys, Inv W ys := by
  rcases (Inv.init hwf).runs es with h1 | ⟨W', ys', h1, h2⟩
  · rw [h1] at h; cases h
  · rw [h1] at h; cases h; exact ⟨ys', h2⟩

theorem runs_snoc {W W' : World α} {es : List Ev} {e : Ev} (h : W.runs (es ++ [e]) = .ok W') :
    ∃ W1, W.runs es = .ok W1 ∧ W1.step e = .ok W' := by
  induction es generalizing W with
  | nil =>
    refine ⟨W, rfl, ?_⟩
    simp only [List.nil_append, World.runs] at h
    cases hs : W.step e <;> simp only [hs] at h
    · cases h
    · cases h
    · cases h; rfl
  | cons x es ih =>
    simp only [List.cons_append, World.runs] at h ⊢
    cases hs : W.step x <;> simp only [hs] at h ⊢
    · cases h
    · cases h
    · exact ih h

theorem idxOf_get {ids : List Nat} (hn : ids.Nodup) {i id : Nat} (h : ids[i]? = some id) :
    ids.idxOf? id = some i := by
  induction ids generalizing i with
  | nil => simp at h
  | cons a ids ih =>
    cases i with
    | zero => simp at h; subst h; simp [List.idxOf?_cons]
    | succ i =>
      simp only [List.getElem?_cons_succ] at h
      have hm : id ∈ ids := List.mem_of_getElem? h
      have hne : ¬ a = id := fun e => (List.nodup_cons.1 hn).1 (e ▸ hm)
      simp [List.idxOf?_cons, hne, ih (List.nodup_cons.1 hn).2 h]

theorem Inv.place {W : World α} {ys : List (Nat × α)} (h : Inv W ys) (id : Nat) :
    place W.outs id = (ys.map (·.1)).idxOf? id := by
  simp only [EnumSig.place, h.outs]

theorem Inv.value {W : World α} {ys : List (Nat × α)} (h : Inv W ys) {id : Nat} {c : Cell}
    (hc : W.store[id]? = some c) : c.m.value = EnumSig.place W.outs id := by
  rw [h.place]
  have hv : (vals W.store)[id]? = some c.m.value := by simp [vals, hc]
  by_cases hm : id ∈ ys.map (·.1)
  · obtain ⟨i, hi⟩ := List.mem_iff_getElem?.1 hm
    rw [idxOf_get h.cells.nodup hi]
    have := idx_get h.cells.idx hi
    rw [hv] at this
    simpa using this
  · rw [h.cells.rest id _ hv hm, List.idxOf?_eq_none_iff.2 hm]

theorem Inv.handles {W : World α} {ys : List (Nat × α)} (h : Inv W ys) {id : Nat} {c : Cell}
    (hc : W.store[id]? = some c) :
    c.m.handles = 0 ↔ EnumSig.place W.outs id = none ∨ W.gone = true := by
  rw [(h.owns id c hc).2, h.place, List.idxOf?_eq_none_iff, h.mutables, List.count_eq_zero]
  split <;> rename_i hg <;> simp [hg]

end Verif.EnumSig
