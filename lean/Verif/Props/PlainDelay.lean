import Verif.Props.PlainStages
import Verif.Props.SendsDelay

/-!
# C102: `delay_remove` keeps changes in their plain form
-/

namespace Verif

variable {α β : Type}

/-- How many elements are not leaving. -/
def staying (xs : List (α × Bool)) : Nat := xs.countP (!·.2)

theorem lenAfter_map (f : α → β) (d : VecDiff α) (n : Nat) : (d.map f).lenAfter n = d.lenAfter n := by
  cases d <;> simp [VecDiff.map, VecDiff.lenAfter]

theorem lensAfter_map (f : α → β) (ds : List (VecDiff α)) (n : Nat) :
    lensAfter (ds.map (VecDiff.map f)) n = lensAfter ds n := by
  induction ds generalizing n with
  | nil => rfl
  | cons d ds ih => simp [lensAfter, lenAfter_map, ih]

theorem replay_length {ds : List (VecDiff α)} {xs ys : List α} (h : replay ds xs = some ys) :
    ys.length = lensAfter ds xs.length := by
  induction ds generalizing xs with
  | nil => cases h; rfl
  | cons d ds ih =>
    simp only [replay] at h
    split at h
    · rename_i zs hz
      rw [ih h, (MutVec.apply_room hz).2]; rfl
    · cases h

/-! ## Those who go -/

theorem departures_plain (goes : List Bool) (i : Nat) :
    PlainIn (departures i goes : List (VecDiff α)) (i + goes.length) ∧
      lensAfter (departures i goes : List (VecDiff α)) (i + goes.length) = i + goes.countP (!·) := by
  induction goes generalizing i with
  | nil => exact ⟨trivial, rfl⟩
  | cons b goes ih =>
    obtain ⟨h1, h2⟩ := ih (i + 1)
    rw [show i + 1 + goes.length = i + (b :: goes).length by simp only [List.length_cons]; omega] at h1 h2
    simp only [departures, plainIn_append, lensAfter_append, h2]
    refine ⟨⟨h1, ?_⟩, ?_⟩
    · cases b
      · trivial
      · simp only [if_true]
        split
        · exact ⟨trivial, trivial⟩
        · rename_i hn
          refine ⟨?_, trivial⟩
          have : 0 < goes.countP (!·) := by
            rw [List.countP_pos_iff]
            simpa using hn
          show i + 1 ≠ _
          omega
    · cases b
      · simp [lensAfter]; omega
      · simp only [if_true]
        split <;> simp [lensAfter, VecDiff.lenAfter] <;> omega

theorem depart_length (goes : List Bool) (xs : List (α × Bool)) (h : goes.length = xs.length) :
    (depart goes xs).length = goes.countP (!·) := by
  induction goes generalizing xs with
  | nil => simp [depart]
  | cons b goes ih =>
    match xs, h with
    | x :: xs, h =>
      have := ih xs (by simpa using h)
      cases b <;> simp_all [depart]

theorem depart_staying (goes : List Bool) (xs : List (α × Bool)) (h : goes.length = xs.length)
    (hm : ∀ i : Nat, goes[i]? = some true → (xs.map (·.2))[i]? = some true) : staying (depart goes xs) = staying xs := by
  induction goes generalizing xs with
  | nil =>
    match xs, h with
    | [], _ => rfl
  | cons b goes ih =>
    match xs, h with
    | x :: xs, h =>
      have h1 := ih xs (by simpa using h) fun i hi => by simpa using hm (i + 1) (by simpa using hi)
      have h2 := hm 0
      clear hm ih
      obtain ⟨a, c⟩ := x
      simp only [List.getElem?_cons_zero, List.map_cons, Option.some.injEq] at h2
      cases b <;> cases c <;> simp_all [depart, staying]

/-! ## Where the others are -/

theorem place_le (xs : List (α × Bool)) (i : Nat) : place xs i ≤ xs.length := by
  induction xs generalizing i with
  | nil => simp [place]
  | cons x xs ih =>
    obtain ⟨a, b⟩ := x
    cases b
    · cases i with
      | zero => simp [place]
      | succ i => simpa [place] using ih i
    · simpa [place] using ih i

theorem place_split {xs : List (α × Bool)} {i : Nat} (h : i < staying xs) :
    ∃ p a q, xs = p ++ (a, false) :: q ∧ place xs i = p.length ∧ staying p = i := by
  induction xs generalizing i with
  | nil => simp [staying] at h
  | cons x xs ih =>
    obtain ⟨a, b⟩ := x
    cases b
    · cases i with
      | zero => exact ⟨[], a, xs, rfl, rfl, rfl⟩
      | succ i =>
        obtain ⟨p, c, q, rfl, h2, h3⟩ := ih (i := i) (by simpa [staying] using h)
        exact ⟨(a, false) :: p, c, q, rfl, by simp [place, h2], by simpa [staying] using h3⟩
    · obtain ⟨p, c, q, rfl, h2, h3⟩ := ih (i := i) (by simpa [staying] using h)
      exact ⟨(a, true) :: p, c, q, rfl, by simp [place, h2], by simpa [staying] using h3⟩

theorem staying_append (p q : List (α × Bool)) : staying (p ++ q) = staying p + staying q := by
  simp [staying]

theorem place_append {p q : List (α × Bool)} {j : Nat} (h : staying p ≤ j) :
    place (p ++ q) j = p.length + place q (j - staying p) := by
  induction p generalizing j with
  | nil => simp [staying]
  | cons x p ih =>
    obtain ⟨a, b⟩ := x
    cases b
    · cases j with
      | zero => simp [staying] at h
      | succ j =>
        have := ih (j := j) (by simpa [staying] using h)
        simp only [List.cons_append, place, this, List.length_cons]
        simp only [staying, List.countP_cons, Bool.not_false, if_true]
        rw [Nat.add_sub_add_right]
        omega
    · have := ih (j := j) (by simpa [staying] using h)
      simp only [List.cons_append, place, this, List.length_cons]
      simp only [staying, List.countP_cons]
      simp
      omega

theorem place_before {p q : List (α × Bool)} {j : Nat} (h : j < staying p) : place (p ++ q) j < p.length := by
  obtain ⟨p1, a, p2, rfl, -, h3⟩ := place_split h
  rw [List.append_assoc, place_append (by omega), h3]
  simp [place]

theorem place_pos {xs : List (α × Bool)} {j : Nat} (hj : j ≠ 0) (h : staying xs ≠ 0) : place xs j ≠ 0 := by
  match xs, j with
  | (a, true) :: xs, j => simp [place]
  | (a, false) :: xs, 0 => exact absurd rfl hj
  | (a, false) :: xs, j + 1 => simp [place]
  | [], _ => simp [staying] at h

/-! ## One step -/

theorem brings_plain {d : VecDiff α} {xs zs : List (α × Bool)} (hp : PlainN d (staying xs)) (hr : d.Room (staying xs))
    (hz : d.marks xs = xs → zs = xs) : PlainIn (d.brings xs zs) zs.length := by
  cases d with
  | replace vs =>
    simp only [VecDiff.brings]
    split
    · exact ⟨trivial, trivial⟩
    · exact (plainIn_pushes vs _).1
  | insertAt i a =>
    have := hz rfl; subst this
    have hp : i ≠ staying zs := hp
    have hr : i ≤ staying zs := hr
    obtain ⟨p, b, q, h1, h2, -⟩ := place_split (xs := zs) (i := i) (by omega)
    refine ⟨?_, trivial⟩
    show place zs i ≠ zs.length
    rw [h2, h1]
    simp
  | updateAt i a => exact ⟨trivial, trivial⟩
  | push a => exact ⟨trivial, trivial⟩
  | move i j =>
    have := hz rfl; subst this
    have hp : i ≠ j := hp
    obtain ⟨hr1, hr2⟩ : i < staying zs ∧ j < staying zs := hr
    obtain ⟨p, b, q, h1, h2, h3⟩ := place_split hr1
    refine ⟨?_, trivial⟩
    show place zs i ≠ place (zs.eraseIdx (place zs i)) j
    rw [h2, h1]
    have he : (p ++ (b, false) :: q).eraseIdx p.length = p ++ q := by
      rw [List.eraseIdx_append_of_length_le (Nat.le_refl _)]; simp
    rw [he]
    have hs : staying zs = staying p + 1 + staying q := by rw [h1, staying_append]; simp [staying]; omega
    by_cases hj : j < i
    · have := place_before (p := p) (q := q) (j := j) (by omega)
      omega
    · rw [place_append (by omega)]
      have := place_pos (xs := q) (j := j - staying p) (by omega) (by omega)
      omega
  | removeAt i => trivial
  | pop => trivial
  | clear => trivial

theorem marks_length (d : VecDiff α) (xs : List (α × Bool)) : (d.marks xs).length = xs.length := by
  cases d <;> simp [VecDiff.marks, leaves]

theorem staying_marked (xs : List (α × Bool)) : staying (xs.map fun x => (x.1, true)) = 0 := by
  simp [staying, List.countP_eq_zero]

theorem staying_leaves {xs : List (α × Bool)} {i : Nat} (h : i < staying xs) :
    staying (leaves xs (place xs i)) = staying xs - 1 := by
  obtain ⟨p, a, q, h1, h2, -⟩ := place_split h
  rw [h2, h1, leaves_append, staying_append, staying_append]
  simp [staying]

/-- How many are not leaving after a change, before what it brings. -/
theorem marks_staying {d : VecDiff α} {xs : List (α × Bool)} (hr : d.Room (staying xs)) :
    staying (d.marks xs) = match d with
      | .removeAt _ => staying xs - 1
      | .pop => staying xs - 1
      | .clear => 0
      | .replace _ => 0
      | _ => staying xs := by
  cases d with
  | removeAt i => exact staying_leaves hr
  | pop =>
    have hr : 0 < staying xs := hr
    simp only [VecDiff.marks]
    rw [← List.countP_eq_length_filter]
    exact staying_leaves (i := staying xs - 1) (by omega)
  | clear => exact staying_marked xs
  | replace vs => exact staying_marked xs
  | _ => rfl

theorem staying_new (vs : List α) : staying (vs.map fun a => (a, false)) = vs.length := by
  simp [staying, List.countP_map, List.countP_eq_length]

theorem brings_staying {d : VecDiff α} {xs zs ys : List (α × Bool)} (hr : d.Room (staying xs))
    (hz : d.marks xs = xs → zs = xs) (hs : staying zs = staying (d.marks xs))
    (h : replay ((d.brings xs zs).map (VecDiff.map fun a => (a, false))) zs = some ys) :
    staying ys = d.lenAfter (staying xs) := by
  rw [marks_staying hr] at hs
  cases d with
  | replace vs =>
    simp only [VecDiff.brings] at h
    split at h
    · simp only [List.map_cons, List.map_nil, VecDiff.map, replay, VecDiff.apply, Option.some.injEq] at h
      rw [← h]; exact staying_new vs
    · have : (vs.map VecDiff.push).map (VecDiff.map fun a => (a, false)) = (vs.map fun a => (a, false)).map VecDiff.push := by
        simp [VecDiff.map]
      rw [this, replay_all_pushes] at h
      cases h
      rw [staying_append, staying_new, hs]
      simp [VecDiff.lenAfter]
  | insertAt i a =>
    have := hz rfl; subst this
    have hl := place_le zs i
    simp only [VecDiff.brings, List.map_cons, List.map_nil, VecDiff.map, replay, VecDiff.apply, vInsert, hl, if_true,
      Option.some.injEq] at h
    have := (List.perm_insertIdx (a, false) zs hl).countP_eq (!·.2)
    rw [← h]
    simp only [staying, VecDiff.lenAfter]
    simpa using this
  | updateAt i a =>
    have := hz rfl; subst this
    obtain ⟨p, b, q, h1, h2, -⟩ := place_split (xs := zs) (i := i) hr
    simp only [VecDiff.brings, List.map_cons, List.map_nil, VecDiff.map, replay, VecDiff.apply, vSet, h2] at h
    simp only [VecDiff.lenAfter]
    rw [h1] at h ⊢
    simp at h
    rw [← h]
    simp [staying]
  | push a =>
    have := hz rfl; subst this
    simp only [VecDiff.brings, List.map_cons, List.map_nil, VecDiff.map, replay, VecDiff.apply, Option.some.injEq] at h
    rw [← h, staying_append]
    simp [staying, VecDiff.lenAfter]
  | move i j =>
    have := hz rfl; subst this
    obtain ⟨p, b, q, h1, h2, -⟩ := place_split (xs := zs) (i := i) hr.1
    simp only [VecDiff.brings, List.map_cons, List.map_nil, VecDiff.map, replay, VecDiff.apply, vRemove, h2] at h
    simp only [VecDiff.lenAfter]
    have he : zs.eraseIdx p.length = p ++ q := by
      rw [h1, List.eraseIdx_append_of_length_le (Nat.le_refl _)]; simp
    have hl := place_le (p ++ q) j
    rw [he, show zs[p.length]? = some (b, false) by rw [h1]; simp] at h
    simp only [vInsert, hl, if_true, Option.some.injEq] at h
    have := (List.perm_insertIdx (b, false) (p ++ q) hl).countP_eq (!·.2)
    rw [← h, h1]
    simp only [staying] at this ⊢
    rw [this]
    simp
    omega
  | removeAt i => cases h; exact hs
  | pop => cases h; exact hs
  | clear => cases h; exact hs

theorem fair_goes {n : Leaving α} {xs : List (α × Bool)} (h : n.fair xs = true) :
    n.goes.length = xs.length ∧ ∀ i : Nat, n.goes[i]? = some true → (n.may xs)[i]? ≠ some false := by
  simp only [Leaving.fair, Bool.and_eq_true, decide_eq_true_eq, List.all_eq_true] at h
  refine ⟨h.1, fun i h1 h2 => ?_⟩
  have h3 : (n.goes.zip (n.may xs))[i]? = some (true, false) := by simp [List.getElem?_zip_eq_some, h1, h2]
  have := h.2 _ (List.mem_of_getElem? h3)
  simp at this

/-- What one step sends, and how many elements there are afterwards. -/
theorem leaving_step {n : Leaving α} {xs ys : List (α × Bool)} (h : n.apply xs = some ys)
    (hp : PlainIn n.change.toList (staying xs)) (hr : RoomIn n.change.toList (staying xs)) :
    PlainIn (n.says xs ys) xs.length ∧ lensAfter (n.says xs ys) xs.length = ys.length ∧
      staying ys = lensAfter n.change.toList (staying xs) := by
  obtain ⟨c, goes⟩ := n
  unfold Leaving.apply at h
  split at h
  · rename_i hf
    obtain ⟨hg, hm⟩ := fair_goes hf
    simp only at hg hm
    obtain ⟨d1, d2⟩ := departures_plain (α := α) goes 0
    rw [Nat.zero_add, hg] at d1 d2
    cases c with
    | none =>
      cases h
      simp only [Leaving.says, List.append_nil]
      refine ⟨d1, ?_, ?_⟩
      · rw [d2, Nat.zero_add, depart_length _ _ hg]
      · refine depart_staying _ _ hg fun i hi => ?_
        have h1 := hm i hi
        have h2 : i < xs.length := by rw [← hg]; exact (List.getElem?_eq_some_iff.1 hi).1
        simp only [Leaving.may] at h1
        simp only [List.getElem?_map, List.getElem?_eq_getElem h2, Option.map_some] at h1 ⊢
        simpa using h1
    | some d =>
      have hp : PlainN d (staying xs) := hp.1
      have hr : d.Room (staying xs) := hr.1
      have hl := marks_length d xs
      have hg' : goes.length = (d.marks xs).length := by rw [hl, hg]
      have key : ∀ i : Nat, goes[i]? = some true → (xs.map (·.2))[i]? = some false ∧ ((d.marks xs).map (·.2))[i]? = some true := by
        intro i hi
        have h1 := hm i hi
        have h2 : i < xs.length := by rw [← hg]; exact (List.getElem?_eq_some_iff.1 hi).1
        have h3 : i < (d.marks xs).length := by omega
        simp only [Leaving.may, List.getElem?_zipWith, List.getElem?_eq_getElem h2, List.getElem?_eq_getElem h3,
          Option.map_some] at h1
        simp only [List.getElem?_map, List.getElem?_eq_getElem h2, List.getElem?_eq_getElem h3, Option.map_some]
        revert h1
        cases (xs[i]).2 <;> cases ((d.marks xs)[i]).2 <;> simp
      have hz : d.marks xs = xs → depart goes (d.marks xs) = xs := by
        intro he
        rw [he]
        have : goes = List.replicate xs.length false := by
          refine List.eq_replicate_iff.2 ⟨hg, fun b hb => ?_⟩
          cases b with
          | false => rfl
          | true =>
            obtain ⟨i, hi⟩ := List.mem_iff_getElem?.1 hb
            have := key i hi
            rw [he, this.1] at this
            simp at this
        rw [this]
        exact depart_none xs
      have hs := depart_staying goes (d.marks xs) hg' fun i hi => (key i hi).2
      have h : replay ((d.brings xs (depart goes (d.marks xs))).map (VecDiff.map fun a => (a, false)))
        (depart goes (d.marks xs)) = some ys := h
      show PlainIn (departures 0 goes ++ d.brings xs (depart goes (d.marks xs))) xs.length ∧
        lensAfter (departures 0 goes ++ d.brings xs (depart goes (d.marks xs))) xs.length = ys.length ∧
        staying ys = d.lenAfter (staying xs)
      rw [plainIn_append, lensAfter_append, d2, Nat.zero_add, ← depart_length _ _ hg']
      refine ⟨⟨d1, brings_plain hp hr hz⟩, ?_, brings_staying hr hz hs h⟩
      rw [replay_length h, lensAfter_map]
  · cases h

theorem sends_delay_plain {ts : List (Leaving α)} {xs : List (α × Bool)}
    (hp : PlainIn (ts.filterMap (·.change)) (staying xs)) (hr : RoomIn (ts.filterMap (·.change)) (staying xs)) :
    PlainIn (sends Leaving.apply (fun b a n => Leaving.says b a n) xs ts) xs.length := by
  induction ts generalizing xs with
  | nil => trivial
  | cons t ts ih =>
    simp only [sends]
    split
    · trivial
    · rename_i ys ht
      have he : (t :: ts).filterMap (·.change) = t.change.toList ++ ts.filterMap (·.change) := by
        cases hc : t.change <;> simp [hc]
      rw [he, plainIn_append] at hp
      rw [he, roomIn_append] at hr
      obtain ⟨h1, h2, h3⟩ := leaving_step ht hp.1 hr.1
      rw [plainIn_append, h2]
      refine ⟨h1, ih ?_ ?_⟩
      · rw [h3]; exact hp.2
      · rw [h3]; exact hr.2

/-- **C102**, `delay_remove`: if the changes that it takes are plain, so are those that it sends. -/
theorem C102_delay_remove (g : α → List (Poll Unit)) (script : List (Poll (Option (VecDiff α)))) (ws : List Waker)
    (outs : List (Poll (Option (VecDiff α)))) (s : VDelay α)
    (h : run (VDelay.poll g) ws (VDelay.init script) = some (outs, s))
    (hwf : ∃ z, replay s.signal.src.got [] = some z) (hp : PlainFrom s.signal.src.got []) : PlainFrom (items outs) [] := by
  obtain ⟨z, hz⟩ := hwf
  obtain ⟨h1, h2⟩ := in_of_plainFrom hp hz
  obtain ⟨tr, t1, -, t3⟩ := C98_delay_remove_exact g script ws outs s h
  have h3 := sends_delay_plain (ts := tr) (xs := []) (by rw [t1]; exact h1) (by rw [t1]; exact h2)
  have h4 : PlainIn (items outs ++ s.pending) 0 := by rw [t3]; exact h3
  rw [plainIn_append] at h4
  exact plainFrom_of_in h4.1

/-- Plain changes with an element that is leaving for a while, and what is sent for them. -/
example : ∃ s, run (VDelay.poll (fun n : Nat => if n = 1 then [.pending, .pending, .ready ()] else [.ready ()]))
        [0, 0, 0, 0, 0, 0]
        (VDelay.init [.ready (some (.replace [1, 2])), .ready (some (.removeAt 0)), .pending,
          .ready (some (.insertAt 0 3)), .ready (some .pop), .pending]) =
      some ([.ready (some (.replace [1, 2])), .ready (some (.insertAt 1 3)), .ready (some .pop),
        .ready (some (.removeAt 0)), .pending, .pending], s) ∧
    replay s.signal.src.got [] = some [3] ∧ PlainFrom s.signal.src.got [] :=
  ⟨_, rfl, rfl, plainFrom_of_in (show PlainIn [.replace [1, 2], .removeAt 0, .insertAt 0 3, .pop] 0 by
    simp [PlainIn, PlainN, VecDiff.lenAfter])⟩

end Verif
