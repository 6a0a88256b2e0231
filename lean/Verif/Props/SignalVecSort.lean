import Verif.SortProofs
import Verif.Polite
import Verif.Props.SignalVecMap

/-!
# `SignalVec::sort_by_cloned` (property C15, and C57–C59 for it)
-/

namespace Verif

variable {α : Type} {cmp : α → α → Ordering}

theorem Out.mem_zip {values : List α} {is : List Nat} {zs : List α} (h : Out values is zs) (a : α)
    (i : Nat) : (a, i) ∈ zs.zip is ↔ i ∈ is ∧ values[i]? = some a := by
  induction is generalizing zs with
  | nil => simp
  | cons j is ih =>
    obtain ⟨b, zs, rfl, hb, ho⟩ := h.cons
    simp only [List.zip_cons_cons, List.mem_cons, Prod.mk.injEq, ih ho]
    constructor
    · rintro (⟨rfl, rfl⟩ | ⟨h1, h2⟩)
      · exact ⟨.inl rfl, hb⟩
      · exact ⟨.inr h1, h2⟩
    · rintro ⟨rfl | h1, h2⟩
      · rw [hb] at h2; cases h2; exact .inl ⟨rfl, rfl⟩
      · exact .inr ⟨h1, h2⟩

theorem Out.pairwise {values : List α} {is : List Nat} {zs : List α} (hp : TotalPreorder cmp)
    (h : Out values is zs) (hs : is.Pairwise (fun i j => sortCmp cmp values i j = .lt)) :
    (zs.zip is).Pairwise (fun a b => List.zipIdxLE (fun a b => cmp a b != .gt) a b) := by
  induction is generalizing zs with
  | nil => simp
  | cons j is ih =>
    obtain ⟨b, zs, rfl, hb, ho⟩ := h.cons
    rw [List.pairwise_cons] at hs
    rw [List.zip_cons_cons, List.pairwise_cons]
    refine ⟨?_, ih ho hs.2⟩
    rintro ⟨a, i⟩ hm
    obtain ⟨h1, h2⟩ := (ho.mem_zip a i).1 hm
    have := hs.1 i h1
    rw [sortCmp_of hb h2, then_eq_lt] at this
    unfold List.zipIdxLE
    rcases this with h3 | ⟨h3, h4⟩
    · have h5 : cmp a b = .gt := by rw [hp.swap b a, h3]; rfl
      simp [h3, h5]
    · have h5 : cmp a b = .eq := by rw [hp.swap b a, h3]; rfl
      simp [h3, h5]; omega

/-- The invariant determines the output. -/
theorem out_sortedBy (hp : TotalPreorder cmp) {values : List α} {is : List Nat} {zs : List α}
    (hi : SInv cmp values is) (ho : Out values is zs) : zs = sortedBy cmp values := by
  have hnodup : is.Nodup := by
    refine List.Pairwise.imp_of_mem ?_ hi.sorted
    rintro a b ha hb hab rfl
    rw [(sortCmp_eq hp ((hi.mem a).1 ha) ((hi.mem a).1 ha)).2 rfl] at hab
    cases hab
  have hsnd : (zs.zip is).map Prod.snd = is := by
    rw [List.map_snd_zip]; rw [ho.length]; exact Nat.le_refl _
  have hfst : (zs.zip is).map Prod.fst = zs := by
    rw [List.map_fst_zip]; rw [ho.length]; exact Nat.le_refl _
  have hn1 : (zs.zip is).Nodup := by
    have : ((zs.zip is).map Prod.snd).Nodup := by rw [hsnd]; exact hnodup
    exact (List.pairwise_map.1 this).imp fun h e => h (by rw [e])
  have hn2 : values.zipIdx.Nodup := by
    have : (values.zipIdx.map Prod.snd).Nodup := by
      rw [List.zipIdx_map_snd]; exact List.nodup_range' ..
    exact (List.pairwise_map.1 this).imp fun h e => h (by rw [e])
  have hperm : (zs.zip is).Perm values.zipIdx := by
    rw [List.perm_ext_iff_of_nodup hn1 hn2]
    rintro ⟨a, i⟩
    rw [ho.mem_zip, List.mk_mem_zipIdx_iff_getElem?, hi.mem]
    constructor
    · exact fun h => h.2
    · intro h
      exact ⟨(List.getElem?_eq_some_iff.1 h).1, h⟩
  have htrans : ∀ a b c : α, cmp a b != .gt → cmp b c != .gt → cmp a c != .gt := by
    intro a b c h1 h2
    simpa using hp.trans a b c (by simpa using h1) (by simpa using h2)
  have htotal : ∀ a b : α, cmp a b != .gt || cmp b a != .gt := by
    intro a b
    rw [hp.swap a b]
    cases cmp a b <;> simp [Ordering.swap]
  have key : zs.zip is =
      values.zipIdx.mergeSort (List.zipIdxLE (fun a b => cmp a b != .gt)) := by
    refine List.Perm.eq_of_pairwise (le := fun a b => List.zipIdxLE (fun a b => cmp a b != .gt) a b) ?_
      (ho.pairwise hp hi.sorted)
      (List.pairwise_mergeSort (List.zipIdxLE_trans htrans) (List.zipIdxLE_total htotal) _)
      (hperm.trans (List.mergeSort_perm _ _).symm)
    rintro ⟨a, i⟩ ⟨b, j⟩ h1 h2 h3 h4
    have h1 := ((ho.mem_zip a i).1 h1).2
    have h2 : values[j]? = some b :=
      List.mk_mem_zipIdx_iff_getElem?.1 ((List.mergeSort_perm _ _).mem_iff.1 h2)
    have : i = j := by
      unfold List.zipIdxLE at h3 h4
      simp only at h3 h4
      by_cases c1 : (cmp a b != .gt) = true <;> by_cases c2 : (cmp b a != .gt) = true <;>
        simp only [c1, c2, if_true, if_false, Bool.false_eq_true, decide_eq_true_eq] at h3 h4
      omega
    subst this
    rw [h1] at h2
    cases h2
    rfl
  rw [sortedBy, ← List.mergeSort_zipIdx, ← key, hfst]

/-- **C15.**  `sort_by_cloned`: for every well-formed input history, every total preorder, every
schedule of polls, and every implementation of the library's sort and binary search: no poll
panics; the emitted diffs are applicable and describe a sorted list at every moment; and, once the
second half of an update that moves an element has been delivered too (`pending` is empty, which it
is whenever the last answer is `Pending` or the end), exactly the sorted contents of the input,
equal elements in the order they have there. -/
theorem C15_sort_by_cloned (S : SliceFns) (hS : S.Lawful) (cmp : α → α → Ordering)
    (hp : TotalPreorder cmp) (script : List (Poll (Option (VecDiff α))))
    (hwf : ∃ z, replay (items script) [] = some z) (ws : List Waker) :
    ∃ outs s xs zs, run (VSort.poll S cmp) ws (VSort.init script) = some (outs, s) ∧
      replay s.signal.got [] = some xs ∧
      replay (items outs) [] = some zs ∧
      zs.Pairwise (fun a b => cmp a b ≠ .gt) ∧
      replay s.pending.toList zs = some (sortedBy cmp xs) ∧
      (outs.getLast? = some .pending ∨ .ready none ∈ outs → zs = sortedBy cmp xs) := by
  let Good (s : VSort α) (zs : List α) : Prop :=
    ∃ xs zs', Valid anyDiff s.signal xs ∧ s.values = xs ∧ SInv cmp s.values s.indexes ∧
      Out s.values s.indexes zs' ∧ zs.Sublist zs' ∧ replay s.pending.toList zs = some zs'
  obtain ⟨outs, s, zs, h1, h2, h3, h4, h5⟩ := vec_run (poll := VSort.poll S cmp)
    (fun s zs => ¬ s.signal.ended ∧ Good s zs)
    (fun s zs => (¬ s.signal.ended ∧ Good s zs) ∧ s.pending = none)
    (fun s zs => Good s zs ∧ s.pending = none)
    (fun _ _ h => h.1)
    (by
      rintro w ⟨pend, values, indexes, src⟩ zs ⟨hne, xs, zs', hv, e, hi, ho, hsub, hrep⟩
      simp only at hne hv e hi ho hrep
      subst e
      cases pend with
      | some d =>
        simp only [Option.toList_some, replay] at hrep
        cases hd : d.apply zs with
        | none => simp [hd] at hrep
        | some zs1 =>
          simp only [hd, Option.some.injEq] at hrep
          subst hrep
          exact ⟨.ready (some d), _, rfl, zs1, hd, hne, values, zs1, hv, rfl, hi, ho,
            List.Sublist.refl _, rfl⟩
      | none =>
        simp only [Option.toList_none, replay, Option.some.injEq] at hrep
        subst hrep
        obtain ⟨st, ⟨vs, is⟩, src', xs', g1, g2, g3, g4⟩ := Src.vloop_rule (w := w)
          (body := sortBody S cmp) (ok := anyDiff)
          (fun s xs => s.1 = xs ∧ SInv cmp s.1 s.2 ∧ Out s.1 s.2 zs)
          (fun r s xs => s.1 = xs ∧ SInv cmp s.1 s.2 ∧ ∃ zs1 zs', Out s.1 s.2 zs' ∧
            r.1.apply zs = some zs1 ∧ zs1.Sublist zs' ∧ replay r.2.toList zs1 = some zs')
          (by
            rintro ⟨vs, is⟩ xs d ys ⟨e, hi, ho⟩ - hd
            simp only at e hi ho
            subst e
            rcases sortBody_spec hS hp hi ho hd with ⟨is', e1, e2, e3⟩ |
              ⟨is', e, pend, zs1, zs', e1, e2, e3, e4, e5, e6⟩
            · rw [e1]; exact ⟨rfl, e2, e3⟩
            · rw [e1]; exact ⟨rfl, e2, zs1, zs', e3, e4, e5, e6⟩)
          src (values, indexes) values hne hv ⟨rfl, hi, ho⟩
        match st with
        | .panic => exact g4.elim
        | .ret (d, p) =>
          obtain ⟨⟨a1, a2, zs1, zs', a3, a4, a5, a6⟩, a7⟩ := g4
          exact ⟨.ready (some d), ⟨p, vs, is, src'⟩, by simp [VSort.poll, g1], zs1, a4, a7, xs',
            zs', g3, a1, a2, a3, a5, a6⟩
        | .ended =>
          obtain ⟨⟨a1, a2, a3⟩, -⟩ := g4
          exact ⟨.ready none, ⟨none, vs, is, src'⟩, by simp [VSort.poll, g1],
            ⟨xs', zs, g3, a1, a2, a3, List.Sublist.refl _, rfl⟩, rfl⟩
        | .pending =>
          obtain ⟨⟨a1, a2, a3⟩, a4, -⟩ := g4
          exact ⟨.pending, ⟨none, vs, is, src'⟩, by simp [VSort.poll, g1],
            ⟨a4, xs', zs, g3, a1, a2, a3, List.Sublist.refl _, rfl⟩, rfl⟩)
    ws (VSort.init script)
    ⟨not_ended_mk' _, [], [], valid_mk' (feed_any.2 hwf), rfl,
      ⟨by simp [VSort.init], List.Pairwise.nil⟩, rfl, List.Sublist.refl _, rfl⟩
  have hgood : Good s zs := by
    by_cases he : .ready none ∈ outs
    · exact (h5 he).1
    · exact (h3 he).2
  obtain ⟨xs, zs', hv, hxs, hi, ho, hsub, hrep⟩ := hgood
  have hz := out_sortedBy hp hi ho
  subst hz
  rw [hxs] at hrep hsub
  refine ⟨outs, s, xs, zs, h1, hv.now, h2, ?_, hrep, fun h => ?_⟩
  · refine List.Pairwise.sublist hsub ?_
    have := List.pairwise_mergeSort (le := fun a b => cmp a b != .gt)
      (fun a b c h1 h2 => by simpa using hp.trans a b c (by simpa using h1) (by simpa using h2))
      (fun a b => by rw [hp.swap a b]; cases cmp a b <;> simp [Ordering.swap]) xs
    exact this.imp fun h => by simpa using h
  · have hpn : s.pending = none := by
      rcases h with h | h
      · exact (h4 h).2
      · exact (h5 h).2
    rw [hpn] at hrep
    simpa [replay] using hrep

/-! ## Non-vacuity: an implementation that keeps the promises -/

/-- Insertion into a sorted list. -/
def insOrd (cmp : Nat → Nat → Ordering) (a : Nat) : List Nat → List Nat
  | [] => [a]
  | b :: l => if cmp a b = .gt then b :: insOrd cmp a l else a :: b :: l

/-- Insertion sort. -/
def insSort (cmp : Nat → Nat → Ordering) : List Nat → List Nat
  | [] => []
  | a :: l => insOrd cmp a (insSort cmp l)

/-- Linear search. -/
def linSearch (f : Nat → Ordering) : List Nat → Nat → Except Nat Nat
  | [], n => .error n
  | a :: l, n =>
    match f a with
    | .lt => linSearch f l (n + 1)
    | .eq => .ok n
    | .gt => .error n

/-- An implementation of the library functions. -/
def demoFns : SliceFns := ⟨insSort, fun f l => linSearch f l 0⟩

theorem insOrd_perm (cmp : Nat → Nat → Ordering) (a : Nat) (l : List Nat) :
    (insOrd cmp a l).Perm (a :: l) := by
  induction l with
  | nil => exact .refl _
  | cons b l ih =>
    simp only [insOrd]
    split
    · exact (ih.cons b).trans (.swap _ _ _)
    · exact .refl _

theorem insSort_perm (cmp : Nat → Nat → Ordering) (l : List Nat) : (insSort cmp l).Perm l := by
  induction l with
  | nil => exact .refl _
  | cons a l ih => exact (insOrd_perm cmp a _).trans (ih.cons a)

theorem insOrd_sorted {cmp : Nat → Nat → Ordering} {a : Nat} {l : List Nat}
    (hsw : ∀ b ∈ l, cmp b a = (cmp a b).swap)
    (htr : ∀ b ∈ l, ∀ c ∈ l, cmp a b ≠ .gt → cmp b c ≠ .gt → cmp a c ≠ .gt)
    (h : l.Pairwise (fun a b => cmp a b ≠ .gt)) :
    (insOrd cmp a l).Pairwise (fun a b => cmp a b ≠ .gt) := by
  induction l with
  | nil => simp [insOrd]
  | cons b l ih =>
    simp only [insOrd]
    rw [List.pairwise_cons] at h
    split
    · rename_i hg
      refine List.pairwise_cons.2 ⟨fun c hc => ?_, ih (fun c hc => hsw c (by simp [hc]))
        (fun c hc d hd => htr c (by simp [hc]) d (by simp [hd])) h.2⟩
      rcases List.mem_cons.1 ((insOrd_perm cmp a l).mem_iff.1 hc) with rfl | hc
      · rw [hsw b (by simp), hg]; simp [Ordering.swap]
      · exact h.1 c hc
    · rename_i hg
      refine List.pairwise_cons.2 ⟨fun c hc => ?_, List.pairwise_cons.2 h⟩
      rcases List.mem_cons.1 hc with rfl | hc'
      · exact hg
      · exact htr b (by simp) c (by simp [hc']) hg (h.1 c hc')

theorem insSort_sorted {cmp : Nat → Nat → Ordering} {l : List Nat}
    (hsw : ∀ a ∈ l, ∀ b ∈ l, cmp b a = (cmp a b).swap)
    (htr : ∀ a ∈ l, ∀ b ∈ l, ∀ c ∈ l, cmp a b ≠ .gt → cmp b c ≠ .gt → cmp a c ≠ .gt) :
    (insSort cmp l).Pairwise (fun a b => cmp a b ≠ .gt) := by
  induction l with
  | nil => exact List.Pairwise.nil
  | cons a l ih =>
    have hm : ∀ b, b ∈ insSort cmp l → b ∈ a :: l := fun b hb =>
      List.mem_cons_of_mem a ((insSort_perm cmp l).mem_iff.1 hb)
    refine insOrd_sorted (fun b hb => hsw a (by simp) b (hm b hb))
      (fun b hb c hc => htr a (by simp) b (hm b hb) c (hm c hc))
      (ih (fun b hb c hc => hsw b (by simp [hb]) c (by simp [hc]))
        (fun b hb c hc d hd => htr b (by simp [hb]) c (by simp [hc]) d (by simp [hd])))

theorem linSearch_lt {f : Nat → Ordering} {ls : List Nat} (h : ∀ x ∈ ls, f x = .lt) (l : List Nat)
    (n : Nat) : linSearch f (ls ++ l) n = linSearch f l (n + ls.length) := by
  induction ls generalizing n with
  | nil => rfl
  | cons a ls ih =>
    have ha := h a (by simp)
    simp only [List.cons_append, linSearch, ha, ih (fun x hx => h x (by simp [hx])), List.length_cons]
    congr 1
    omega

theorem demoFns_lawful : demoFns.Lawful where
  sort_perm := fun cmp l _ _ => insSort_perm cmp l
  sort_sorted := fun cmp l h1 h2 => insSort_sorted h1 h2
  search_found := by
    intro f ls es gs h1 h2 h3 hne
    refine ⟨ls.length, ?_, Nat.le_refl _, by
      have := List.length_pos_iff.2 hne
      omega⟩
    show linSearch f (ls ++ es ++ gs) 0 = _
    rw [List.append_assoc, linSearch_lt h1]
    cases es with
    | nil => exact absurd rfl hne
    | cons e es => simp [linSearch, h2 e (by simp)]
  search_missing := by
    intro f ls gs h1 h2
    show linSearch f (ls ++ gs) 0 = _
    rw [linSearch_lt h1]
    cases gs with
    | nil => simp [linSearch]
    | cons g gs => simp [linSearch, h2 g (by simp)]

/-- Sorting numbers by their last digit, to have equal elements that differ. -/
def byDigit (a b : Nat) : Ordering := compare (a % 10) (b % 10)

theorem byDigit_preorder : TotalPreorder byDigit where
  swap := fun a b => (Nat.compare_swap _ _).symm
  trans := by
    intro a b c
    simp only [byDigit, ne_eq, Nat.compare_eq_gt]
    omega

/-- An input with all kinds of diffs, including an update that moves an element in the sorted
output, one that does not, and a move that changes the order of equal elements. -/
def sortScript : List (Poll (Option (VecDiff Nat))) :=
  [.ready (some (.replace [23, 11, 13, 1])), .ready (some (.insertAt 1 43)), .pending,
   .ready (some (.updateAt 0 20)), .ready (some (.updateAt 2 22)), .ready (some (.push 33)),
   .pending, .ready (some (.move 5 1)), .ready (some (.move 0 1)), .ready (some (.removeAt 3)),
   .ready (some (.push 7)), .ready (some .pop), .ready none]

example : replay (items sortScript) [] = some [33, 20, 43, 13, 1] := by decide
example : (run (VSort.poll demoFns byDigit) (List.replicate 20 0) (VSort.init sortScript)).map
    (fun q => (replay (items q.1) [], q.1.contains (.ready none))) =
      some (some [20, 1, 33, 43, 13], true) := by decide
example : (run (VSort.poll demoFns byDigit) (List.replicate 3 0) (VSort.init sortScript)).map
    (fun q => (replay (items q.1) [], q.1.getLast?)) =
      some (some [11, 1, 23, 43, 13], some .pending) := by decide
example : (run (VSort.poll demoFns byDigit) (List.replicate 4 0) (VSort.init sortScript)).map
    (fun q => (replay (items q.1) [], q.2.pending)) =
      some (some [11, 1, 43, 13], some (.insertAt 0 20)) := by decide

/-- **C57, C58, C59 for `sort_by_cloned`**: for all inputs, comparisons and library functions
whatsoever. -/
theorem C57_sort_by_cloned (S : SliceFns) (cmp : α → α → Ordering)
    (script : List (Poll (Option (VecDiff α)))) :
    Polite (VSort.poll S cmp) (·.signal) (VSort.init script) := by
  refine polite_of_step (fun s => ¬ s.signal.ended) (fun s h => fused_of_not_ended h) ?_ _
    (not_ended_mk' _)
  rintro w ⟨pend, values, indexes, src⟩ r s' hl hp
  cases pend with
  | some d => cases hp; exact hl
  | none =>
    obtain ⟨st, ⟨ix, k'⟩, src', h1, h2, h3, h4⟩ :=
      Src.loop_any w (sortBody S cmp) src (values, indexes) hl
    simp only [VSort.poll, h1] at hp
    cases st with
    | pending => cases hp; exact ⟨by simpa using h3, h4 rfl⟩
    | ended => cases hp; exact ⟨h2, h3.2 rfl⟩
    | ret d => cases hp; simpa using h3
    | panic => cases hp

example : ∃ outs s, run (VSort.poll demoFns byDigit) [5, 6, 7] (VSort.init sortScript) =
    some (outs, s) ∧ outs.getLast? = some .pending ∧ s.signal.hist.getLast? = some (7, .pending) :=
  ⟨_, _, rfl, by decide, by decide⟩

end Verif
