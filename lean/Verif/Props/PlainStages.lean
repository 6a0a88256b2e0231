import Verif.Props.Tidy
import Verif.Props.Sends
import Verif.Props.SendsSignal
import Verif.Props.Checks
import Verif.MutableVecLeak
import Verif.FlowProofs

/-!
# C102: which combinators keep changes in their plain form
-/

namespace Verif

variable {α β ι : Type}

/-- `Plain` depends only on the length. -/
def PlainN : VecDiff α → Nat → Prop
  | .insertAt i _, n => i ≠ n
  | .removeAt i, n => i + 1 ≠ n
  | .move i j, _ => i ≠ j
  | .clear, n => n ≠ 0
  | _, _ => True

theorem plain_iff (d : VecDiff α) (l : List α) : Plain d l ↔ PlainN d l.length := by
  cases d <;> simp [Plain, PlainN]

/-- `PlainFrom` in terms of lengths. -/
def PlainIn : List (VecDiff α) → Nat → Prop
  | [], _ => True
  | d :: ds, n => PlainN d n ∧ PlainIn ds (d.lenAfter n)

/-- The changes are possible for a list of this length. -/
def RoomIn : List (VecDiff α) → Nat → Prop
  | [], _ => True
  | d :: ds, n => d.Room n ∧ RoomIn ds (d.lenAfter n)

/-- The length after all these changes. -/
def lensAfter : List (VecDiff α) → Nat → Nat
  | [], n => n
  | d :: ds, n => lensAfter ds (d.lenAfter n)

theorem plainIn_append {ds es : List (VecDiff α)} {n : Nat} :
    PlainIn (ds ++ es) n ↔ PlainIn ds n ∧ PlainIn es (lensAfter ds n) := by
  induction ds generalizing n with
  | nil => simp [PlainIn, lensAfter]
  | cons d ds ih => simp [PlainIn, lensAfter, ih, and_assoc]

theorem roomIn_append {ds es : List (VecDiff α)} {n : Nat} :
    RoomIn (ds ++ es) n ↔ RoomIn ds n ∧ RoomIn es (lensAfter ds n) := by
  induction ds generalizing n with
  | nil => simp [RoomIn, lensAfter]
  | cons d ds ih => simp [RoomIn, lensAfter, ih, and_assoc]

theorem lensAfter_append (ds es : List (VecDiff α)) (n : Nat) :
    lensAfter (ds ++ es) n = lensAfter es (lensAfter ds n) := by
  induction ds generalizing n with
  | nil => rfl
  | cons d ds ih => simp [lensAfter, ih]

theorem plainFrom_of_in {ds : List (VecDiff α)} {zs : List α} (h : PlainIn ds zs.length) : PlainFrom ds zs := by
  induction ds generalizing zs with
  | nil => exact plainFrom_nil _
  | cons d ds ih =>
    refine plainFrom_cons ((plain_iff d zs).2 h.1) fun ys hy => ih ?_
    rw [(MutVec.apply_room hy).2]
    exact h.2

theorem in_of_plainFrom {ds : List (VecDiff α)} {zs ys : List α} (h : PlainFrom ds zs) (hr : replay ds zs = some ys) :
    PlainIn ds zs.length ∧ RoomIn ds zs.length := by
  induction ds generalizing zs with
  | nil => exact ⟨trivial, trivial⟩
  | cons d ds ih =>
    simp only [replay] at hr
    split at hr
    · rename_i xs hx
      obtain ⟨h1, h2⟩ := ih (fun a e b ys he hy => h (d :: a) e b ys (by rw [he]; rfl) (by simp [replay, hx, hy])) hr
      obtain ⟨h3, h4⟩ := MutVec.apply_room hx
      rw [h4] at h1 h2
      exact ⟨⟨(plain_iff d zs).1 (h [] d ds zs rfl rfl), h1⟩, h3, h2⟩
    · cases hr

theorem plain_map (f : α → β) (d : VecDiff α) (l : List α) : Plain (d.map f) (l.map f) ↔ Plain d l := by
  cases d <;> simp [Plain, VecDiff.map]

theorem plainFrom_map (f : α → β) {ds : List (VecDiff α)} {l : List α} (h : PlainFrom ds l) :
    PlainFrom (ds.map (VecDiff.map f)) (l.map f) := by
  intro a d b ys he hr
  obtain ⟨a', c, rfl, rfl, hc⟩ := List.map_eq_append_iff.1 he
  obtain ⟨d', b', rfl, rfl, rfl⟩ := List.map_eq_cons_iff.1 hc
  obtain ⟨xs, hx, rfl⟩ := replay_lift f hr
  exact (plain_map f d' xs).2 (h a' d' b' xs rfl hx)

theorem plainFrom_of_map (f : α → β) {ds : List (VecDiff α)} {l : List α}
    (h : PlainFrom (ds.map (VecDiff.map f)) (l.map f)) : PlainFrom ds l := by
  intro a d b ys he hr
  subst he
  have := h (a.map (VecDiff.map f)) (d.map f) (b.map (VecDiff.map f)) (ys.map f) (by simp) (replay_map f hr)
  exact (plain_map f d ys).1 this

/-! ## `map`, `enumerate`, `map_signal` -/

/-- **C102**, `map`: if the changes that it takes are plain, so are those that it sends. -/
theorem C102_map (f : α → β) (script : List (Poll (Option (VecDiff α)))) (ws : List Waker) :
    ∃ outs s, run (VMap.poll (logging f)) ws (VMap.init [] script) = some (outs, s) ∧
      (PlainFrom s.signal.got [] → PlainFrom (items outs) []) := by
  obtain ⟨outs, s, h1, h2⟩ := C98_map f script ws
  refine ⟨outs, s, h1, fun h => ?_⟩
  rw [h2]
  exact plainFrom_map f h

/-- **C102**, `enumerate`. -/
theorem C102_enumerate (script : List (Poll (Option (VecDiff α))))
    (hwf : ∃ z, replay (items script) [] = some z) (ws : List Waker) :
    ∃ outs s, run VEnumerate.poll ws (VEnumerate.init script) = some (outs, s) ∧
      (PlainFrom s.signal.got [] → PlainFrom (items outs) []) := by
  obtain ⟨outs, s, h1, h2⟩ := C98_enumerate script hwf ws
  refine ⟨outs, s, h1, fun h => plainFrom_of_map (·.2) ?_⟩
  rw [h2]
  exact h

theorem lensAfter_snoc (ds : List (VecDiff α)) (d : VecDiff α) (n : Nat) :
    lensAfter (ds ++ [d]) n = d.lenAfter (lensAfter ds n) := by simp [lensAfter_append, lensAfter]

theorem plainIn_woven {ds out : List (VecDiff β)} (h : Woven (fun e => ∃ i b, e = .updateAt i b) ds out) {n : Nat}
    (hp : PlainIn ds n) : PlainIn out n ∧ lensAfter out n = lensAfter ds n := by
  induction h with
  | nil => exact ⟨trivial, rfl⟩
  | own d _ ih =>
    rw [plainIn_append] at hp
    obtain ⟨h1, h2⟩ := ih hp.1
    rw [plainIn_append, lensAfter_snoc, lensAfter_snoc, h2]
    exact ⟨⟨h1, hp.2⟩, rfl⟩
  | other he _ ih =>
    obtain ⟨i, b, rfl⟩ := he
    obtain ⟨h1, h2⟩ := ih hp
    rw [plainIn_append, lensAfter_snoc, h2]
    exact ⟨⟨h1, trivial, trivial⟩, rfl⟩

/-- **C102**, `map_signal`. -/
theorem C102_map_signal (g : ι → List (Poll (Option β))) (first : ι → β)
    (hg : ∀ a, (g a).head? = some (.ready (some (first a)))) (script : List (Poll (Option (VecDiff ι)))) (ws : List Waker)
    (outs : List (Poll (Option (VecDiff β)))) (s : VMapSignal ι β)
    (h : run (VMapSignal.poll g) ws (VMapSignal.init script) = some (outs, s))
    (hwf : ∃ z, replay s.signal.src.got [] = some z) (hp : PlainFrom s.signal.src.got []) : PlainFrom (items outs) [] := by
  obtain ⟨z, hz⟩ := hwf
  have h1 := C98_map_signal g first hg script ws outs s h
  have h2 := plainFrom_map first hp
  obtain ⟨h3, -⟩ := in_of_plainFrom h2 (replay_map first hz)
  have h4 := (plainIn_woven h1 h3).1
  rw [plainIn_append] at h4
  exact plainFrom_of_in h4.1

/-! ## `sort_by_cloned` -/

/-- Nothing empty is cleared. -/
def NoIdleClear (ds : List (VecDiff α)) (zs : List α) : Prop :=
  ∀ a b ys, ds = a ++ .clear :: b → replay a zs = some ys → ys ≠ []

theorem plainN_insertion (n p : Nat) (a : α) : PlainN (insertion n p a) n := by
  unfold insertion
  split <;> simp [PlainN, *]

theorem plainN_removal (n p : Nat) : PlainN (removal n p : VecDiff α) n := by
  unfold removal
  split <;> simp [PlainN, *]

theorem lenAfter_insertion (n p m : Nat) (a : α) : (insertion n p a).lenAfter m = m + 1 := by
  unfold insertion
  split <;> rfl

theorem lenAfter_removal (n p m : Nat) : (removal n p : VecDiff α).lenAfter m = m - 1 := by
  unfold removal
  split <;> rfl

theorem sortSays_plain (cmp : α → α → Ordering) {d : VecDiff α} {xs ys : List α} (hd : d.apply xs = some ys)
    (hc : d = .clear → xs ≠ []) :
    PlainIn (sortSays cmp xs ys d) xs.length ∧ lensAfter (sortSays cmp xs ys d) xs.length = ys.length := by
  obtain ⟨hr, hl⟩ := MutVec.apply_room hd
  rw [hl]
  cases d with
  | replace values => exact ⟨⟨trivial, trivial⟩, by simp [sortSays, lensAfter, VecDiff.lenAfter, sortedBy]⟩
  | insertAt i a => exact ⟨⟨plainN_insertion _ _ _, trivial⟩, lenAfter_insertion _ _ _ _⟩
  | push a => exact ⟨⟨plainN_insertion _ _ _, trivial⟩, lenAfter_insertion _ _ _ _⟩
  | removeAt i => exact ⟨⟨plainN_removal _ _, trivial⟩, lenAfter_removal _ _ _⟩
  | pop => exact ⟨⟨plainN_removal _ _, trivial⟩, lenAfter_removal _ _ _⟩
  | clear => exact ⟨⟨by simpa [PlainN] using hc rfl, trivial⟩, rfl⟩
  | move i j =>
    simp only [sortSays]
    split
    · exact ⟨trivial, rfl⟩
    · rename_i h
      exact ⟨⟨h, trivial⟩, rfl⟩
  | updateAt i a =>
    have hr : i < xs.length := hr
    simp only [sortSays]
    split
    · exact ⟨⟨trivial, trivial⟩, rfl⟩
    · refine ⟨⟨plainN_removal _ _, ?_, trivial⟩, ?_⟩
      · rw [lenAfter_removal]
        exact plainN_insertion _ _ _
      · simp only [lensAfter, lenAfter_removal, lenAfter_insertion]
        show xs.length - 1 + 1 = xs.length
        omega

theorem sends_sort_plain (cmp : α → α → Ordering) {ds : List (VecDiff α)} {xs : List α} (hc : NoIdleClear ds xs) :
    PlainIn (sends VecDiff.apply (sortSays cmp) xs ds) xs.length := by
  induction ds generalizing xs with
  | nil => trivial
  | cons d ds ih =>
    simp only [sends]
    split
    · trivial
    · rename_i ys hd
      obtain ⟨h1, h2⟩ := sortSays_plain cmp hd (by rintro rfl; exact hc [] ds xs rfl rfl)
      rw [plainIn_append, h2]
      exact ⟨h1, ih fun a b zs he hz => hc (d :: a) b zs (by rw [he]; rfl) (by simp [replay, hd, hz])⟩

/-- **C102**, `sort_by_cloned`: what it sends is plain whether or not what it takes is plain, if it is not told to clear
what is empty. -/
theorem C102_sort (S : SliceFns) (hS : S.Lawful) (cmp : α → α → Ordering) (hp : TotalPreorder cmp)
    (script : List (Poll (Option (VecDiff α)))) (hwf : ∃ z, replay (items script) [] = some z) (ws : List Waker) :
    ∃ outs s, run (VSort.poll S cmp) ws (VSort.init script) = some (outs, s) ∧
      (NoIdleClear s.signal.got [] → PlainFrom (items outs) []) := by
  obtain ⟨outs, s, h1, h2, -⟩ := C98_sort S hS cmp hp script hwf ws
  refine ⟨outs, s, h1, fun h => ?_⟩
  have h3 := sends_sort_plain cmp h
  rw [← h2, plainIn_append] at h3
  exact plainFrom_of_in h3.1

/-! ## `chain` -/

theorem plainIn_removals (m n : Nat) (hn : n ≠ 0) :
    PlainIn ((List.range m).reverse.map (.removeAt : Nat → VecDiff α)) (m + n) ∧
      lensAfter ((List.range m).reverse.map (.removeAt : Nat → VecDiff α)) (m + n) = n := by
  induction m with
  | zero => exact ⟨trivial, by simp [lensAfter]⟩
  | succ m ih =>
    rw [List.range_succ, List.reverse_append]
    simp only [List.reverse_singleton, List.singleton_append, List.map_cons, PlainIn, lensAfter, VecDiff.lenAfter, PlainN]
    rw [show m + 1 + n - 1 = m + n by omega]
    exact ⟨⟨by omega, ih.1⟩, ih.2⟩

theorem plainIn_inserts (vs : List α) (k n : Nat) (hn : n ≠ 0) :
    PlainIn ((vs.zipIdx k).map fun v => VecDiff.insertAt v.2 v.1) (k + n) ∧
      lensAfter ((vs.zipIdx k).map fun v => VecDiff.insertAt v.2 v.1) (k + n) = k + n + vs.length := by
  induction vs generalizing k with
  | nil => exact ⟨trivial, rfl⟩
  | cons v vs ih =>
    simp only [List.zipIdx_cons, List.map_cons, PlainIn, lensAfter, VecDiff.lenAfter, PlainN, List.length_cons]
    have := ih (k + 1)
    rw [show k + 1 + n = k + n + 1 by omega] at this
    exact ⟨⟨by omega, this.1⟩, by rw [this.2]; omega⟩

theorem plainIn_pops (n k : Nat) :
    PlainIn (List.replicate n (.pop : VecDiff α)) k ∧ lensAfter (List.replicate n (.pop : VecDiff α)) k = k - n := by
  induction n generalizing k with
  | zero => exact ⟨trivial, rfl⟩
  | succ n ih =>
    simp only [List.replicate_succ, PlainIn, lensAfter, VecDiff.lenAfter, PlainN, true_and]
    exact ⟨(ih _).1, by rw [(ih _).2]; omega⟩

theorem plainIn_pushes (vs : List α) (k : Nat) :
    PlainIn (vs.map .push) k ∧ lensAfter (vs.map .push) k = k + vs.length := by
  induction vs generalizing k with
  | nil => exact ⟨trivial, rfl⟩
  | cons v vs ih =>
    simp only [List.map_cons, PlainIn, lensAfter, VecDiff.lenAfter, PlainN, true_and, List.length_cons]
    exact ⟨(ih _).1, by rw [(ih _).2]; omega⟩

theorem leftSays_plain {d : VecDiff α} {m n : Nat} (hp : PlainN d m) (hr : d.Room m) :
    PlainIn (leftSays m n d) (m + n) ∧ lensAfter (leftSays m n d) (m + n) = d.lenAfter m + n := by
  by_cases hn : n = 0
  · subst hn
    cases d <;> simp_all [leftSays, PlainIn, PlainN, lensAfter, VecDiff.lenAfter]
  · cases d with
    | replace values =>
      obtain ⟨h1, h2⟩ := plainIn_removals (α := α) m n hn
      obtain ⟨h3, h4⟩ := plainIn_inserts values 0 n hn
      simp only [Nat.zero_add] at h3 h4
      simp only [leftSays, hn, if_false, plainIn_append, lensAfter_append, h2, h4, VecDiff.lenAfter]
      exact ⟨⟨h1, h3⟩, by omega⟩
    | clear =>
      obtain ⟨h1, h2⟩ := plainIn_removals (α := α) m n hn
      simp only [leftSays, hn, if_false, h2, VecDiff.lenAfter]
      exact ⟨h1, by omega⟩
    | _ =>
      simp only [leftSays, hn, if_false, PlainIn, PlainN, lensAfter, VecDiff.lenAfter, VecDiff.Room] at hp hr ⊢
      grind

theorem rightSays_plain {d : VecDiff α} {m n : Nat} (hp : PlainN d n) (hr : d.Room n) :
    PlainIn (rightSays m n d) (m + n) ∧ lensAfter (rightSays m n d) (m + n) = m + d.lenAfter n := by
  by_cases hm : m = 0
  · subst hm
    cases d <;> simp_all [rightSays, PlainIn, PlainN, lensAfter, VecDiff.lenAfter]
  · cases d with
    | replace values =>
      obtain ⟨h1, h2⟩ := plainIn_pops (α := α) n (m + n)
      obtain ⟨h3, h4⟩ := plainIn_pushes values (m + n - n)
      simp only [rightSays, hm, if_false, plainIn_append, lensAfter_append, h2, h4, VecDiff.lenAfter]
      exact ⟨⟨h1, h3⟩, by omega⟩
    | clear =>
      obtain ⟨h1, h2⟩ := plainIn_pops (α := α) n (m + n)
      simp only [rightSays, hm, if_false, h2, VecDiff.lenAfter]
      exact ⟨h1, by omega⟩
    | _ =>
      simp only [rightSays, PlainIn, PlainN, lensAfter, VecDiff.lenAfter, VecDiff.Room] at hp hr ⊢
      grind

theorem chainSends_plain {ts : List (Taking α)} {m n : Nat}
    (hl : PlainIn (ts.flatMap Taking.lefts) m ∧ RoomIn (ts.flatMap Taking.lefts) m)
    (hr : PlainIn (ts.flatMap Taking.rights) n ∧ RoomIn (ts.flatMap Taking.rights) n) :
    PlainIn (chainSends m n ts) (m + n) := by
  induction ts generalizing m n with
  | nil => trivial
  | cons t ts ih =>
    cases t with
    | left d =>
      simp only [List.flatMap_cons, Taking.lefts, Taking.rights, List.nil_append, List.singleton_append, PlainIn, RoomIn]
        at hl hr
      obtain ⟨h1, h2⟩ := leftSays_plain (n := n) hl.1.1 hl.2.1
      rw [chainSends, plainIn_append, h2]
      exact ⟨h1, ih ⟨hl.1.2, hl.2.2⟩ hr⟩
    | right d =>
      simp only [List.flatMap_cons, Taking.lefts, Taking.rights, List.nil_append, List.singleton_append, PlainIn, RoomIn]
        at hl hr
      obtain ⟨h1, h2⟩ := rightSays_plain (m := m) hr.1.1 hr.2.1
      rw [chainSends, plainIn_append, h2]
      exact ⟨h1, ih hl ⟨hr.1.2, hr.2.2⟩⟩
    | replaces l r =>
      simp only [List.flatMap_cons, Taking.lefts, Taking.rights, List.singleton_append, PlainIn, RoomIn,
        VecDiff.lenAfter] at hl hr
      refine ⟨trivial, ?_⟩
      have := ih ⟨hl.1.2, hl.2.2⟩ ⟨hr.1.2, hr.2.2⟩
      simpa [VecDiff.lenAfter] using this
    | clears =>
      simp only [List.flatMap_cons, Taking.lefts, Taking.rights, List.singleton_append, PlainIn, RoomIn,
        VecDiff.lenAfter, PlainN] at hl hr
      refine ⟨by simp only [PlainN]; omega, ?_⟩
      exact ih ⟨hl.1.2, hl.2.2⟩ ⟨hr.1.2, hr.2.2⟩

/-- **C102**, `chain`: if what it takes from both of its inputs is plain, so is what it sends. -/
theorem C102_chain (l r : List (Poll (Option (VecDiff α)))) (ws : List Waker) (outs : List (Poll (Option (VecDiff α))))
    (s : VChain α) (h : run VChain.poll ws (VChain.init l r) = some (outs, s))
    (hl : ∃ z, replay s.left.src.got [] = some z) (hr : ∃ z, replay s.right.src.got [] = some z)
    (pl : PlainFrom s.left.src.got []) (pr : PlainFrom s.right.src.got []) : PlainFrom (items outs) [] := by
  obtain ⟨zl, hl⟩ := hl
  obtain ⟨zr, hr⟩ := hr
  obtain ⟨ts, h1, h2, h3⟩ := C98_chain l r ws outs s h
  have h4 := in_of_plainFrom pl hl
  have h5 := in_of_plainFrom pr hr
  rw [h1] at h4
  rw [h2] at h5
  have h6 : PlainIn (chainSends 0 0 ts) 0 := chainSends_plain h4 h5
  rw [← h3] at h6
  exact plainFrom_of_in (zs := []) (plainIn_append.1 h6).1

/-! ## Examples, and `filter` -/

/-- Plain changes. -/
def demoPlain : List (Poll (Option (VecDiff Nat))) :=
  [.ready (some (.replace [2, 5])), .ready (some (.push 1)), .ready (some (.insertAt 0 7)), .ready (some (.updateAt 3 9)),
    .ready (some (.move 0 2)), .ready (some .pop), .ready (some (.removeAt 0)), .ready (some .clear), .ready none]

/-- The same changes, some of them not written plainly. -/
def demoUnplain : List (Poll (Option (VecDiff Nat))) :=
  [.ready (some (.push 2)), .ready (some (.push 5)), .ready (some (.insertAt 2 1)), .ready (some (.insertAt 0 7)),
    .ready (some (.updateAt 3 9)), .ready (some (.move 1 1)), .ready (some (.removeAt 3)), .ready (some .clear), .ready none]

theorem demoPlain_plain : PlainFrom (items demoPlain) [] :=
  plainFrom_of_in (by simp [demoPlain, items, PlainIn, PlainN, VecDiff.lenAfter])

example : (run (VMap.poll (logging (· + 1))) (List.replicate 9 0) (VMap.init [] demoPlain)).map
      (fun q => (items q.1, q.2.signal.got == items demoPlain)) =
    some ([.replace [3, 6], .push 2, .insertAt 0 8, .updateAt 3 10, .move 0 2, .pop, .removeAt 0, .clear], true) := by rfl

example : ∃ z, replay (items demoPlain) [] = some z := ⟨[], rfl⟩

example : (run VEnumerate.poll (List.replicate 9 0) (VEnumerate.init demoPlain)).map
    (fun q => q.2.signal.got == items demoPlain) = some true := by rfl

example : (run VChain.poll (List.replicate 20 0) (VChain.init demoPlain
      [.ready (some (.replace [4])), .ready (some (.push 6)), .pending])).map
      (fun q => (items q.1, q.2.left.src.got == items demoPlain, q.2.right.src.got)) =
    some ([.replace [2, 5, 4], .insertAt 2 1, .insertAt 0 7, .updateAt 3 9, .move 0 2, .removeAt 3, .removeAt 0, .removeAt 1,
      .removeAt 0, .push 6], true, [.replace [4], .push 6]) := by rfl

example : (∀ n : Nat, ([.ready (some (n + 1)), .ready (some n)] : List (Poll (Option Nat))).head? = some (.ready (some (n + 1)))) ∧
    (run (VMapSignal.poll fun n => [.ready (some (n + 1)), .ready (some n)]) (List.replicate 20 0) (VMapSignal.init demoPlain)).map
      (fun q => q.2.signal.src.got == items demoPlain) = some true := ⟨fun _ => rfl, by rfl⟩

/-- The changes are not plain, but clear nothing empty; what is sent for them is plain. -/
example : NoIdleClear (items demoUnplain) [] ∧ ¬ PlainFrom (items demoUnplain) [] ∧
    sends VecDiff.apply (sortSays (compare : Nat → Nat → Ordering)) [] (items demoUnplain) =
      [.push 2, .push 5, .insertAt 0 1, .push 7, .removeAt 0, .push 9, .pop, .clear] := by
  refine ⟨?_, fun h => ?_, by decide⟩
  · intro a b ys he hr
    have : ∃ k, a = (items demoUnplain).take k ∧ k = a.length := ⟨a.length, by rw [he]; simp, rfl⟩
    obtain ⟨k, ha, hk⟩ := this
    have hlen := congrArg List.length he
    simp [demoUnplain, items] at hlen
    have hk' : k = 7 := by
      have hg : (items demoUnplain)[k]? = some .clear := by rw [he, hk]; simp
      have : k < 8 := by omega
      revert hg
      clear ha hk he hr hlen
      revert this
      revert k
      decide
    subst hk'
    subst ha
    have : ys = [7, 2, 5] := by
      have h : replay ((items demoUnplain).take 7) [] = some [7, 2, 5] := by rfl
      rw [h] at hr
      exact (Option.some.inj hr).symm
    simp [this]
  · exact h [.push 2, .push 5] (.insertAt 2 1) _ [2, 5] rfl rfl rfl

/-- **C102**, `filter` does not keep changes plain: an element inserted before one that is filtered out comes as `InsertAt`
although it is put at the end, and what is already empty is cleared. -/
theorem C102_not_filter :
    PlainFrom [VecDiff.push 2, .insertAt 0 3, .removeAt 0, .clear] [] ∧
    (run (VFilter.poll (logging fun n : Nat => n % 2 == 1)) (List.replicate 4 0) (VFilterMap.init []
      [.ready (some (.push 2)), .ready (some (.insertAt 0 3)), .ready (some (.removeAt 0)), .ready (some .clear), .pending])).map
      (fun q => items q.1) = some [.insertAt 0 3, .removeAt 0, .clear] ∧
    ¬ PlainFrom [VecDiff.insertAt 0 3, .removeAt 0, .clear] [] ∧
    ¬ Plain (VecDiff.insertAt 0 3) [] ∧ ¬ Plain (VecDiff.removeAt 0) [3] ∧ ¬ Plain (VecDiff.clear : VecDiff Nat) [] :=
  ⟨plainFrom_of_in (by simp [PlainIn, PlainN, VecDiff.lenAfter]), by rfl,
    fun h => h [] (.insertAt 0 3) _ [] rfl rfl rfl, by simp [Plain], by simp [Plain], by simp [Plain]⟩

end Verif
