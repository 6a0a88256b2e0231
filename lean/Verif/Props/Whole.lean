import Verif.Whole
import Verif.Props.PlainDelay
import Verif.Props.SendsFlatten
import Verif.Props.Pipe

/-!
# C103: a list is sent as a whole only when an input sends one
-/

namespace Verif

variable {α β ι K V δ ε τ : Type}

/-! ## Counting -/

theorem sends_count_le {apply : δ → τ → Option τ} {says : τ → τ → δ → List ε} {P : δ → Bool} {Q : ε → Bool}
    (h : ∀ x y d, apply d x = some y → (says x y d).countP Q ≤ if P d then 1 else 0) (x : τ) (ds : List δ) :
    (sends apply says x ds).countP Q ≤ ds.countP P := by
  induction ds generalizing x with
  | nil => simp [sends]
  | cons d ds ih =>
    simp only [sends]
    split
    · simp
    · rename_i y hy
      rw [List.countP_append, List.countP_cons]
      have := h x y d hy
      have := ih y
      omega

theorem sends_count {apply : δ → τ → Option τ} {says : τ → τ → δ → List ε} {P : δ → Bool} {Q : ε → Bool}
    (h : ∀ x y d, apply d x = some y → (says x y d).countP Q = if P d then 1 else 0) {x z : τ} {ds : List δ}
    (hc : contents apply x ds = some z) : (sends apply says x ds).countP Q = ds.countP P := by
  induction ds generalizing x with
  | nil => simp [sends]
  | cons d ds ih =>
    simp only [sends]
    simp only [contents] at hc
    split at hc
    · cases hc
    · rename_i y hy
      rw [hy]
      simp only
      rw [List.countP_append, List.countP_cons, h x y d hy, ih hc]
      omega

theorem contents_of_replay {ds : List (VecDiff α)} {x z : List α} (h : replay ds x = some z) :
    contents VecDiff.apply x ds = some z := by
  rw [contents_replay, h]

theorem countP_taken {P : δ → Bool} {f : ε → Option δ} (l : List ε) :
    (l.filterMap f).countP P = l.countP (fun e => (f e).any P) := by
  induction l with
  | nil => rfl
  | cons e l ih => cases h : f e <;> simp [h, ih, List.countP_cons]

theorem isReplace_map (f : α → β) (d : VecDiff α) : (d.map f).isReplace = d.isReplace := by cases d <;> rfl

theorem isClear_map (f : α → β) (d : VecDiff α) : (d.map f).isClear = d.isClear := by cases d <;> rfl

theorem replaces_map (f : α → β) (ds : List (VecDiff α)) : replaces (ds.map (VecDiff.map f)) = replaces ds := by
  simp [replaces, List.countP_map, Function.comp_def, isReplace_map]

theorem clearsIn_map (f : α → β) (ds : List (VecDiff α)) : clearsIn (ds.map (VecDiff.map f)) = clearsIn ds := by
  simp [clearsIn, List.countP_map, Function.comp_def, isClear_map]

theorem replaces_append (ds es : List (VecDiff α)) : replaces (ds ++ es) = replaces ds + replaces es := by
  simp [replaces]

theorem clearsIn_append (ds es : List (VecDiff α)) : clearsIn (ds ++ es) = clearsIn ds + clearsIn es := by
  simp [clearsIn]

/-! ## `map`, `enumerate`, `filter_map`, `filter`, `sort_by_cloned` -/

/-- **C103**, `map`: it sends a `Replace` for each `Replace` and a `Clear` for each `Clear`. -/
theorem C103_map (f : α → β) (script : List (Poll (Option (VecDiff α)))) (ws : List Waker) :
    ∃ outs s, run (VMap.poll (logging f)) ws (VMap.init [] script) = some (outs, s) ∧
      replaces (items outs) = replaces s.signal.got ∧ clearsIn (items outs) = clearsIn s.signal.got := by
  obtain ⟨outs, s, h1, h2⟩ := C98_map f script ws
  refine ⟨outs, s, h1, ?_, ?_⟩
  · rw [h2, replaces_map]
  · rw [h2, clearsIn_map]

/-- **C103**, `enumerate`. -/
theorem C103_enumerate (script : List (Poll (Option (VecDiff α))))
    (hwf : ∃ z, replay (items script) [] = some z) (ws : List Waker) :
    ∃ outs s, run VEnumerate.poll ws (VEnumerate.init script) = some (outs, s) ∧
      replaces (items outs) = replaces s.signal.got ∧ clearsIn (items outs) = clearsIn s.signal.got := by
  obtain ⟨outs, s, h1, h2⟩ := C98_enumerate script hwf ws
  refine ⟨outs, s, h1, ?_, ?_⟩
  · rw [← h2, replaces_map]
  · rw [← h2, clearsIn_map]

theorem filterSays_whole (f : α → Option β) (x y : List α) (d : VecDiff α) :
    (filterSays f x y d).countP VecDiff.isReplace = (if d.isReplace then 1 else 0) ∧
      (filterSays f x y d).countP VecDiff.isClear = if d.isClear then 1 else 0 := by
  cases d with
  | replace vs => exact ⟨rfl, rfl⟩
  | clear => exact ⟨rfl, rfl⟩
  | insertAt i a => cases h : f a <;> simp [filterSays, VecDiff.isReplace, VecDiff.isClear, h]
  | push a => cases h : f a <;> simp [filterSays, VecDiff.isReplace, VecDiff.isClear, h]
  | updateAt i a =>
    simp only [filterSays]
    split <;> simp [VecDiff.isReplace, VecDiff.isClear]
  | removeAt i =>
    simp only [filterSays]
    split <;> simp [VecDiff.isReplace, VecDiff.isClear]
  | move i j =>
    simp only [filterSays]
    split <;> simp [VecDiff.isReplace, VecDiff.isClear]
  | pop =>
    simp only [filterSays]
    split <;> simp [VecDiff.isReplace, VecDiff.isClear]

theorem filter_map_all (f : α → Option β) {script : List (Poll (Option (VecDiff α)))} {ws : List Waker}
    {outs : List (Poll (Option (VecDiff β)))} {s : VFilterMap (List α) α}
    (h : run (VFilterMap.poll (logging f)) ws (VFilterMap.init [] script) = some (outs, s)) :
    s.signal.all = items script := by
  refine run_keeps (I := fun s : VFilterMap (List α) α => s.signal.all = items script) ?_ h (Src.all_mk' script)
  intro w s r s' hs hp
  have ha := Src.loop_all w (filterMapBody (logging f)) s.signal (s.indexes, s.st)
  unfold VFilterMap.poll at hp
  split at hp <;> rename_i hl <;> rw [hl] at ha <;> cases hp <;> exact ha.trans hs

/-- **C103**, `filter_map`. -/
theorem C103_filter_map (f : α → Option β) (script : List (Poll (Option (VecDiff α))))
    (hwf : ∃ z, replay (items script) [] = some z) (ws : List Waker) :
    ∃ outs s, run (VFilterMap.poll (logging f)) ws (VFilterMap.init [] script) = some (outs, s) ∧
      replaces (items outs) = replaces s.signal.got ∧ clearsIn (items outs) = clearsIn s.signal.got := by
  obtain ⟨outs, s, h1, h2⟩ := C98_filter_map f script hwf ws
  refine ⟨outs, s, h1, ?_⟩
  obtain ⟨z, hz⟩ := hwf
  rw [← filter_map_all f h1, Src.all] at hz
  obtain ⟨y, hy⟩ := replay_prefix (by rw [hz]; rfl)
  rw [h2]
  exact ⟨sends_count (fun x y d _ => (filterSays_whole f x y d).1) (contents_of_replay hy),
    sends_count (fun x y d _ => (filterSays_whole f x y d).2) (contents_of_replay hy)⟩

/-- **C103**, `filter`. -/
theorem C103_filter (p : α → Bool) (script : List (Poll (Option (VecDiff α))))
    (hwf : ∃ z, replay (items script) [] = some z) (ws : List Waker) :
    ∃ outs s, run (VFilter.poll (logging p)) ws (VFilterMap.init [] script) = some (outs, s) ∧
      replaces (items outs) = replaces s.signal.got ∧ clearsIn (items outs) = clearsIn s.signal.got :=
  C103_filter_map (keep p) script hwf ws

theorem insertion_whole (n p : Nat) (a : α) : (insertion n p a).isReplace = false ∧ (insertion n p a).isClear = false := by
  unfold insertion
  split <;> exact ⟨rfl, rfl⟩

theorem removal_whole (n p : Nat) :
    (removal n p : VecDiff α).isReplace = false ∧ (removal n p : VecDiff α).isClear = false := by
  unfold removal
  split <;> exact ⟨rfl, rfl⟩

theorem sortSays_whole (cmp : α → α → Ordering) (x y : List α) (d : VecDiff α) :
    (sortSays cmp x y d).countP VecDiff.isReplace = (if d.isReplace then 1 else 0) ∧
      (sortSays cmp x y d).countP VecDiff.isClear = if d.isClear then 1 else 0 := by
  have hr : ∀ (d : VecDiff α), d.isReplace = false ∧ d.isClear = false → ([d].countP VecDiff.isReplace = 0 ∧
      [d].countP VecDiff.isClear = 0) := fun d h => by simp [h.1, h.2]
  cases d with
  | replace vs => exact ⟨rfl, rfl⟩
  | clear => exact ⟨rfl, rfl⟩
  | insertAt i a => exact hr _ (insertion_whole _ _ _)
  | push a => exact hr _ (insertion_whole _ _ _)
  | removeAt i => exact hr _ (removal_whole _ _)
  | pop => exact hr _ (removal_whole _ _)
  | move i j =>
    simp only [sortSays]
    split <;> exact ⟨rfl, rfl⟩
  | updateAt i a =>
    simp only [sortSays]
    split
    · exact ⟨rfl, rfl⟩
    · have h1 := hr _ (removal_whole (α := α) x.length (rank cmp x i))
      have h2 := hr _ (insertion_whole (x.length - 1) (rank cmp y i) a)
      rw [← List.singleton_append, List.countP_append, List.countP_append, h1.1, h1.2, h2.1, h2.2]
      exact ⟨rfl, rfl⟩

theorem sort_all (S : SliceFns) (cmp : α → α → Ordering) {script : List (Poll (Option (VecDiff α)))} {ws : List Waker}
    {outs : List (Poll (Option (VecDiff α)))} {s : VSort α}
    (h : run (VSort.poll S cmp) ws (VSort.init script) = some (outs, s)) : s.signal.all = items script := by
  refine run_keeps (I := fun s : VSort α => s.signal.all = items script) ?_ h (Src.all_mk' script)
  intro w s r s' hs hp
  have ha := Src.loop_all w (sortBody S cmp) s.signal (s.values, s.indexes)
  unfold VSort.poll at hp
  split at hp
  · cases hp; exact hs
  · split at hp <;> rename_i hl <;> rw [hl] at ha <;> cases hp <;> exact ha.trans hs

/-- **C103**, `sort_by_cloned`.  An update that moves its element is sent as two changes, the second of which may be
pending. -/
theorem C103_sort (S : SliceFns) (hS : S.Lawful) (cmp : α → α → Ordering) (hp : TotalPreorder cmp)
    (script : List (Poll (Option (VecDiff α)))) (hwf : ∃ z, replay (items script) [] = some z) (ws : List Waker) :
    ∃ outs s, run (VSort.poll S cmp) ws (VSort.init script) = some (outs, s) ∧
      replaces (items outs ++ s.pending.toList) = replaces s.signal.got ∧
      clearsIn (items outs ++ s.pending.toList) = clearsIn s.signal.got := by
  obtain ⟨outs, s, h1, h2, -⟩ := C98_sort S hS cmp hp script hwf ws
  refine ⟨outs, s, h1, ?_⟩
  obtain ⟨z, hz⟩ := hwf
  rw [← sort_all S cmp h1, Src.all] at hz
  obtain ⟨y, hy⟩ := replay_prefix (by rw [hz]; rfl)
  rw [h2]
  exact ⟨sends_count (fun x y d _ => (sortSays_whole cmp x y d).1) (contents_of_replay hy),
    sends_count (fun x y d _ => (sortSays_whole cmp x y d).2) (contents_of_replay hy)⟩

/-! ## `map_signal`, `filter_signal_cloned`, `flatten` -/

theorem woven_count {P : ε → Prop} {Q : ε → Bool} (hP : ∀ e, P e → Q e = false) {ds out : List ε} (h : Woven P ds out) :
    out.countP Q = ds.countP Q := by
  induction h with
  | nil => rfl
  | own d _ ih => simp [ih]
  | other he _ ih => simp [ih, hP _ he]

/-- **C103**, `map_signal`: a new value of a signal never makes it send the list again. -/
theorem C103_map_signal (g : ι → List (Poll (Option β))) (first : ι → β)
    (hg : ∀ a, (g a).head? = some (.ready (some (first a)))) (script : List (Poll (Option (VecDiff ι)))) (ws : List Waker)
    (outs : List (Poll (Option (VecDiff β)))) (s : VMapSignal ι β)
    (h : run (VMapSignal.poll g) ws (VMapSignal.init script) = some (outs, s)) :
    replaces (items outs ++ s.pending) = replaces s.signal.src.got ∧
      clearsIn (items outs ++ s.pending) = clearsIn s.signal.src.got := by
  have h1 := C98_map_signal g first hg script ws outs s h
  rw [← replaces_map first, ← clearsIn_map first]
  exact ⟨woven_count (by rintro e ⟨i, b, rfl⟩; rfl) h1, woven_count (by rintro e ⟨i, b, rfl⟩; rfl) h1⟩

/-- **C103**, `filter_signal_cloned`. -/
theorem C103_filter_signal (g : α → List (Poll (Option Bool))) (first : α → Bool)
    (hg : ∀ a, (g a).head? = some (.ready (some (first a)))) (script : List (Poll (Option (VecDiff α)))) (ws : List Waker)
    (outs : List (Poll (Option (VecDiff α)))) (s : VFilterSignal α)
    (h : run (VFilterSignal.poll g) ws (VFilterSignal.init script) = some (outs, s)) :
    replaces (items outs ++ s.pending) = replaces s.signal.src.got ∧
      clearsIn (items outs ++ s.pending) = clearsIn s.signal.src.got := by
  obtain ⟨tr, t1, t2, t3⟩ := C98_filter_signal g first hg script ws outs s h
  have turned : ∀ (x : List (α × Bool)) i b, (Notices.says first x x (.turned i b)).countP VecDiff.isReplace = 0 ∧
      (Notices.says first x x (.turned i b)).countP VecDiff.isClear = 0 := by
    intro x i b
    simp only [Notices.says]
    split
    · split <;> exact ⟨rfl, rfl⟩
    · split <;> exact ⟨rfl, rfl⟩
    · exact ⟨rfl, rfl⟩
  rw [t3, ← t1]
  unfold replaces clearsIn
  rw [countP_taken, countP_taken]
  refine ⟨sends_count ?_ t2, sends_count ?_ t2⟩
  · intro x y n _
    cases n with
    | took d =>
      exact (filterSays_whole ifShown x y (d.map fun a => (a, first a))).1.trans (by cases d <;> rfl)
    | turned i b => exact (turned x i b).1
  · intro x y n _
    cases n with
    | took d =>
      exact (filterSays_whole ifShown x y (d.map fun a => (a, first a))).2.trans (by cases d <;> rfl)
    | turned i b => exact (turned x i b).2

theorem innerSays_whole (m n : Nat) (d : VecDiff β) :
    (innerSays m n d).countP VecDiff.isReplace = 0 ∧ (innerSays m n d).countP VecDiff.isClear = 0 := by
  cases d <;> simp [innerSays, VecDiff.isReplace, VecDiff.isClear, List.countP_map, List.countP_append,
    List.countP_eq_zero]

/-- **C103**, `flatten`: it sends the list again for each `Replace` of the outer vector, and for nothing that an inner vector
does. -/
theorem C103_flatten (g : ι → List (Poll (Option (VecDiff β)))) (hg : ∀ t, ∃ z, replay (items (g t)) [] = some z)
    (script : List (Poll (Option (VecDiff ι)))) (ws : List Waker) (outs : List (Poll (Option (VecDiff β))))
    (s : VFlatten ι β) (h : run (VFlatten.poll g) ws (VFlatten.init script) = some (outs, s)) :
    replaces (items outs ++ s.pending) = replaces s.signal.src.got ∧
      clearsIn (items outs ++ s.pending) = clearsIn s.signal.src.got := by
  obtain ⟨tr, t1, t2, -, t3⟩ := C98_flatten g hg script ws outs s h
  rw [t3, ← t1]
  unfold replaces clearsIn
  rw [countP_taken, countP_taken]
  refine ⟨sends_count ?_ t2, sends_count ?_ t2⟩
  · intro x y n _
    cases n with
    | outer d => cases d <;> rfl
    | inner k d => exact (innerSays_whole _ _ d).1
  · intro x y n _
    cases n with
    | outer d => cases d <;> rfl
    | inner k d => exact (innerSays_whole _ _ d).2

/-! ## `chain` -/

theorem leftSays_whole (m n : Nat) (d : VecDiff α) :
    (leftSays m n d).countP VecDiff.isReplace = (if d.isReplace && n == 0 then 1 else 0) ∧
      (leftSays m n d).countP VecDiff.isClear = if d.isClear && n == 0 then 1 else 0 := by
  by_cases hn : n = 0 <;> cases d <;>
    simp [leftSays, hn, VecDiff.isReplace, VecDiff.isClear, List.countP_map, List.countP_append, List.countP_eq_zero]

theorem rightSays_whole (m n : Nat) (d : VecDiff α) :
    (rightSays m n d).countP VecDiff.isReplace = (if d.isReplace && m == 0 then 1 else 0) ∧
      (rightSays m n d).countP VecDiff.isClear = if d.isClear && m == 0 then 1 else 0 := by
  by_cases hn : m = 0 <;> cases d <;>
    simp [rightSays, hn, VecDiff.isReplace, VecDiff.isClear, List.countP_map, List.countP_append, List.countP_eq_zero]

theorem chainSends_whole (ts : List (Taking α)) (m n : Nat) :
    replaces (chainSends m n ts) ≤ replaces (ts.flatMap Taking.lefts) + replaces (ts.flatMap Taking.rights) ∧
      clearsIn (chainSends m n ts) ≤ clearsIn (ts.flatMap Taking.lefts) + clearsIn (ts.flatMap Taking.rights) := by
  induction ts generalizing m n with
  | nil => exact ⟨Nat.zero_le _, Nat.zero_le _⟩
  | cons t ts ih =>
    cases t with
    | left d =>
      obtain ⟨h1, h2⟩ := leftSays_whole m n d
      obtain ⟨h3, h4⟩ := ih (d.lenAfter m) n
      have h5 : replaces [d] = if d.isReplace then 1 else 0 := by simp [replaces, List.countP_cons]
      have h6 : clearsIn [d] = if d.isClear then 1 else 0 := by simp [clearsIn, List.countP_cons]
      simp only [chainSends, List.flatMap_cons, Taking.lefts, Taking.rights, List.nil_append, replaces_append,
        clearsIn_append, h5, h6]
      have h7 : replaces (leftSays m n d) = _ := h1
      have h8 : clearsIn (leftSays m n d) = _ := h2
      rw [h7, h8]
      constructor <;> grind
    | right d =>
      obtain ⟨h1, h2⟩ := rightSays_whole m n d
      obtain ⟨h3, h4⟩ := ih m (d.lenAfter n)
      have h5 : replaces [d] = if d.isReplace then 1 else 0 := by simp [replaces, List.countP_cons]
      have h6 : clearsIn [d] = if d.isClear then 1 else 0 := by simp [clearsIn, List.countP_cons]
      simp only [chainSends, List.flatMap_cons, Taking.lefts, Taking.rights, List.nil_append, replaces_append,
        clearsIn_append, h5, h6]
      have h7 : replaces (rightSays m n d) = _ := h1
      have h8 : clearsIn (rightSays m n d) = _ := h2
      rw [h7, h8]
      constructor <;> grind
    | replaces l r =>
      obtain ⟨h3, h4⟩ := ih l.length r.length
      simp only [chainSends, List.flatMap_cons, Taking.lefts, Taking.rights, List.singleton_append]
      simp only [replaces, clearsIn, List.countP_cons, VecDiff.isReplace, VecDiff.isClear] at h3 h4 ⊢
      simp
      omega
    | clears =>
      obtain ⟨h3, h4⟩ := ih 0 0
      simp only [chainSends, List.flatMap_cons, Taking.lefts, Taking.rights, List.singleton_append]
      simp only [replaces, clearsIn, List.countP_cons, VecDiff.isReplace, VecDiff.isClear] at h3 h4 ⊢
      simp
      omega

/-- **C103**, `chain`: no more than its two inputs together. -/
theorem C103_chain (l r : List (Poll (Option (VecDiff α)))) (ws : List Waker) (outs : List (Poll (Option (VecDiff α))))
    (s : VChain α) (h : run VChain.poll ws (VChain.init l r) = some (outs, s)) :
    replaces (items outs) ≤ replaces s.left.src.got + replaces s.right.src.got ∧
      clearsIn (items outs) ≤ clearsIn s.left.src.got + clearsIn s.right.src.got := by
  obtain ⟨ts, h1, h2, h3⟩ := C98_chain l r ws outs s h
  have h4 := chainSends_whole ts 0 0
  rw [← h1, ← h2, ← h3, replaces_append, clearsIn_append] at h4
  omega

/-! ## `delay_remove` -/

/-- Only what is empty is replaced, and nothing is cleared. -/
def Careful : List (VecDiff α) → Nat → Prop
  | [], _ => True
  | d :: ds, n => (d.isReplace = true → n = 0) ∧ d.isClear = false ∧ Careful ds (d.lenAfter n)

theorem careful_append {ds es : List (VecDiff α)} {n : Nat} :
    Careful (ds ++ es) n ↔ Careful ds n ∧ Careful es (lensAfter ds n) := by
  induction ds generalizing n with
  | nil => simp [Careful, lensAfter]
  | cons d ds ih => simp [Careful, lensAfter, ih, and_assoc]

theorem careful_of {ds : List (VecDiff α)} (h : ∀ d ∈ ds, d.isReplace = false ∧ d.isClear = false) (n : Nat) :
    Careful ds n := by
  induction ds generalizing n with
  | nil => trivial
  | cons d ds ih =>
    obtain ⟨h1, h2⟩ := h d (by simp)
    exact ⟨by simp [h1], h2, ih (fun e he => h e (by simp [he])) _⟩

theorem departures_whole (i : Nat) (goes : List Bool) (d : VecDiff α) (hd : d ∈ (departures i goes : List (VecDiff α))) :
    d.isReplace = false ∧ d.isClear = false := by
  induction goes generalizing i with
  | nil => simp [departures] at hd
  | cons b goes ih =>
    simp only [departures, List.mem_append] at hd
    rcases hd with hd | hd
    · exact ih _ hd
    · split at hd
      · split at hd <;> simp at hd <;> subst hd <;> exact ⟨rfl, rfl⟩
      · simp at hd

theorem leaving_careful {n : Leaving α} {xs ys : List (α × Bool)} (h : n.apply xs = some ys) :
    Careful (n.says xs ys) xs.length ∧ lensAfter (n.says xs ys) xs.length = ys.length ∧
      replaces (n.says xs ys) ≤ if n.change.any VecDiff.isReplace then 1 else 0 := by
  obtain ⟨c, goes⟩ := n
  unfold Leaving.apply at h
  split at h
  · rename_i hf
    obtain ⟨hg, -⟩ := fair_goes hf
    simp only at hg
    obtain ⟨-, d2⟩ := departures_plain (α := α) goes 0
    rw [Nat.zero_add, hg] at d2
    have d1 := careful_of (departures_whole (α := α) 0 goes) xs.length
    have d3 : replaces (departures 0 goes : List (VecDiff α)) = 0 := by
      unfold replaces
      rw [List.countP_eq_zero]
      intro d hd
      simp [(departures_whole 0 goes d hd).1]
    cases c with
    | none =>
      cases h
      simp only [Leaving.says, List.append_nil]
      exact ⟨d1, by rw [d2, Nat.zero_add, depart_length _ _ hg], by omega⟩
    | some d =>
      have hg' : goes.length = (d.marks xs).length := by rw [marks_length, hg]
      have h : replay ((d.brings xs (depart goes (d.marks xs))).map (VecDiff.map fun a => (a, false)))
        (depart goes (d.marks xs)) = some ys := h
      show Careful (departures 0 goes ++ d.brings xs (depart goes (d.marks xs))) xs.length ∧
        lensAfter (departures 0 goes ++ d.brings xs (depart goes (d.marks xs))) xs.length = ys.length ∧
        replaces (departures 0 goes ++ d.brings xs (depart goes (d.marks xs))) ≤ if d.isReplace then 1 else 0
      rw [careful_append, lensAfter_append, replaces_append, d2, d3, Nat.zero_add, Nat.zero_add, ← depart_length _ _ hg']
      refine ⟨⟨d1, ?_⟩, by rw [replay_length h, lensAfter_map], ?_⟩
      · cases d with
        | replace vs =>
          simp only [VecDiff.brings]
          split
          · rename_i h0
            refine ⟨fun _ => ?_, rfl, trivial⟩
            rw [depart_length _ _ hg']
            have : goes = [] := by
              rw [← List.length_eq_zero_iff, hg, h0]
            simp [this]
          · refine careful_of (fun e he => ?_) _
            obtain ⟨v, -, rfl⟩ := List.mem_map.1 he
            exact ⟨rfl, rfl⟩
        | _ => simp [VecDiff.brings, Careful, VecDiff.isReplace, VecDiff.isClear]
      · cases d with
        | replace vs =>
          simp only [VecDiff.brings]
          split
          · exact Nat.le_refl _
          · have : replaces (vs.map VecDiff.push) = 0 := by
              simp [replaces, List.countP_map, List.countP_eq_zero, VecDiff.isReplace]
            omega
        | _ => simp [VecDiff.brings, replaces, VecDiff.isReplace]
  · cases h

theorem sends_careful (ts : List (Leaving α)) (xs : List (α × Bool)) :
    Careful (sends Leaving.apply Leaving.says xs ts) xs.length := by
  induction ts generalizing xs with
  | nil => trivial
  | cons t ts ih =>
    simp only [sends]
    split
    · trivial
    · rename_i ys ht
      obtain ⟨h1, h2, -⟩ := leaving_careful ht
      rw [careful_append, h2]
      exact ⟨h1, ih ys⟩

theorem careful_replay {ds a b : List (VecDiff α)} {d : VecDiff α} {xs l : List α} (h : Careful ds xs.length)
    (he : ds = a ++ d :: b) (hr : replay a xs = some l) : d ≠ .clear ∧ ∀ vs, d = .replace vs → l = [] := by
  subst he
  rw [careful_append, ← replay_length hr] at h
  obtain ⟨-, h1, h2, -⟩ := h
  refine ⟨fun e => (by subst e; simp [VecDiff.isClear] at h2), ?_⟩
  rintro vs rfl
  exact List.length_eq_zero_iff.1 (h1 rfl)

/-- **C103**, `delay_remove`: it never sends `Clear`, and `Replace` only if nothing is shown, not even an element that is
leaving, and only for a `Replace`. -/
theorem C103_delay_remove (g : α → List (Poll Unit)) (script : List (Poll (Option (VecDiff α)))) (ws : List Waker)
    (outs : List (Poll (Option (VecDiff α)))) (s : VDelay α)
    (h : run (VDelay.poll g) ws (VDelay.init script) = some (outs, s)) :
    replaces (items outs) ≤ replaces s.signal.src.got ∧
    ∀ a d b l, items outs = a ++ d :: b → replay a [] = some l → d ≠ .clear ∧ ∀ vs, d = .replace vs → l = [] := by
  obtain ⟨tr, t1, -, t3⟩ := C98_delay_remove_exact g script ws outs s h
  constructor
  · refine Nat.le_trans (Nat.le_add_right _ (replaces s.pending)) ?_
    rw [← replaces_append, t3, ← t1]
    unfold replaces
    rw [countP_taken]
    exact sends_count_le (apply := Leaving.apply) (says := Leaving.says) (fun x y n hn => (leaving_careful hn).2.2) _ _
  · intro a d b l he hr
    have h1 := sends_careful tr []
    rw [← t3, careful_append] at h1
    exact careful_replay (xs := []) h1.1 he hr

/-! ## Pipelines -/

/-- The sum over all inputs, an input that occurs twice counted twice. -/
def Pipe.total : {β : Type} → Pipe α β → (Nat → Nat) → Nat
  | _, .source i, c => c i
  | _, .map _ p, c => p.total c
  | _, .filterMap _ p, c => p.total c
  | _, .filter _ p, c => p.total c
  | _, .sort _ _ p, c => p.total c
  | _, .enumerate p, c => p.total c
  | _, .chain p q, c => p.total c + q.total c

/-- **C103**, pipelines: they send no more `Replace` and no more `Clear` than their inputs together; so if no input sends its
list as a whole, neither does the pipeline. -/
theorem C103_pipe (p : Pipe α β) (hl : p.Lawful) (src : Nat → Trace α)
    (hc : ∀ i, p.Uses i → ∃ c, replay (src i).diffs [] = some c)
    (hf : p.Filters → ∀ i, p.Uses i → ∀ d ∈ (src i).diffs, Fwd d) (t : Trace β) (he : p.Exec src t) :
    replaces t.diffs ≤ p.total (fun i => replaces (src i).diffs) ∧
      clearsIn t.diffs ≤ p.total (fun i => clearsIn (src i).diffs) := by
  have wf : ∀ {γ : Type} (q : Pipe α γ), q.Lawful → (q.Filters → p.Filters) → (∀ i, q.Uses i → p.Uses i) →
      ∀ u, q.Exec src u → ∃ z, replay u.diffs [] = some z := by
    intro γ q hl hq hu u he
    obtain ⟨zs, h, -⟩ := C60_pipeline_partial q hl src (fun i => (replay (src i).diffs []).getD [])
      (fun i hi => by
        obtain ⟨c, h⟩ := hc i (hu i hi)
        simp [h]) (fun h i hi => hf (hq h) i (hu i hi)) u he
    exact ⟨zs, h⟩
  have key : ∀ {γ : Type} (q : Pipe α γ), q.Lawful → (q.Filters → p.Filters) → (∀ i, q.Uses i → p.Uses i) →
      ∀ u, q.Exec src u → replaces u.diffs ≤ q.total (fun i => replaces (src i).diffs) ∧
        clearsIn u.diffs ≤ q.total (fun i => clearsIn (src i).diffs) := by
    intro γ q
    induction q with
    | source i =>
      intro _ _ hu u he
      rw [show u = src i from he]
      exact ⟨Nat.le_refl _, Nat.le_refl _⟩
    | map f q ih =>
      rintro hl hq hu t ⟨u, he, s, h1, h2⟩
      obtain ⟨outs, s', g1, g2, g3⟩ := C103_map f u.answers t.wakers
      rw [h1] at g1
      cases g1
      rw [Src.got, h2] at g2 g3
      obtain ⟨i1, i2⟩ := ih hl hq hu u he
      exact ⟨Nat.le_trans (Nat.le_of_eq g2) i1, Nat.le_trans (Nat.le_of_eq g3) i2⟩
    | enumerate q ih =>
      rintro hl hq hu t ⟨u, he, s, h1, h2⟩
      obtain ⟨outs, s', g1, g2, g3⟩ := C103_enumerate u.answers (wf q hl hq hu u he) t.wakers
      rw [h1] at g1
      cases g1
      rw [Src.got, h2] at g2 g3
      obtain ⟨i1, i2⟩ := ih hl hq hu u he
      exact ⟨Nat.le_trans (Nat.le_of_eq g2) i1, Nat.le_trans (Nat.le_of_eq g3) i2⟩
    | sort S cmp q ih =>
      rintro ⟨hS, hcmp, hl⟩ hq hu t ⟨u, he, s, h1, h2⟩
      obtain ⟨outs, s', g1, g2, g3⟩ := C103_sort S hS cmp hcmp u.answers (wf q hl hq hu u he) t.wakers
      rw [h1] at g1
      cases g1
      rw [Src.got, h2, replaces_append] at g2
      rw [Src.got, h2, clearsIn_append] at g3
      obtain ⟨i1, i2⟩ := ih hl hq hu u he
      exact ⟨Nat.le_trans (Nat.le_trans (Nat.le_add_right _ _) (Nat.le_of_eq g2)) i1,
        Nat.le_trans (Nat.le_trans (Nat.le_add_right _ _) (Nat.le_of_eq g3)) i2⟩
    | filterMap f q ih =>
      rintro hl hq hu t ⟨u, he, s, h1, h2⟩
      have hq' : q.Filters → p.Filters := fun _ => hq trivial
      obtain ⟨outs, s', g1, g2, g3⟩ := C103_filter_map f u.answers (wf q hl hq' hu u he) t.wakers
      rw [h1] at g1
      cases g1
      rw [Src.got, h2] at g2 g3
      obtain ⟨i1, i2⟩ := ih hl hq' hu u he
      exact ⟨Nat.le_trans (Nat.le_of_eq g2) i1, Nat.le_trans (Nat.le_of_eq g3) i2⟩
    | filter f q ih =>
      rintro hl hq hu t ⟨u, he, s, h1, h2⟩
      have hq' : q.Filters → p.Filters := fun _ => hq trivial
      obtain ⟨outs, s', g1, g2, g3⟩ := C103_filter f u.answers (wf q hl hq' hu u he) t.wakers
      rw [h1] at g1
      cases g1
      rw [Src.got, h2] at g2 g3
      obtain ⟨i1, i2⟩ := ih hl hq' hu u he
      exact ⟨Nat.le_trans (Nat.le_of_eq g2) i1, Nat.le_trans (Nat.le_of_eq g3) i2⟩
    | chain q r ihq ihr =>
      rintro ⟨hl1, hl2⟩ hq hu t ⟨u, v, he1, he2, s, h1, h2, h3⟩
      have e2 : s.left.src.got = u.diffs := by rw [Src.got, h2]; rfl
      have e3 : s.right.src.got = v.diffs := by rw [Src.got, h3]; rfl
      obtain ⟨g1, g2⟩ := C103_chain u.answers v.answers t.wakers t.answers s h1
      rw [e2, e3] at g1 g2
      obtain ⟨i1, i2⟩ := ihq hl1 (fun h => hq (.inl h)) (fun i hi => hu i (.inl hi)) u he1
      obtain ⟨j1, j2⟩ := ihr hl2 (fun h => hq (.inr h)) (fun i hi => hu i (.inr hi)) v he2
      exact ⟨Nat.le_trans g1 (Nat.add_le_add i1 j1), Nat.le_trans g2 (Nat.add_le_add i2 j2)⟩
  exact key p hl (fun h => h) (fun _ h => h) t he

/-! ## Cases that meet the hypotheses -/

/-- `chain` sends the first list as a whole, the second one element by element. -/
example : (run VChain.poll (List.replicate 5 0) (VChain.init [.ready (some (.replace [1, 2])), .pending]
      [.pending, .ready (some (.replace [3])), .ready (some .clear), .pending])).map (fun q => items q.1) =
    some [.replace [1, 2], .push 3, .pop] := by rfl

/-- `delay_remove` sends the second list element by element, while the first is leaving. -/
example : (run (VDelay.poll (fun n : Nat => if n = 1 then [.pending, .pending, .ready ()] else [.ready ()]))
      (List.replicate 8 0) (VDelay.init [.ready (some (.replace [1, 2])), .pending, .ready (some (.replace [3, 4])),
        .ready (some .clear), .pending])).map (fun q => items q.1) =
    some [.replace [1, 2], .pop, .push 3, .push 4, .pop, .pop, .pop] := by rfl

/-- `flatten` sends the list again for the outer `Replace` only. -/
example : (run (VFlatten.poll fun n : Nat => [.ready (some (.replace [n])), .pending, .ready (some (.replace [n, n]))])
      (List.replicate 8 0) (VFlatten.init [.ready (some (.replace [1, 2])), .pending])).map (fun q => items q.1) =
    some [.replace [1, 2], .removeAt 0, .insertAt 0 1, .insertAt 1 1, .removeAt 2, .insertAt 2 2, .insertAt 3 2] := by rfl

end Verif
