import Verif.Sends
import Verif.Input
import Verif.Run
import Verif.SignalVec1Proofs
import Verif.Props.SignalVecSort
import Verif.MapProofs

/-!
# The changes a combinator sends (C98): lemmas
-/

namespace Verif

variable {α β δ ε τ σ ρ K V : Type}

/-- The contents after a list of changes. -/
def contents (apply : δ → τ → Option τ) : τ → List δ → Option τ
  | x, [] => some x
  | x, d :: ds =>
    match apply d x with
    | none => none
    | some y => contents apply y ds

/-- Every change of a list is all right when its turn comes. -/
def Fits (apply : δ → τ → Option τ) (ok : δ → τ → Prop) : τ → List δ → Prop
  | _, [] => True
  | x, d :: ds => ok d x ∧ ∃ y, apply d x = some y ∧ Fits apply ok y ds

theorem contents_snoc {apply : δ → τ → Option τ} {x y : τ} {ds : List δ} (h : contents apply x ds = some y) (d : δ) :
    contents apply x (ds ++ [d]) = apply d y := by
  induction ds generalizing x with
  | nil =>
    cases h
    simp only [List.nil_append, contents]
    split <;> simp_all
  | cons e ds ih =>
    simp only [contents, List.cons_append] at h ⊢
    cases he : apply e x with
    | none => rw [he] at h; cases h
    | some z => rw [he] at h; exact ih h

theorem sends_snoc {apply : δ → τ → Option τ} {says : τ → τ → δ → List ε} {x y z : τ} {ds : List δ} {d : δ}
    (h : contents apply x ds = some y) (hd : apply d y = some z) :
    sends apply says x (ds ++ [d]) = sends apply says x ds ++ says y z d := by
  induction ds generalizing x with
  | nil => cases h; simp [sends, hd]
  | cons e ds ih =>
    simp only [contents, List.cons_append, sends] at h ⊢
    cases he : apply e x with
    | none => rw [he] at h; cases h
    | some z => rw [he] at h; simp [ih h]

theorem contents_replay (ds : List (VecDiff α)) (x : List α) : contents VecDiff.apply x ds = replay ds x := by
  induction ds generalizing x with
  | nil => rfl
  | cons d ds ih => simp only [contents, replay]; cases d.apply x <;> simp [ih]

theorem fits_replay {ds : List (VecDiff α)} {x z : List α} (h : replay ds x = some z) :
    Fits VecDiff.apply (fun _ _ => True) x ds := by
  induction ds generalizing x with
  | nil => trivial
  | cons d ds ih =>
    simp only [replay] at h
    cases hd : d.apply x with
    | none => simp [hd] at h
    | some y => rw [hd] at h; exact ⟨trivial, y, hd, ih h⟩

/-- The changes sent so far are those the specification says, and what is to come fits. -/
def Said (apply : δ → τ → Option τ) (ok : δ → τ → Prop) (says : τ → τ → δ → List ε) (J : σ → τ → Prop) (x0 : τ)
    (out : List ε) (s : σ) (got todo : List δ) : Prop :=
  ∃ x, contents apply x0 got = some x ∧ Fits apply ok x todo ∧ J s x ∧ out = sends apply says x0 got

/-- What one round of a loop does when the contents go from `x` to `y`. -/
def RoundSaid (says : τ → τ → δ → List ε) (J : σ → τ → Prop) (put : ρ → List ε) (x y : τ) (d : δ) (r : Ctl σ ρ) : Prop :=
  match r with
  | .cont s' => J s' y ∧ says x y d = []
  | .ret s' r => J s' y ∧ says x y d = put r
  | .panic => False

/-- Each round of a loop does what the specification says. -/
def Round (apply : δ → τ → Option τ) (ok : δ → τ → Prop) (says : τ → τ → δ → List ε) (J : σ → τ → Prop)
    (put : ρ → List ε) (body : σ → δ → Ctl σ ρ) : Prop :=
  ∀ s x d y, J s x → ok d x → apply d x = some y → RoundSaid says J put x y d (body s d)

theorem Src.loop_said {apply : δ → τ → Option τ} {ok : δ → τ → Prop} {says : τ → τ → δ → List ε} {J : σ → τ → Prop}
    {put : ρ → List ε} {body : σ → δ → Ctl σ ρ} (hb : Round apply ok says J put body) {x0 : τ} {out : List ε} (w : Waker)
    (src : Src (Option δ)) (s : σ) (hne : ¬ src.ended)
    (h : Said apply ok says J x0 out s src.got (items src.todo)) :
    ∃ st s' src', src.loop w body s = (st, s', src') ∧
      match st with
      | .panic => False
      | .ret r => Said apply ok says J x0 (out ++ put r) s' src'.got (items src'.todo) ∧ ¬ src'.ended
      | .ended => Said apply ok says J x0 out s' src'.got (items src'.todo)
      | .pending => Said apply ok says J x0 out s' src'.got (items src'.todo) ∧ ¬ src'.ended := by
  obtain ⟨st, s', src', h1, -, h2⟩ := Src.loop_rule (w := w) (body := body)
    (fun s g t => Said apply ok says J x0 out s g t)
    (fun r s g t => Said apply ok says J x0 (out ++ put r) s g t)
    (by
      rintro s g d t ⟨x, c1, ⟨c2, y, c3, c4⟩, c5, c6⟩
      have := hb s x d y c5 c2 c3
      cases e : body s d <;> rw [e] at this <;> simp only [RoundSaid] at this ⊢
      · exact ⟨y, (contents_snoc c1 d).trans c3, c4, this.1, by rw [sends_snoc c1 c3, this.2, c6]; simp⟩
      · exact ⟨y, (contents_snoc c1 d).trans c3, c4, this.1, by rw [sends_snoc c1 c3, this.2, c6]⟩)
    src s hne h
  refine ⟨st, s', src', h1, ?_⟩
  match st with
  | .panic => exact h2
  | .ret r => exact h2
  | .ended => exact h2.1
  | .pending => exact ⟨h2.1, h2.2.1⟩

/-! ## `filter_map` -/

@[simp] theorem keptBefore_append (f : α → Option β) (p q : List α) : keptBefore f (p ++ q) p.length = (p.filterMap f).length := by
  simp [keptBefore]

theorem findIndex_shown (f : α → Option β) {ys : List α} {i : Nat} (h : i ≤ ys.length) :
    findIndex (flags f ys) i = some (keptBefore f ys i) := by
  have := findIndex_flags f (ys.take i) (flags f (ys.drop i))
  rw [← flags_append, List.take_append_drop, List.length_take, Nat.min_eq_left h] at this
  exact this

theorem filterMapBody_move (f : α → Option β) (log : List α) {xs ys : List α} {ix : List Bool} {i j : Nat} {a : α}
    (hi : i ≤ ys.length) (hj : j ≤ ys.length) (h1 : vRemove (flags f xs) i = some ((f a).isSome, ix))
    (h2 : vInsert ix j (f a).isSome = some (flags f ys)) (h3 : xs[i]? = some a) :
    RoundSaid (filterSays f) (fun s xs => s.1 = flags f xs) (fun e => [e]) xs ys (.move i j)
      (filterMapBody (logging f) (flags f xs, log) (.move i j)) := by
  cases h : f a <;> rw [h] at h1 h2 <;> simp only [Option.isSome_none, Option.isSome_some] at h1 h2 <;>
    simp [RoundSaid, filterMapBody, h1, h2, filterSays, h3, h, findIndex_shown f hi, findIndex_shown f hj]

theorem filterMapBody_says (f : α → Option β) :
    Round VecDiff.apply (fun _ _ => True) (filterSays f) (fun s xs => s.1 = flags f xs) (fun e => [e])
      (filterMapBody (logging f)) := by
  rintro ⟨ix, log⟩ xs d ys h - hd
  simp only at h
  subst h
  cases apply_eq_some.1 hd with
  | replace vs l => simp [RoundSaid, filterMapBody, filterMapS_logging, filterSays]
  | insertAt p q a =>
    have hi := fun v => vInsert_append (flags f p) (flags f q) v
    simp only [flags_length] at hi
    cases h : f a with
    | none => simp [RoundSaid, filterMapBody, logging, h, hi, filterSays]
    | some b => simp [RoundSaid, filterMapBody, logging, h, hi, findIndex_flags, filterSays]
  | updateAt p b q a =>
    have hget : (flags f p ++ (f b).isSome :: flags f q)[p.length]? = some (f b).isSome := by
      rw [List.getElem?_append_right (by simp)]; simp
    have hset : ∀ v, (flags f p ++ (f b).isSome :: flags f q).set p.length v =
        flags f p ++ v :: flags f q := by
      intro v
      rw [List.set_append_right _ _ (by simp)]; simp
    cases h : f a <;> cases hb : f b <;> simp only [hb] at hget hset <;>
      simp [RoundSaid, filterMapBody, logging, h, hb, filterSays, findIndex_flags] at hget hset ⊢
  | removeAt p b q =>
    have hrem := vRemove_append (flags f p) (flags f q) (f b).isSome
    simp only [flags_length] at hrem
    cases hb : f b <;> rw [hb] at hrem <;> simp [RoundSaid, filterMapBody, hb, filterSays] at hrem ⊢ <;>
      simp [hrem, findIndex_flags]
  | push l a => cases h : f a <;> simp [RoundSaid, filterMapBody, logging, h, filterSays]
  | pop l a => cases h : f a <;> simp [RoundSaid, filterMapBody, h, filterSays, vPop]
  | clear l => simp [RoundSaid, filterMapBody, filterSays]
  | moveFwd p a m q =>
    have hrem := vRemove_append (flags f p) (flags f (m ++ q)) (f a).isSome
    have hins := vInsert_append (flags f (p ++ m)) (flags f q) (f a).isSome
    simp only [flags_length] at hrem hins
    exact filterMapBody_move (xs := p ++ a :: (m ++ q)) (ys := p ++ m ++ a :: q) (i := p.length)
      (j := p.length + m.length) (a := a) (ix := flags f (p ++ m ++ q)) f log (by simp) (by simp)
      (by simpa using hrem) (by simpa using hins) (by simp)
  | moveBack p m a q =>
    have hrem := vRemove_append (flags f (p ++ m)) (flags f q) (f a).isSome
    have hins := vInsert_append (flags f p) (flags f (m ++ q)) (f a).isSome
    simp only [flags_length] at hrem hins
    exact filterMapBody_move (xs := p ++ m ++ a :: q) (ys := p ++ a :: (m ++ q)) (i := p.length + m.length)
      (j := p.length) (a := a) (ix := flags f (p ++ m ++ q)) f log (by simp; omega) (by simp)
      (by simpa using hrem) (by simpa using hins) (by simp)

/-! ## `sort_by_cloned` -/

theorem rank_of {cmp : α → α → Ordering} (h : TotalPreorder cmp) {values : List α} {ls gs : List Nat} {i : Nat}
    (hi : SInv cmp values (ls ++ i :: gs)) : rank cmp values i = ls.length := by
  have hnodup : (ls ++ i :: gs).Nodup := by
    refine List.Pairwise.imp_of_mem ?_ hi.sorted
    rintro a b ha hb hab rfl
    rw [(sortCmp_eq h ((hi.mem a).1 ha) ((hi.mem a).1 ha)).2 rfl] at hab
    cases hab
  have hperm : (List.range values.length).Perm (ls ++ i :: gs) := by
    rw [List.perm_ext_iff_of_nodup List.nodup_range hnodup]
    intro j
    rw [List.mem_range, hi.mem]
  have hx : i < values.length := (hi.mem i).1 (by simp)
  have hlt : ∀ j ∈ ls ++ i :: gs, j < values.length := fun j hj => (hi.mem j).1 hj
  have key : ∀ j, j < values.length → (comesBefore cmp values i j = true ↔ sortCmp cmp values j i = .lt) := by
    intro j hj
    obtain ⟨a, ha⟩ := get_of_lt hx
    obtain ⟨b, hb⟩ := get_of_lt hj
    rw [sortCmp_of hb ha, then_eq_lt]
    simp [comesBefore, ha, hb]
  have hs := hi.sorted
  rw [List.pairwise_append, List.pairwise_cons] at hs
  rw [rank, (hperm.filter _).length_eq, List.filter_append, List.length_append]
  have e1 : ls.filter (comesBefore cmp values i) = ls := by
    rw [List.filter_eq_self]
    intro j hj
    exact (key j (hlt j (by simp [hj]))).2 (hs.2.2 j hj i (by simp))
  have e2 : (i :: gs).filter (comesBefore cmp values i) = [] := by
    rw [List.filter_eq_nil_iff]
    intro j hj
    rw [key j (hlt j (by simp only [List.mem_append]; exact .inr hj))]
    rcases List.mem_cons.1 hj with rfl | hj
    · rw [(sortCmp_eq h hx hx).2 rfl]; simp
    · rw [sortCmp_swap h hx (hlt j (by simp [hj])), hs.2.1.1 j hj]; simp [Ordering.swap]
  rw [e1, e2]
  simp

theorem sortInsertAt_says (ls gs : List Nat) (index : Nat) (v : α) :
    sortInsertAt (ls ++ gs) ls.length index v =
      some (ls ++ index :: gs, insertion (ls ++ gs).length ls.length v) := by
  unfold sortInsertAt insertion
  cases gs with
  | nil => simp
  | cons g gs => simp [vInsert_append]

theorem sortRemoveAt_says (ls gs : List Nat) (index : Nat) :
    sortRemoveAt (ls ++ index :: gs) ls.length =
      some (ls ++ gs, (removal (ls ++ index :: gs).length ls.length : VecDiff α)) := by
  unfold sortRemoveAt removal
  cases gs with
  | nil => simp [vPop]
  | cons g gs => simp [vRemove_append]

theorem SInv.length {cmp : α → α → Ordering} (h : TotalPreorder cmp) {values : List α} {is : List Nat}
    (hi : SInv cmp values is) : is.length = values.length := by
  have hnodup : is.Nodup := by
    refine List.Pairwise.imp_of_mem ?_ hi.sorted
    rintro a b ha hb hab rfl
    rw [(sortCmp_eq h ((hi.mem a).1 ha) ((hi.mem a).1 ha)).2 rfl] at hab
    cases hab
  have hperm : (List.range values.length).Perm is := by
    rw [List.perm_ext_iff_of_nodup List.nodup_range hnodup]
    intro j
    rw [List.mem_range, hi.mem]
  simpa using hperm.length_eq.symm

/-- What the body of the loop of `sort_by_cloned` puts out. -/
def sortPut (r : VecDiff α × Option (VecDiff α)) : List (VecDiff α) := r.1 :: r.2.toList

/-- What the loop variables of `sort_by_cloned` say. -/
def SortVars (cmp : α → α → Ordering) (s : List α × List Nat) (xs : List α) : Prop := s.1 = xs ∧ SInv cmp s.1 s.2

/-- One round of the loop of `sort_by_cloned`. -/
abbrev SortSaid (cmp : α → α → Ordering) := RoundSaid (sortSays cmp) (SortVars cmp) sortPut

section
variable {cmp : α → α → Ordering} {S : SliceFns}

theorem sortBody_move_says (hS : S.Lawful) (h : TotalPreorder cmp) {p q p' q' : List α}
    {a : α} {is : List Nat} (hi : SInv cmp (p ++ a :: q) is) (hpq : p ++ q = p' ++ q') :
    SortSaid cmp (p ++ a :: q) (p' ++ a :: q') (.move p.length p'.length)
      (sortBody S cmp (p ++ a :: q, is) (.move p.length p'.length)) := by
  obtain ⟨ls, gs, rfl, e2, e3⟩ := searchRemove_spec hS h (index := p.length) hi (by simp)
  have hr := rank_of h hi
  have hdec := e3.dec
  rw [hpq] at hdec
  have hl : ∀ x, (decIndexes x p.length).length = x.length := by simp [decIndexes]
  have hrem : vRemove (decIndexes (ls ++ p.length :: gs) p.length) ls.length =
      some (p.length, decIndexes (ls ++ gs) p.length) := by
    rw [decIndexes_append, ← hl ls, vRemove_append]
    simp [decIndexes]
  obtain ⟨ls', gs', e4, e5, e6⟩ := searchInsert_spec hS h (hdec.inc a) (by simp)
  have hr' := rank_of h e6
  simp only [sortBody, e2, vRemove_append, hrem, hpq, vInsert_append, e5]
  simp only [e4, vInsert_append]
  by_cases heq : ls.length = ls'.length
  · simp only [heq, if_true]
    exact ⟨⟨rfl, e6⟩, by simp [sortSays, hr, hr', heq]⟩
  · simp only [heq, if_false]
    exact ⟨⟨rfl, e6⟩, by simp [sortSays, hr, hr', heq, sortPut]⟩

theorem sortBody_says (hS : S.Lawful) (h : TotalPreorder cmp) {values ys : List α}
    {is : List Nat} {d : VecDiff α} (hi : SInv cmp values is)
    (hd : d.apply values = some ys) : SortSaid cmp values ys d (sortBody S cmp (values, is) d) := by
  have hlen := hi.length h
  cases apply_eq_some.1 hd with
  | replace vs l =>
    have hv := sinv_sort hS h ys
    obtain ⟨zs', g1, g2⟩ := out_replace fun i hi => (hv.mem i).1 hi
    simp only [sortBody, g1]
    have := out_sortedBy h hv g2
    subst this
    exact ⟨⟨rfl, hv⟩, rfl⟩
  | insertAt p q a =>
    obtain ⟨ls, gs, e1, e2, e3⟩ := searchInsert_spec hS h (hi.inc a) (by simp)
    have hr := rank_of h e3
    have hl : (ls ++ gs).length = (p ++ q).length := by rw [← e1, ← hlen]; simp [incIndexes]
    simp only [sortBody, vInsert_append, e2]
    simp only [e1, sortInsertAt_says]
    exact ⟨⟨rfl, e3⟩, by simp only [sortSays, hr, hl, sortPut]; rfl⟩
  | push l a =>
    have hp := SInv.inc (cmp := cmp) (p := values) (q := []) a (by simpa using hi)
    rw [incIndexes_id fun i h' => (hi.mem i).1 h'] at hp
    obtain ⟨ls, gs, rfl, e2, e3⟩ := searchInsert_spec hS h hp (by simp)
    have hr := rank_of h e3
    simp only [sortBody, e2, sortInsertAt_says]
    exact ⟨⟨rfl, e3⟩, by simp only [sortSays, hr, hlen, sortPut]; rfl⟩
  | updateAt p b q a =>
    obtain ⟨ls, gs, rfl, e2, e3⟩ := searchRemove_spec hS h (index := p.length) hi (by simp)
    have hr := rank_of h hi
    have hs := e3.set a
    obtain ⟨ls', gs', e4, e5, e6⟩ := searchInsert_spec hS h hs (by simp)
    have hr' := rank_of h e6
    simp only [sortBody, e2, sortRemoveAt_says, vSet_append, e5]
    by_cases heq : ls.length = ls'.length
    · obtain ⟨rfl, rfl⟩ := List.append_inj e4 heq
      simp only [if_true, vInsert_append]
      exact ⟨⟨rfl, e6⟩, by simp [sortSays, hr, hr', sortPut]⟩
    · simp only [heq, if_false]
      have hl : (ls' ++ gs').length = (p ++ b :: q).length - 1 := by
        rw [← e4, ← hlen]; simp
      rw [e4]
      simp only [sortInsertAt_says]
      exact ⟨⟨rfl, e6⟩, by simp only [sortSays, hr, hr', heq, if_false, hlen, hl, sortPut]; rfl⟩
  | removeAt p b q =>
    obtain ⟨ls, gs, rfl, e2, e3⟩ := searchRemove_spec hS h (index := p.length) hi (by simp)
    have hr := rank_of h hi
    have hl : ∀ x, (decIndexes x p.length).length = x.length := by simp [decIndexes]
    have f1 := sortRemoveAt_says (α := α) (decIndexes ls p.length) (decIndexes gs p.length) p.length
    rw [hl] at f1
    simp only [sortBody, e2, vRemove_append, decIndexes_append, f1]
    refine ⟨⟨rfl, ?_⟩, ?_⟩
    · have := e3.dec
      rw [decIndexes, List.map_append] at this
      exact this
    · have : (decIndexes ls p.length ++ p.length :: decIndexes gs p.length).length = (p ++ b :: q).length := by
        rw [← hlen]; simp [hl]
      simp only [sortSays, hr, this, sortPut]; rfl
  | pop l b =>
    obtain ⟨ls, gs, rfl, e2, e3⟩ := searchRemove_spec hS h (index := ys.length) hi (by simp)
    have hr := rank_of h hi
    have hle : ∀ i ∈ ls ++ gs, i ≤ ys.length := fun i hi => by
      have := ((e3.mem i).1 hi).1
      simp at this
      omega
    have e3' := SPart.dec (q := []) e3
    rw [decIndexes_id hle, List.append_nil] at e3'
    have hlen1 : (ys ++ [b]).length - 1 = ys.length := by simp
    have hlen0 : (ys ++ [b]).length ≠ 0 := by simp
    simp only [sortBody, hlen0, if_false, hlen1, e2, vPop_snoc, sortRemoveAt_says]
    exact ⟨⟨rfl, e3'⟩, by simp only [sortSays, hr, hlen, sortPut]; rfl⟩
  | clear l => exact ⟨⟨rfl, by simp, List.Pairwise.nil⟩, rfl⟩
  | moveFwd p a m q =>
    have := sortBody_move_says hS h (p := p) (q := m ++ q) (p' := p ++ m) (q' := q) hi (by simp)
    simpa using this
  | moveBack p m a q =>
    have := sortBody_move_says hS h (p := p ++ m) (q := q) (p' := p) (q' := m ++ q) hi (by simp)
    simpa using this

end

/-! ## `entries_cloned`, `signal_vec_keys` -/

section
variable [LinearOrder K]

/-- The entries after a change. -/
def entriesAfter (d : MapDiff K V) (es : List (K × V)) : Option (List (K × V)) := (entrySays es d).apply es

/-- A change that a map of these entries can be told. -/
def EntryOk (d : MapDiff K V) (es : List (K × V)) : Prop := Sorted d ∧ (d.apply (mapOf es)).isSome

theorem below_split {p q : List (K × V)} {key : K} (h1 : ∀ e ∈ p, e.1 < key) (h2 : ∀ e ∈ q, ¬ e.1 < key) :
    below (p ++ q) key = p.length := by
  rw [below, List.filter_append, List.filter_eq_self.2 (by simpa using h1),
    List.filter_eq_nil_iff.2 (by simpa using h2)]
  simp

theorem entriesChange_says {bs : List K → K → Except Nat Nat} (hbs : SearchOk bs) {es : List (K × V)}
    (hes : Ascending es) {d : MapDiff K V} {m' : K → Option V} (hs : Sorted d) (hm : d.apply (mapOf es) = some m') :
    ∃ es', entriesChange bs (es.map (·.1)) d = some (entrySays es d, es'.map (·.1)) ∧ Ascending es' ∧
      mapOf es' = m' ∧ entriesAfter d es = some es' := by
  obtain ⟨e, es2, h1, h2, h3, h4⟩ := entriesChange_spec hbs hes hs hm
  have key : e = entrySays es d := by
    cases d with
    | replace entries =>
      simp only [entriesChange, Option.some.injEq, Prod.mk.injEq] at h1
      exact h1.1.symm
    | clear =>
      simp only [entriesChange, Option.some.injEq, Prod.mk.injEq] at h1
      exact h1.1.symm
    | insert key value =>
      simp only [MapDiff.apply] at hm
      split at hm <;> cases hm
      rename_i hn
      obtain ⟨p, q, rfl, g2, g3, -⟩ := split_absent hes (by simpa using hn) value
      have hsr := hbs.missing (p.map (·.1)) (q.map (·.1)) key
        (by intro x hx; obtain ⟨e, he, rfl⟩ := List.mem_map.1 hx; exact g2 e he)
        (by intro x hx; obtain ⟨e, he, rfl⟩ := List.mem_map.1 hx; exact g3 e he)
      simp only [entriesChange, List.map_append, hsr] at h1
      split at h1 <;> cases h1
      simp [entrySays, below_split g2 (fun e he => not_lt_of_gt (g3 e he))]
    | update key value =>
      simp only [MapDiff.apply] at hm
      split at hm <;> cases hm
      rename_i hn
      obtain ⟨v, hv⟩ := Option.isSome_iff_exists.1 hn
      obtain ⟨p, q, rfl, g2, g3, -, -⟩ := split_present hes hv
      have hsr := hbs.found (p.map (·.1)) (q.map (·.1)) key
        (by intro x hx; obtain ⟨e, he, rfl⟩ := List.mem_map.1 hx; exact g2 e he)
        (by intro x hx; obtain ⟨e, he, rfl⟩ := List.mem_map.1 hx; exact g3 e he)
      simp only [entriesChange, List.map_append, List.map_cons, hsr, Option.some.injEq, Prod.mk.injEq] at h1
      rw [← h1.1, entrySays, below_split g2 (by simpa using fun a b hab => le_of_lt (g3 (a, b) hab))]
      simp
    | remove key =>
      simp only [MapDiff.apply] at hm
      split at hm <;> cases hm
      rename_i hn
      obtain ⟨v, hv⟩ := Option.isSome_iff_exists.1 hn
      obtain ⟨p, q, rfl, g2, g3, -, -⟩ := split_present hes hv
      have hsr := hbs.found (p.map (·.1)) (q.map (·.1)) key
        (by intro x hx; obtain ⟨e, he, rfl⟩ := List.mem_map.1 hx; exact g2 e he)
        (by intro x hx; obtain ⟨e, he, rfl⟩ := List.mem_map.1 hx; exact g3 e he)
      simp only [entriesChange, List.map_append, List.map_cons, hsr] at h1
      split at h1 <;> cases h1
      rw [entrySays, below_split g2 (by simpa using fun a b hab => le_of_lt (g3 (a, b) hab))]
      simp
  subst key
  exact ⟨es2, h1, h2, h3, h4⟩

theorem entry_ok {bs : List K → K → Except Nat Nat} (hbs : SearchOk bs) {es es' : List (K × V)}
    (hes : Ascending es) {d : MapDiff K V} (ho : EntryOk d es) (hd : entriesAfter d es = some es') :
    entriesChange bs (es.map (·.1)) d = some (entrySays es d, es'.map (·.1)) ∧ Ascending es' := by
  obtain ⟨hs, ho⟩ := ho
  obtain ⟨m', hm⟩ := Option.isSome_iff_exists.1 ho
  obtain ⟨es2, h1, h2, -, h4⟩ := entriesChange_says hbs hes hs hm
  rw [hd] at h4
  cases h4
  exact ⟨h1, h2⟩

theorem fits_entries {bs : List K → K → Except Nat Nat} (hbs : SearchOk bs) {es : List (K × V)} (hes : Ascending es)
    {ds : List (MapDiff K V)} (h : MFeed Sorted ds (mapOf es)) : Fits entriesAfter EntryOk es ds := by
  induction ds generalizing es with
  | nil => trivial
  | cons d ds ih =>
    obtain ⟨hs, m', hm, hr⟩ := h
    obtain ⟨es', -, h2, rfl, h4⟩ := entriesChange_says hbs hes hs hm
    exact ⟨⟨hs, by rw [hm]; rfl⟩, es', h4, ih h2 hr⟩

/-- `MEntries.poll` as a loop that returns at once. -/
def entriesBody (bs : List K → K → Except Nat Nat) (keys : List K) (d : MapDiff K V) : Ctl (List K) (VecDiff (K × V)) :=
  match entriesChange bs keys d with
  | none => .panic
  | some (e, keys) => .ret keys e

theorem entries_poll (bs : List K → K → Except Nat Nat) (w : Waker) (m : MKeys K V) :
    MEntries.poll bs w m = match m.signal.loop w (entriesBody bs) m.keys with
      | (.panic, _, _) => none
      | (.ret d, keys, s) => some (.ready (some d), ⟨s, keys⟩)
      | (.ended, keys, s) => some (.ready none, ⟨s, keys⟩)
      | (.pending, keys, s) => some (.pending, ⟨s, keys⟩) := by
  obtain ⟨⟨todo, hist⟩, keys⟩ := m
  rcases todo with _ | ⟨((_ | d) | _), todo⟩ <;> simp [MEntries.poll, Src.poll, Src.loop, pollLoop]
  simp only [entriesBody]
  cases entriesChange bs keys d <;> rfl

theorem entriesBody_says {bs : List K → K → Except Nat Nat} (hbs : SearchOk bs) :
    Round entriesAfter EntryOk (fun es _ (d : MapDiff K V) => [entrySays es d])
      (fun keys es => keys = es.map (·.1) ∧ Ascending es) (fun e => [e]) (entriesBody bs) := by
  rintro _ es d es' ⟨rfl, ha⟩ ho hd
  obtain ⟨h1, h2⟩ := entry_ok hbs ha ho hd
  simp [RoundSaid, entriesBody, h1, h2]

theorem keysBody_says {bs : List K → K → Except Nat Nat} (hbs : SearchOk bs) :
    Round entriesAfter EntryOk (fun es _ (d : MapDiff K V) => keySays es d)
      (fun keys es => keys = es.map (·.1) ∧ Ascending es) (fun e => [e]) (keysBody bs) := by
  rintro _ es d es' ⟨rfl, ha⟩ ho hd
  obtain ⟨h1, h2⟩ := entry_ok hbs ha ho hd
  cases d with
  | replace entries =>
    simp only [entriesChange, Option.some.injEq, Prod.mk.injEq] at h1
    exact ⟨⟨h1.2, h2⟩, rfl⟩
  | clear =>
    simp only [entriesChange, Option.some.injEq, Prod.mk.injEq] at h1
    exact ⟨⟨h1.2, h2⟩, rfl⟩
  | insert key value =>
    simp only [entriesChange] at h1
    split at h1
    · cases h1
    · rename_i index hb
      split at h1
      · cases h1
      · rename_i keys hv
        simp only [entrySays, Option.some.injEq, Prod.mk.injEq, VecDiff.insertAt.injEq] at h1
        obtain ⟨⟨rfl, -⟩, rfl⟩ := h1
        simp [RoundSaid, keysBody, hb, hv, h2, keySays]
  | update key value =>
    simp only [entriesChange] at h1
    split at h1
    · cases h1
    · simp only [Option.some.injEq, Prod.mk.injEq] at h1
      exact ⟨⟨h1.2, h2⟩, rfl⟩
  | remove key =>
    simp only [entriesChange] at h1
    split at h1
    · cases h1
    · rename_i index hb
      split at h1
      · cases h1
      · rename_i x keys hv
        simp only [entrySays, Option.some.injEq, Prod.mk.injEq, VecDiff.removeAt.injEq] at h1
        obtain ⟨rfl, rfl⟩ := h1
        simp [RoundSaid, keysBody, hb, hv, h2, keySays]

end

/-! ## `chain` -/

theorem removesDesc_eq (n : Nat) : (removesDesc 0 n : List (VecDiff α)) = (List.range n).reverse.map .removeAt := by
  induction n with
  | zero => rfl
  | succ n ih => simp [removesDesc, ih, List.range_succ]

theorem insertsFrom_eq (vs : List α) (off : Nat) :
    insertsFrom off vs = (vs.zipIdx off).map fun v => VecDiff.insertAt v.2 v.1 := by
  induction vs generalizing off with
  | nil => rfl
  | cons a vs ih => simp [insertsFrom, ih]

/-- The numbers of elements after all that is taken. -/
def Taking.lens : Nat × Nat → List (Taking α) → Nat × Nat
  | mn, [] => mn
  | (m, n), .left d :: ts => Taking.lens (d.lenAfter m, n) ts
  | (m, n), .right d :: ts => Taking.lens (m, d.lenAfter n) ts
  | _, .replaces l r :: ts => Taking.lens (l.length, r.length) ts
  | _, .clears :: ts => Taking.lens (0, 0) ts

theorem chainSends_append (m n : Nat) (ts us : List (Taking α)) :
    chainSends m n (ts ++ us) = chainSends m n ts ++
      chainSends (Taking.lens (m, n) ts).1 (Taking.lens (m, n) ts).2 us := by
  induction ts generalizing m n with
  | nil => rfl
  | cons t ts ih => cases t <;> simp [chainSends, Taking.lens, ih]

theorem lens_append (mn : Nat × Nat) (ts us : List (Taking α)) :
    Taking.lens mn (ts ++ us) = Taking.lens (Taking.lens mn ts) us := by
  induction ts generalizing mn with
  | nil => rfl
  | cons t ts ih => obtain ⟨m, n⟩ := mn; cases t <;> simp [Taking.lens, ih]

theorem processRightChange_says {d : VecDiff α} {s s' : VChain α} {o : Option (VecDiff α)}
    (h : s.processRightChange (some (.ready (some d))) = some (o, s')) :
    s'.left = s.left ∧ s'.right = s.right ∧ s'.leftLen = s.leftLen ∧ s'.rightLen = d.lenAfter s.rightLen ∧
    ((o = none ∧ s'.pending = s.pending ++ rightSays s.leftLen s.rightLen d) ∨
      (∃ e, o = some e ∧ s'.pending = s.pending ∧ rightSays s.leftLen s.rightLen d = [e])) := by
  cases d <;> simp only [VChain.processRightChange] at h <;> (repeat' split at h) <;> cases h <;>
    simp_all [rightSays, VecDiff.lenAfter, Nat.add_comm]

/-- What one step of `chain` takes and sends. -/
def Takes (s s' : VChain α) (o : Option (VecDiff α)) : Prop :=
  ∃ ts : List (Taking α), s'.left.src.got = s.left.src.got ++ ts.flatMap Taking.lefts ∧
    s'.right.src.got = s.right.src.got ++ ts.flatMap Taking.rights ∧
    (s'.leftLen, s'.rightLen) = Taking.lens (s.leftLen, s.rightLen) ts ∧
    o.toList ++ s'.pending = chainSends s.leftLen s.rightLen ts

theorem Inp.poll_got {w : Waker} {i i' : Inp (Option α)} {r : Option (Poll (Option α))} (h : i.poll w = (r, i')) :
    i'.src.got = i.src.got ++ items r.toList := by
  have := Src.poll_got w i.src
  simp only [Inp.poll] at h
  split at h
  · split at h <;> cases h <;> simp_all
  · cases h; simp

theorem processRight_takes {w : Waker} {s s' : VChain α} {o : Option (VecDiff α)} (hp : s.pending = [])
    (h : s.processRight w = some (o, s')) : Takes s s' o := by
  unfold VChain.processRight at h
  rcases hr : s.right.poll w with ⟨r, right⟩
  have hg := Inp.poll_got hr
  simp only [hr] at h
  rcases r with _ | ((_ | d) | _)
  · cases h; exact ⟨[], by simp, by simpa using hg, rfl, by simpa [chainSends] using hp⟩
  · cases h; exact ⟨[], by simp, by simpa using hg, rfl, by simpa [chainSends] using hp⟩
  · obtain ⟨h1, h2, h3, h4, h5⟩ := processRightChange_says h
    refine ⟨[.right d], by simp [h1, Taking.lefts], by simp [h2, Taking.rights, hg], by simp [Taking.lens, h3, h4], ?_⟩
    simp only [hp, List.nil_append] at h5
    rcases h5 with ⟨rfl, h5⟩ | ⟨e, rfl, h5, h6⟩ <;> simp [chainSends, *]
  · cases h; exact ⟨[], by simp, by simpa using hg, rfl, by simpa [chainSends] using hp⟩

theorem processBoth_takes {w : Waker} {s s0 s1 s' : VChain α} {d : VecDiff α} {o o' : Option (VecDiff α)}
    {r : Option (Poll (Option (VecDiff α)))} {right : Inp (Option (VecDiff α))}
    (h : s1.processRightChange r = some (o', s')) (hl : s0.left.src.got = s.left.src.got ++ [d])
    (hr : s.right.poll w = (r, right)) (h1 : s1.left = s0.left) (h2 : s1.right = right) (h3 : s1.leftLen = d.lenAfter s.leftLen)
    (h4 : s1.rightLen = s.rightLen) (h5 : o.toList ++ s1.pending = leftSays s.leftLen s.rightLen d) :
    Takes s { s' with pending := s'.pending ++ o'.toList } o := by
  have hg := Inp.poll_got hr
  rcases r with _ | ((_ | e) | _)
  · cases h
    exact ⟨[.left d], by simp [h1, hl, Taking.lefts], by simpa [h2, Taking.rights] using hg,
      by simp [Taking.lens, h3, h4], by simpa [chainSends] using h5⟩
  · cases h
    exact ⟨[.left d], by simp [h1, hl, Taking.lefts], by simpa [h2, Taking.rights] using hg,
      by simp [Taking.lens, h3, h4], by simpa [chainSends] using h5⟩
  · obtain ⟨g1, g2, g3, g4, g5⟩ := processRightChange_says h
    refine ⟨[.left d, .right e], by simp [g1, h1, hl, Taking.lefts], by simp [g2, h2, Taking.rights, hg],
      by simp [Taking.lens, h3, h4, g3, g4], ?_⟩
    rw [h3, h4] at g5
    simp only [chainSends, List.append_nil, ← h5]
    rcases g5 with ⟨rfl, g5⟩ | ⟨f, rfl, g5, g6⟩ <;> simp [g5]
    rw [g6]
  · cases h
    exact ⟨[.left d], by simp [h1, hl, Taking.lefts], by simpa [h2, Taking.rights] using hg,
      by simp [Taking.lens, h3, h4], by simpa [chainSends] using h5⟩

theorem processLeft_takes {w : Waker} {s s' : VChain α} {o : Option (VecDiff α)} (hp : s.pending = [])
    (h : s.processLeft w = some (o, s')) : Takes s s' o := by
  unfold VChain.processLeft at h
  rcases hl : s.left.poll w with ⟨r, left⟩
  have hg := Inp.poll_got hl
  simp only [hl] at h
  rcases r with _ | ((_ | d) | _)
  · cases h; exact ⟨[], by simpa using hg, by simp, rfl, by simpa [chainSends] using hp⟩
  · cases h; exact ⟨[], by simpa using hg, by simp, rfl, by simpa [chainSends] using hp⟩
  · simp only [Option.toList_some, items_some, items_nil] at hg
    cases d with
    | replace values =>
      simp only [VChain.processLeftChange, VChain.processReplace] at h
      rcases hr : s.right.poll w with ⟨r, right⟩
      have hg' := Inp.poll_got hr
      simp only [hr] at h
      split at h
      · cases h
        exact ⟨[.replaces values _], by simpa [Taking.lefts] using hg, by simpa [Taking.rights] using hg', rfl, by simp [chainSends, hp]⟩
      · by_cases h0 : s.rightLen = 0
        · simp only [h0, if_true] at h
          split at h
          · cases h
          · rename_i e s2 h2
            cases h
            have := processBoth_takes (d := .replace values) (o := some (.replace values)) (s0 := { s with left := left }) h2 hg hr rfl rfl rfl h0.symm
              (by simp [leftSays, h0, hp])
            simpa using this
          · rename_i s2 h2
            cases h
            have := processBoth_takes (d := .replace values) (o := some (.replace values)) (s0 := { s with left := left }) h2 hg hr rfl rfl rfl h0.symm
              (by simp [leftSays, h0, hp])
            simpa using this
        · simp only [h0, if_false] at h
          split at h
          · cases h
          · rename_i e s2 h2
            cases h
            have := processBoth_takes (d := .replace values) (o := none) (s0 := { s with left := left }) h2 hg hr rfl rfl rfl rfl
              (by simp [leftSays, h0, hp, removesDesc_eq, insertsFrom_eq])
            simpa using this
          · rename_i s2 h2
            cases h
            have := processBoth_takes (d := .replace values) (o := none) (s0 := { s with left := left }) h2 hg hr rfl rfl rfl rfl
              (by simp [leftSays, h0, hp, removesDesc_eq, insertsFrom_eq])
            simpa using this
    | clear =>
      simp only [VChain.processLeftChange, VChain.processClear] at h
      rcases hr : s.right.poll w with ⟨r, right⟩
      have hg' := Inp.poll_got hr
      simp only [hr] at h
      split at h
      · cases h
        exact ⟨[.clears], by simpa [Taking.lefts] using hg, by simpa [Taking.rights] using hg', rfl, by simp [chainSends, hp]⟩
      · by_cases h0 : s.rightLen = 0
        · simp only [h0, if_true] at h
          split at h
          · cases h
          · rename_i e s2 h2
            cases h
            have := processBoth_takes (d := .clear) (o := some (.clear)) (s0 := { s with left := left }) h2 hg hr rfl rfl rfl h0.symm
              (by simp [leftSays, h0, hp])
            simpa using this
          · rename_i s2 h2
            cases h
            have := processBoth_takes (d := .clear) (o := some (.clear)) (s0 := { s with left := left }) h2 hg hr rfl rfl rfl h0.symm
              (by simp [leftSays, h0, hp])
            simpa using this
        · simp only [h0, if_false] at h
          split at h
          · cases h
          · rename_i e s2 h2
            cases h
            have := processBoth_takes (d := .clear) (o := none) (s0 := { s with left := left }) h2 hg hr rfl rfl rfl rfl
              (by simp [leftSays, h0, hp, removesDesc_eq, insertsFrom_eq])
            simpa using this
          · rename_i s2 h2
            cases h
            have := processBoth_takes (d := .clear) (o := none) (s0 := { s with left := left }) h2 hg hr rfl rfl rfl rfl
              (by simp [leftSays, h0, hp, removesDesc_eq, insertsFrom_eq])
            simpa using this
    | _ =>
      simp only [VChain.processLeftChange] at h
      (repeat' split at h) <;> cases h <;>
        exact ⟨[.left _], by simpa [Taking.lefts] using hg, by simp [Taking.rights], by simp [Taking.lens, VecDiff.lenAfter],
          by simp_all [chainSends, leftSays]⟩
  · cases h; exact ⟨[], by simpa using hg, by simp, rfl, by simpa [chainSends] using hp⟩

end Verif
