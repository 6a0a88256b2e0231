import Verif.SendsDelay
import Verif.DelayProofs
import Verif.Props.SendsSignal
import Verif.Props.SignalVecMap

/-!
# The changes `delay_remove` sends (C98)
-/

namespace Verif

variable {α : Type}

/-- An element with whether it is leaving. -/
def DState.flag (s : DState α) : α × Bool := (s.tag, s.isRemoving)

theorem stay_nil {l : List (DState α × Bool)} : stay l = [] ↔ (l.map (·.2)).all id = true := by
  induction l with
  | nil => simp [stay]
  | cons x l ih =>
    obtain ⟨s, b⟩ := x
    cases b <;> simp_all [stay]

theorem removeIndex_says (p q : List (DState α)) (s : DState α) (np : List (VecDiff α)) (gone : List (DState α)) :
    DVars.removeIndex ⟨p ++ s :: q, np, gone⟩ p.length =
      some ⟨p ++ q, np ++ [if q = [] then .pop else .removeAt p.length], gone ++ [s]⟩ := by
  unfold DVars.removeIndex
  cases q with
  | nil => simp [vPop]
  | cons t q => simp [vRemove_append]

theorem removeAll_says (p : List (DState α)) (l : List (DState α × Bool)) (np : List (VecDiff α)) (gone : List (DState α)) :
    ∃ dead, DVars.removeAll ⟨p ++ l.map (·.1), np, gone⟩ (indexesOf p.length l).reverse =
        some ⟨p ++ stay l, np ++ departures p.length (l.map (·.2)), gone ++ dead⟩ := by
  induction l generalizing p with
  | nil => exact ⟨[], by simp [indexesOf, DVars.removeAll, stay, departures]⟩
  | cons x l ih =>
    obtain ⟨s, b⟩ := x
    obtain ⟨dead, h1⟩ := ih (p ++ [s])
    simp only [List.append_assoc, List.singleton_append, List.length_append, List.length_singleton] at h1
    cases b with
    | false => exact ⟨dead, by simpa [indexesOf, stay, departures] using h1⟩
    | true =>
      refine ⟨dead ++ [s], ?_⟩
      simp only [indexesOf, List.reverse_cons, List.map_cons]
      rw [removeAll_append, h1]
      simp only [Option.bind_some, DVars.removeAll]
      rw [removeIndex_says]
      have hs : stay ((s, true) :: l) = stay l := by simp [stay]
      rw [hs]
      have : (if stay l = [] then VecDiff.pop else VecDiff.removeAt p.length : VecDiff α) =
          if (l.map (·.2)).all id then .pop else .removeAt p.length := by
        by_cases h : stay l = []
        · rw [if_pos h, if_pos (stay_nil.1 h)]
        · rw [if_neg h, if_neg (fun hh => h (stay_nil.2 hh))]
      simp only [departures, this, List.append_assoc, if_true]

theorem flag_stay (l : List (DState α × Bool)) :
    (stay l).map DState.flag = depart (l.map (·.2)) (l.map fun x => x.1.flag) := by
  induction l with
  | nil => rfl
  | cons x l ih =>
    obtain ⟨s, b⟩ := x
    cases b <;> simp_all [stay, depart]

/-- Marks of elements that go do not matter. -/
theorem depart_congr {goes : List Bool} {xs ys : List (α × Bool)} (hl : xs.length = ys.length)
    (h : ∀ i : Nat, goes[i]? = some false → xs[i]? = ys[i]?) : depart goes xs = depart goes ys := by
  induction goes generalizing xs ys with
  | nil => simp [depart]
  | cons b goes ih =>
    match xs, ys with
    | [], [] => rfl
    | [], _ :: _ => cases hl
    | _ :: _, [] => cases hl
    | x :: xs, y :: ys =>
      have ih := ih (xs := xs) (ys := ys) (by simpa using hl) (fun i hi => by simpa using h (i + 1) (by simpa using hi))
      cases b with
      | true => simpa [depart] using ih
      | false =>
        have : x = y := by simpa using h 0 rfl
        simpa [depart, this] using ih

theorem findLive_place (fs : List (DState α)) (i : Nat) :
    (findLive fs i).getD fs.length = place (fs.map DState.flag) i := by
  induction fs generalizing i with
  | nil => rfl
  | cons s fs ih =>
    obtain ⟨t, f, b⟩ := s
    cases b with
    | true =>
      have := ih i
      simp only [findLive, if_true, List.map_cons, DState.flag, place, List.length_cons]
      cases hf : findLive fs i with
      | none => rw [hf] at this; simpa [DState.flag] using this
      | some k => rw [hf] at this; simpa [DState.flag] using this
    | false =>
      cases i with
      | zero => rfl
      | succ i =>
        have := ih i
        simp only [findLive, List.map_cons, DState.flag, place, List.length_cons]
        cases hf : findLive fs i with
        | none => rw [hf] at this; simpa [DState.flag, hf] using this
        | some k => rw [hf] at this; simpa [DState.flag, hf] using this

theorem findLive_some {fs : List (DState α)} {i k : Nat} (h : findLive fs i = some k) :
    place (fs.map DState.flag) i = k := by rw [← findLive_place, h]; rfl

theorem findLive_not {fs : List (DState α)} {i k : Nat} (h : findLive fs i = some k) :
    ∃ s, fs[k]? = some s ∧ s.isRemoving = false := by
  induction fs generalizing i k with
  | nil => cases h
  | cons s fs ih =>
    simp only [findLive] at h
    split at h
    · obtain ⟨k', h1, rfl⟩ := Option.map_eq_some_iff.1 h
      simpa using ih h1
    · split at h
      · cases h; exact ⟨s, rfl, by simp_all⟩
      · obtain ⟨k', h1, rfl⟩ := Option.map_eq_some_iff.1 h
        simpa using ih h1

theorem findLastLive_place {fs : List (DState α)} {k : Nat} (h : findLastLive fs = some k) :
    place (fs.map DState.flag) (((fs.map DState.flag).filter (!·.2)).length - 1) = k ∧
      0 < ((fs.map DState.flag).filter (!·.2)).length ∧ ∃ s, fs[k]? = some s ∧ s.isRemoving = false := by
  induction fs generalizing k with
  | nil => cases h
  | cons s fs ih =>
    obtain ⟨t, f, b⟩ := s
    simp only [findLastLive] at h
    cases hl : findLastLive fs with
    | some i =>
      rw [hl] at h
      cases h
      obtain ⟨h1, h2, h3⟩ := ih hl
      cases b with
      | true => exact ⟨by simpa [DState.flag, place] using h1, by simpa [DState.flag] using h2, by simpa using h3⟩
      | false =>
        refine ⟨?_, by simp [DState.flag], by simpa using h3⟩
        obtain ⟨n, hn⟩ : ∃ n, ((fs.map DState.flag).filter (!·.2)).length = n + 1 := ⟨_, (Nat.succ_pred_eq_of_pos h2).symm⟩
        rw [hn] at h1
        rw [List.map_cons]
        simp only [DState.flag, List.filter_cons, Bool.not_false, if_true, List.length_cons]
        rw [hn]
        simpa [place] using h1
    | none =>
      rw [hl] at h
      cases b with
      | true => simp at h
      | false =>
        have : live fs = [] := by
          cases hlf : live fs with
          | nil => rfl
          | cons a as =>
            have := live_last (fs := fs) (p := (live fs).dropLast) (b := (live fs).getLast (by simp [hlf]))
              (List.dropLast_concat_getLast _).symm
            simp [hl] at this
        have h0 : (fs.map DState.flag).filter (!·.2) = [] := by
          rw [List.filter_eq_nil_iff]
          intro x hx hx'
          obtain ⟨s, hs, rfl⟩ := List.mem_map.1 hx
          have : s.tag ∈ live fs := by
            unfold live
            exact List.mem_map.2 ⟨s, List.mem_filter.2 ⟨hs, hx'⟩, rfl⟩
          simp_all
        simp at h
        subst h
        refine ⟨?_, by simp [DState.flag], _, rfl, rfl⟩
        simp [DState.flag, h0, place]

/-! ### Removals -/

theorem departures_false (i n : Nat) (bs : List Bool) :
    (departures i (List.replicate n false ++ bs) : List (VecDiff α)) = departures (i + n) bs := by
  induction n generalizing i with
  | zero => rfl
  | succ n ih =>
    rw [List.replicate_succ, List.cons_append, departures, ih]
    simp [Nat.add_assoc, Nat.add_comm 1 n]

theorem departures_none (i n : Nat) : (departures i (List.replicate n false) : List (VecDiff α)) = [] := by
  have := departures_false (α := α) i n []
  rwa [List.append_nil] at this

theorem depart_none (xs : List (α × Bool)) : depart (List.replicate xs.length false) xs = xs := by
  induction xs with
  | nil => rfl
  | cons x xs ih => simpa [depart, List.replicate_succ] using ih

theorem depart_one (p q : List (α × Bool)) (x : α × Bool) :
    depart (List.replicate p.length false ++ true :: List.replicate q.length false) (p ++ x :: q) = p ++ q := by
  induction p with
  | nil => simpa [depart] using depart_none q
  | cons y p ih => simpa [depart, List.replicate_succ] using ih

theorem leaves_append (p q : List (α × Bool)) (x : α × Bool) : leaves (p ++ x :: q) p.length = p ++ (x.1, true) :: q := by
  unfold leaves
  induction p with
  | nil => rfl
  | cons y p ih => simpa using ih

theorem zip_false (n : Nat) (bs : List Bool) : ((List.replicate n false).zip bs).all (fun p => !p.1 || p.2) = true := by
  induction n generalizing bs with
  | zero => simp
  | succ n ih =>
    cases bs with
    | nil => simp
    | cons b bs => simpa [List.replicate_succ] using ih bs

theorem Leaving.fair_none (c : Option (VecDiff α)) (xs : List (α × Bool)) :
    Leaving.fair ⟨c, List.replicate xs.length false⟩ xs = true := by
  unfold Leaving.fair
  simp only [List.length_replicate, decide_true, Bool.true_and]
  exact zip_false _ _

theorem fair_one (p q : List (α × Bool)) (a : α) :
    ((List.replicate p.length false ++ true :: List.replicate q.length false).zip
      (List.zipWith (fun x y : α × Bool => !x.2 && y.2) (p ++ (a, false) :: q) (p ++ (a, true) :: q))).all
      (fun p => !p.1 || p.2) = true := by
  induction p with
  | nil => simpa using zip_false _ _
  | cons y p ih => simpa [List.replicate_succ] using ih

/-- Nobody goes. -/
theorem Leaving.calm {d : VecDiff α} {xs ys : List (α × Bool)} (h : replay ((d.brings xs (d.marks xs)).map
    (VecDiff.map fun a => (a, false))) (d.marks xs) = some ys) (hl : (d.marks xs).length = xs.length) :
    Leaving.apply ⟨some d, List.replicate xs.length false⟩ xs = some ys ∧
      Leaving.says xs ys ⟨some d, List.replicate xs.length false⟩ = d.brings xs (d.marks xs) := by
  have e : depart (List.replicate xs.length false) (d.marks xs) = d.marks xs := by
    rw [← hl]; exact depart_none _
  refine ⟨?_, ?_⟩
  · unfold Leaving.apply
    rw [if_pos (Leaving.fair_none _ _)]
    simp only [Leaving.marked, e]
    exact h
  · simp only [Leaving.says, departures_none, Leaving.marked, e, List.nil_append]

theorem removeOne_says {w : Waker} {v v' : DVars α} {k : Nat} (d : VecDiff α)
    (hk : ∃ s, v.futures[k]? = some s ∧ s.isRemoving = false)
    (hm : d.marks (v.futures.map DState.flag) = leaves (v.futures.map DState.flag) k)
    (hb : ∀ xs ys, d.brings xs ys = []) (h : v.removeOne w k = some v') :
    ∃ goes, Leaving.apply ⟨some d, goes⟩ (v.futures.map DState.flag) = some (v'.futures.map DState.flag) ∧
      v'.newPending = v.newPending ++ Leaving.says (v.futures.map DState.flag) (v'.futures.map DState.flag) ⟨some d, goes⟩ := by
  obtain ⟨fs, np, gone⟩ := v
  obtain ⟨s, hs, hr⟩ := hk
  dsimp only at hs
  obtain ⟨p, q, rfl, rfl⟩ : ∃ p q, fs = p ++ s :: q ∧ k = p.length := by
    obtain ⟨hlt, hge⟩ := List.getElem?_eq_some_iff.1 hs
    refine ⟨fs.take k, fs.drop (k + 1), ?_, by simp; omega⟩
    rw [← hge, List.getElem_cons_drop, List.take_append_drop]
  obtain ⟨a, f, b⟩ := s
  cases hr
  have hset : ∀ t : DState α, (p ++ ⟨a, f, false⟩ :: q).set p.length t = p ++ t :: q := fun t => by simp
  have hmk : leaves ((p ++ (⟨a, f, false⟩ : DState α) :: q).map DState.flag) p.length =
      p.map DState.flag ++ (a, true) :: q.map DState.flag := by
    have := leaves_append (p.map DState.flag) (q.map DState.flag) (a, false)
    rw [List.length_map] at this
    simpa [DState.flag] using this
  rw [hmk] at hm
  simp only [DVars.removeOne, hs] at h
  cases hp : (f.poll w) with
  | mk r f' =>
    cases r with
    | pending =>
      simp only [DState.shouldRemove, hp, Bool.false_eq_true, if_false, hset] at h
      cases h
      have := Leaving.calm (d := d) (xs := (p ++ (⟨a, f, false⟩ : DState α) :: q).map DState.flag) (by rw [hb]; rfl)
        (by rw [hm]; simp)
      refine ⟨_, this.1.trans ?_, ?_⟩
      · rw [hm]; simp [DState.flag]
      · rw [hb] at this
        simpa [Leaving.says] using this.2
    | ready u =>
      simp only [DState.shouldRemove, hp, Bool.false_eq_true, if_false, hset, removeIndex_says] at h
      cases h
      have hd := depart_one (p.map DState.flag) (q.map DState.flag) (a, true)
      rw [List.length_map, List.length_map] at hd
      have hf := fair_one (p.map DState.flag) (q.map DState.flag) a
      rw [List.length_map, List.length_map] at hf
      refine ⟨List.replicate p.length false ++ true :: List.replicate q.length false, ?_, ?_⟩
      · unfold Leaving.apply
        rw [if_pos]
        · simp only [Leaving.marked, hm, hd, hb]
          simp [replay]
        · simp only [Leaving.fair, Leaving.may, hm]
          simp only [List.map_append, List.map_cons, DState.flag]
          simp only [List.length_append, List.length_replicate, List.length_cons, List.length_map, decide_true, Bool.true_and]
          exact hf
      · simp only [Leaving.says, hb, List.append_nil, departures_false, departures, departures_none, List.nil_append, if_true,
          Nat.zero_add]
        cases q with
        | nil => simp
        | cons t q => simp [List.replicate_succ]

/-! ### Everybody is leaving -/

theorem markExisting_says (w : Waker) (fs : List (DState α)) :
    depart ((markExisting w fs).map (·.2)) ((markExisting w fs).map fun x => x.1.flag) =
        depart ((markExisting w fs).map (·.2)) ((fs.map DState.flag).map fun x => (x.1, true)) ∧
      (((markExisting w fs).map (·.2)).zip (List.zipWith (fun x y : α × Bool => !x.2 && y.2) (fs.map DState.flag)
        ((fs.map DState.flag).map fun x => (x.1, true)))).all (fun p => !p.1 || p.2) = true ∧
      (markExisting w fs).length = fs.length := by
  induction fs with
  | nil => exact ⟨rfl, rfl, rfl⟩
  | cons s fs ih =>
    obtain ⟨h1, h2, h3⟩ := ih
    obtain ⟨a, f, b⟩ := s
    cases b with
    | true =>
      have : markExisting w ((⟨a, f, true⟩ : DState α) :: fs) = (⟨a, f, true⟩, false) :: markExisting w fs := by
        simp [markExisting, DState.shouldRemove]
      rw [this]
      exact ⟨by simpa [depart, DState.flag] using h1, by simpa using h2, by simpa using h3⟩
    | false =>
      cases hp : f.poll w with
      | mk r f' =>
        cases r with
        | pending =>
          have : markExisting w ((⟨a, f, false⟩ : DState α) :: fs) = (⟨a, f', true⟩, false) :: markExisting w fs := by
            simp [markExisting, DState.shouldRemove, hp]
          rw [this]
          exact ⟨by simpa [depart, DState.flag] using h1, by simpa using h2, by simpa using h3⟩
        | ready u =>
          have : markExisting w ((⟨a, f, false⟩ : DState α) :: fs) = (⟨a, f', false⟩, true) :: markExisting w fs := by
            simp [markExisting, DState.shouldRemove, hp]
          rw [this]
          exact ⟨by simpa [depart, DState.flag] using h1, by simpa [DState.flag] using h2, by simpa using h3⟩

theorem removeExisting_says {w : Waker} {v v' : DVars α} (d : VecDiff α)
    (hm : ∀ xs, d.marks xs = xs.map fun x => (x.1, true)) (h : v.removeExisting w = some v') :
    ∃ goes, Leaving.fair ⟨some d, goes⟩ (v.futures.map DState.flag) = true ∧
      v'.futures.map DState.flag = depart goes (d.marks (v.futures.map DState.flag)) ∧
      v'.newPending = v.newPending ++ departures 0 goes := by
  obtain ⟨h1, h2, h3⟩ := markExisting_says w v.futures
  obtain ⟨dead, e⟩ := removeAll_says [] (markExisting w v.futures) v.newPending v.gone
  simp only [List.nil_append, List.length_nil] at e
  simp only [DVars.removeExisting] at h
  rw [h] at e
  cases e
  refine ⟨(markExisting w v.futures).map (·.2), ?_, ?_, rfl⟩
  · simp only [Leaving.fair, Leaving.may, hm]
    rw [h2]
    simp [h3]
  · rw [flag_stay, hm, h1]

/-! ### One poll -/

theorem replay_all_pushes (vs xs : List α) : replay (vs.map .push) xs = some (xs ++ vs) := by
  induction vs generalizing xs with
  | nil => simp [replay]
  | cons v vs ih => simp [replay, VecDiff.apply, ih]

theorem flag_new (g : α → List (Poll Unit)) (vs : List α) :
    (vs.map (DState.new g)).map DState.flag = vs.map fun a => (a, false) := by
  simp [DState.flag, DState.new]

theorem delayBody_says {g : α → List (Poll Unit)} {w : Waker} {v v' : DVars α} {d : VecDiff α}
    (h : delayBody g w v d = .cont v') :
    ∃ goes, Leaving.apply ⟨some d, goes⟩ (v.futures.map DState.flag) = some (v'.futures.map DState.flag) ∧
      v'.newPending = v.newPending ++ Leaving.says (v.futures.map DState.flag) (v'.futures.map DState.flag) ⟨some d, goes⟩ := by
  have hgo : ∀ o : Option (DVars α), goOn o = .cont v' → o = some v' := by
    intro o ho
    cases o with
    | none => cases ho
    | some x => cases ho; rfl
  have simple : ∀ (e : VecDiff (DState α)), d.marks (v.futures.map DState.flag) = v.futures.map DState.flag →
      (d.brings (v.futures.map DState.flag) (v.futures.map DState.flag)).map (VecDiff.map fun a => (a, false)) =
        [e.map DState.flag] →
      e.apply v.futures = some v'.futures →
      v'.newPending = v.newPending ++ d.brings (v.futures.map DState.flag) (v.futures.map DState.flag) →
      ∃ goes, Leaving.apply ⟨some d, goes⟩ (v.futures.map DState.flag) = some (v'.futures.map DState.flag) ∧
      v'.newPending = v.newPending ++
        Leaving.says (v.futures.map DState.flag) (v'.futures.map DState.flag) ⟨some d, goes⟩ := by
    intro e h1 h2 h3 h4
    have := Leaving.calm (d := d) (xs := v.futures.map DState.flag) (ys := v'.futures.map DState.flag)
      (by rw [h1, h2]; simp [replay, C06_map_natural, h3]) (by rw [h1])
    rw [h1] at this
    exact ⟨_, this.1, by rw [this.2, h4]⟩
  cases d with
  | replace values =>
    simp only [delayBody] at h
    split at h
    · rename_i h0
      cases h
      have h0 : v.futures = [] := List.eq_nil_of_length_eq_zero h0
      refine ⟨[], ?_, ?_⟩
      · rw [h0]
        simp [Leaving.apply, Leaving.fair, Leaving.marked, VecDiff.brings, VecDiff.marks, depart, replay, VecDiff.apply,
          VecDiff.map, DState.flag, DState.new]
      · rw [h0]
        simp [Leaving.says, departures, VecDiff.brings]
    · rename_i h0
      split at h
      · cases h
      · rename_i v1 h1
        cases h
        obtain ⟨goes, e1, e2, e3⟩ := removeExisting_says (.replace values) (fun _ => rfl) h1
        have hb : ∀ ys, (VecDiff.replace values).brings (v.futures.map DState.flag) ys = values.map .push := by
          intro ys; simp only [VecDiff.brings, List.length_map, h0, if_false]
        refine ⟨goes, ?_, ?_⟩
        · unfold Leaving.apply
          rw [if_pos e1]
          simp only [hb, Leaving.marked, ← e2]
          have : (values.map VecDiff.push).map (VecDiff.map fun a => (a, false)) =
              (values.map fun a => (a, false)).map VecDiff.push := by simp [VecDiff.map, Function.comp_def]
          rw [this, replay_all_pushes, List.map_append, flag_new]
        · simp only [Leaving.says, hb, e3, List.append_assoc]
  | insertAt i a =>
    simp only [delayBody] at h
    split at h
    · cases h
    · rename_i fs hfs
      cases h
      rw [findLive_place] at hfs
      exact simple (.insertAt (place (v.futures.map DState.flag) i) (DState.new g a)) rfl
        (by simp [VecDiff.brings, VecDiff.map, DState.flag, DState.new]) hfs (by simp [VecDiff.brings, findLive_place])
  | push a =>
    cases h
    exact simple (.push (DState.new g a)) rfl (by simp [VecDiff.brings, VecDiff.map, DState.flag, DState.new]) rfl rfl
  | updateAt i a =>
    simp only [delayBody] at h
    split at h
    · cases h
    · rename_i k hk
      split at h
      · cases h
      · rename_i fs hfs
        cases h
        have := findLive_some hk
        exact simple (.updateAt k (DState.new g a)) rfl
          (by simp [VecDiff.brings, VecDiff.map, DState.flag, DState.new, this]) hfs (by simp [VecDiff.brings, this])
  | move i j =>
    simp only [delayBody] at h
    split at h
    · cases h
    · rename_i k hk
      have hi := findLive_some hk
      split at h
      · cases h
      · rename_i s fs hfs
        split at h
        · cases h
        · rename_i fs' hfs'
          cases h
          obtain ⟨p, q, hp, rfl, rfl⟩ := vRemove_eq_some.1 hfs
          have hj : place ((v.futures.map DState.flag).eraseIdx p.length) j = (findLive (p ++ q) j).getD (p ++ q).length := by
            rw [findLive_place, hp]
            congr 1
            simp [List.eraseIdx_append_of_length_le]
          refine simple (.move p.length ((findLive (p ++ q) j).getD (p ++ q).length)) rfl
            (by simp only [VecDiff.brings, hi, hj]; rfl) ?_ (by simp only [VecDiff.brings, hi, hj])
          simp only [VecDiff.apply, hfs]
          exact hfs'
  | removeAt i =>
    simp only [delayBody] at h
    split at h
    · cases h
    · rename_i k hk
      exact removeOne_says _ (findLive_not hk) (by simp only [VecDiff.marks, findLive_some hk]) (fun _ _ => rfl) (hgo _ h)
  | pop =>
    simp only [delayBody] at h
    split at h
    · cases h
    · rename_i k hk
      obtain ⟨e1, -, e2⟩ := findLastLive_place hk
      exact removeOne_says _ e2 (by simp only [VecDiff.marks, e1]) (fun _ _ => rfl) (hgo _ h)
  | clear =>
    obtain ⟨goes, e1, e2, e3⟩ := removeExisting_says .clear (fun _ => rfl) (hgo _ h)
    refine ⟨goes, ?_, ?_⟩
    · unfold Leaving.apply
      rw [if_pos e1]
      simp only [VecDiff.brings, Leaving.marked, ← e2]
      rfl
    · simp only [Leaving.says, VecDiff.brings, List.append_nil, e3]

theorem pollRemoving_says (w : Waker) (fs : List (DState α)) :
    ((pollRemoving w fs).1.map fun x => x.1.flag) = fs.map DState.flag ∧
      (((pollRemoving w fs).1.map (·.2)).zip ((fs.map DState.flag).map (·.2))).all (fun p => !p.1 || p.2) = true := by
  induction fs with
  | nil => exact ⟨rfl, rfl⟩
  | cons s fs ih =>
    obtain ⟨h1, h2⟩ := ih
    obtain ⟨a, f, b⟩ := s
    cases b with
    | false =>
      have : (pollRemoving w ((⟨a, f, false⟩ : DState α) :: fs)).1 = (⟨a, f, false⟩, false) :: (pollRemoving w fs).1 := by
        simp [pollRemoving]
      rw [this]
      exact ⟨by simpa [DState.flag] using h1, by simpa using h2⟩
    | true =>
      cases hp : f.poll w with
      | mk r f' =>
        cases r with
        | pending =>
          have : (pollRemoving w ((⟨a, f, true⟩ : DState α) :: fs)).1 = (⟨a, f', true⟩, false) :: (pollRemoving w fs).1 := by
            simp [pollRemoving, hp]
          rw [this]
          exact ⟨by simpa [DState.flag] using h1, by simpa using h2⟩
        | ready u =>
          have : (pollRemoving w ((⟨a, f, true⟩ : DState α) :: fs)).1 = (⟨a, f', true⟩, true) :: (pollRemoving w fs).1 := by
            simp [pollRemoving, hp]
          rw [this]
          exact ⟨by simpa [DState.flag] using h1, by simpa [DState.flag] using h2⟩

theorem VDelay.finish_says {w : Waker} {done : Bool} {i : Inp (Option (VecDiff α))} {v : DVars α} {r} {s : VDelay α}
    (h : VDelay.finish w done i v = some (r, s)) :
    s.signal = i ∧ ∃ goes, Leaving.apply ⟨none, goes⟩ (v.futures.map DState.flag) = some (s.futures.map DState.flag) ∧
      items [r] ++ s.pending = v.newPending ++
        Leaving.says (v.futures.map DState.flag) (s.futures.map DState.flag) ⟨none, goes⟩ := by
  obtain ⟨h1, h2⟩ := pollRemoving_says w v.futures
  have hlen : (pollRemoving w v.futures).1.length = v.futures.length := by
    have := congrArg List.length h1
    simpa using this
  obtain ⟨dead, e⟩ := removeAll_says [] (pollRemoving w v.futures).1 v.newPending v.gone
  simp only [List.nil_append, List.length_nil] at e
  have hap : Leaving.apply ⟨none, (pollRemoving w v.futures).1.map (·.2)⟩ (v.futures.map DState.flag) =
      some ((stay (pollRemoving w v.futures).1).map DState.flag) := by
    unfold Leaving.apply
    rw [if_pos]
    · simp only [flag_stay, h1]
    · simp only [Leaving.fair, Leaving.may]
      rw [h2]
      simp [hlen]
  unfold VDelay.finish at h
  dsimp only at h
  rw [e] at h
  dsimp only at h
  split at h
  · rename_i d rest hp
    cases h
    refine ⟨rfl, _, hap, ?_⟩
    simp only [Leaving.says, List.append_nil]
    rw [hp]; simp
  · rename_i hp
    split at h
    all_goals
      cases h
      refine ⟨rfl, _, hap, ?_⟩
      simp only [Leaving.says, List.append_nil]
      rw [hp]; simp

/-- **C98**, all changes of `delay_remove`, for every input, every futures and every schedule of polls.  At certain times
it took a change of its input, or found that futures had finished.  For each of these it sent exactly this: one removal for
each element that goes, the last one first, `Pop` if it is the last and `RemoveAt` otherwise; and then the change of the
input with its positions counted among the elements that are not leaving.  Only elements go that the input has removed. -/
theorem C98_delay_remove_exact (g : α → List (Poll Unit)) (script : List (Poll (Option (VecDiff α)))) (ws : List Waker)
    (outs : List (Poll (Option (VecDiff α)))) (s : VDelay α)
    (h : run (VDelay.poll g) ws (VDelay.init script) = some (outs, s)) :
    ∃ trace : List (Leaving α), trace.filterMap (·.change) = s.signal.src.got ∧
      contents Leaving.apply [] trace = some (s.futures.map DState.flag) ∧
      items outs ++ s.pending = sends Leaving.apply Leaving.says [] trace := by
  have := run_trace (fun outs (s : VDelay α) => ∃ trace : List (Leaving α), trace.filterMap (·.change) = s.signal.src.got ∧
      contents Leaving.apply [] trace = some (s.futures.map DState.flag) ∧
      items outs ++ s.pending = sends Leaving.apply Leaving.says [] trace)
    (outs0 := []) (by
      rintro w outs s r s' ⟨tr, t1, t2, t3⟩ h
      unfold VDelay.poll at h
      split at h
      · rename_i diff rest hp
        cases h
        refine ⟨tr, t1, t2, ?_⟩
        rw [hp] at t3
        simpa [items_append] using t3
      · rename_i hp
        rw [hp, List.append_nil] at t3
        have key : ∀ st v i, s.signal.loop w (delayBody g w) ⟨s.futures, [], s.gone⟩ = (st, v, i) → st ≠ .panic →
            ∃ trace : List (Leaving α), trace.filterMap (·.change) = i.src.got ∧
              contents Leaving.apply [] trace = some (v.futures.map DState.flag) ∧
              items outs ++ v.newPending = sends Leaving.apply Leaving.says [] trace := by
          intro st v i hl hs
          refine Inp.loop_trace (fun g (v : DVars α) => ∃ trace : List (Leaving α), trace.filterMap (·.change) = g ∧
              contents Leaving.apply [] trace = some (v.futures.map DState.flag) ∧
              items outs ++ v.newPending = sends Leaving.apply Leaving.says [] trace) ?_ hl hs
            ⟨tr, t1, t2, by simpa using t3⟩
          rintro g v d v' ⟨tr, t1, t2, t3⟩ hb
          obtain ⟨goes, b1, b2⟩ := delayBody_says hb
          refine ⟨tr ++ [⟨some d, goes⟩], by simp [t1], ?_, ?_⟩
          · rw [contents_append t2]; simp [contents, b1]
          · rw [sends_append t2, ← t3, b2]; simp [sends, b1]
        have last : ∀ v i, (∃ trace : List (Leaving α), trace.filterMap (·.change) = i.src.got ∧
              contents Leaving.apply [] trace = some (v.futures.map DState.flag) ∧
              items outs ++ v.newPending = sends Leaving.apply Leaving.says [] trace) → ∀ done,
            VDelay.finish w done i v = some (r, s') →
            ∃ trace : List (Leaving α), trace.filterMap (·.change) = s'.signal.src.got ∧
              contents Leaving.apply [] trace = some (s'.futures.map DState.flag) ∧
              items (outs ++ [r]) ++ s'.pending = sends Leaving.apply Leaving.says [] trace := by
          rintro v i ⟨tr, t1, t2, t3⟩ done hf
          obtain ⟨b0, goes, b1, b2⟩ := VDelay.finish_says hf
          refine ⟨tr ++ [⟨none, goes⟩], by rw [b0]; simp [t1], ?_, ?_⟩
          · rw [contents_append t2]; simp [contents, b1]
          · rw [sends_append t2, ← t3, items_append, List.append_assoc, b2]; simp [sends, b1]
        split at h
        · rename_i v i hl
          exact last v i (key _ _ _ hl (by simp)) _ h
        · rename_i v i hl
          exact last v i (key _ _ _ hl (by simp)) _ h
        · cases h) h ⟨[], by simp [VDelay.init, Inp.mk', Src.mk', Src.got], rfl, rfl⟩
  rw [List.nil_append] at this
  exact this

/-- An insertion and a removal while an element is leaving. -/
example : ∃ s, run (VDelay.poll (fun n : Nat => if n = 1 then [.pending, .pending, .ready ()] else [.ready ()]))
      [0, 0, 0, 0, 0, 0]
      (VDelay.init [.ready (some (.replace [1, 2])), .ready (some (.removeAt 0)), .pending, .ready (some (.insertAt 0 3)),
        .ready (some .pop), .pending]) =
    some ([.ready (some (.replace [1, 2])), .ready (some (.insertAt 1 3)), .ready (some .pop), .ready (some (.removeAt 0)),
      .pending, .pending], s) :=
  ⟨_, rfl⟩

end Verif
