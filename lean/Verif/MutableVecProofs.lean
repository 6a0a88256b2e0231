import Verif.MutableVecSpec
import Verif.Lemmas

/-!
# Helper lemmas for `MutableVec`
-/

namespace Verif.MutVec

variable {α β : Type}

/-! ## Sends -/

/-- Effect of one broadcast on channel number `i`. -/
def hit (ss : List Nat) (d : VecDiff α) (i : Nat) (c : Chan α) : Chan α :=
  if i ∈ ss ∧ c.rxAlive = true then { c with queue := c.queue ++ [d], waker := none } else c

/-- The wakers woken by one broadcast. -/
def wakes (chans : List (Chan α)) (s : Nat) : List Waker :=
  match chans[s]? with
  | some c => if c.rxAlive then c.waker.toList else []
  | none => []

theorem send_chans (w : World α) (s : Nat) (d : VecDiff α) (i : Nat) :
    (w.send s d).2.chans[i]? = w.chans[i]?.map (hit [s] d i) := by
  unfold World.send
  split
  · rename_i h
    by_cases hi : i = s
    · subst hi; simp [h]
    · cases h' : w.chans[i]? <;> simp [hit, hi]
  · rename_i c h
    split
    · rename_i ha
      simp only [List.getElem?_set]
      by_cases hi : s = i
      · subst hi
        have := (List.getElem?_eq_some_iff.1 h).1
        rw [h]
        simp [hit, ha, this]
      · simp only [hi, ↓reduceIte]
        cases h' : w.chans[i]? <;> simp [hit, Ne.symm hi]
    · rename_i ha
      by_cases hi : i = s
      · subst hi; simp [h, hit, ha]
      · cases h' : w.chans[i]? <;> simp [hit, hi]

theorem send_fst (w : World α) (s : Nat) (d : VecDiff α) : (w.send s d).1 = w.rxLive s := by
  unfold World.send World.rxLive
  split <;> simp_all
  split <;> simp_all

theorem send_rest (w : World α) (s : Nat) (d : VecDiff α) :
    (w.send s d).2.values = w.values ∧ (w.send s d).2.senders = w.senders ∧
    (w.send s d).2.handles = w.handles ∧
    (w.send s d).2.woken = w.woken ++ wakes w.chans s ∧
    (w.send s d).2.chans.length = w.chans.length := by
  unfold World.send wakes
  split
  · simp_all
  · split <;> simp_all

theorem hit_rxAlive (ss : List Nat) (d : VecDiff α) (i : Nat) (c : Chan α) :
    (hit ss d i c).rxAlive = c.rxAlive := by
  unfold hit; split <;> rfl

theorem rxLive_congr {w w' : World α} {i : Nat} {ss d}
    (h : w'.chans[i]? = w.chans[i]?.map (hit ss d i)) : w'.rxLive i = w.rxLive i := by
  unfold World.rxLive
  rw [h]
  cases w.chans[i]? <;> simp [hit_rxAlive]

theorem hit_cons (s : Nat) (ss : List Nat) (d : VecDiff α) (i : Nat) (hs : s ∉ ss) (c : Chan α) :
    hit ss d i (hit [s] d i c) = hit (s :: ss) d i c := by
  by_cases h : i = s
  · subst h
    by_cases ha : c.rxAlive = true <;> simp [hit, hs, ha]
  · by_cases ha : c.rxAlive = true <;> by_cases hm : i ∈ ss <;> simp [hit, h, ha, hm]

theorem retainSend_spec (d : VecDiff α) (ss : List Nat) (hnd : ss.Nodup) (w : World α) :
    (∀ i : Nat, (retainSend d ss w).2.chans[i]? = w.chans[i]?.map (hit ss d i)) ∧
    (retainSend d ss w).1 = ss.filter w.rxLive ∧
    (retainSend d ss w).2.values = w.values ∧
    (retainSend d ss w).2.senders = w.senders ∧
    (retainSend d ss w).2.handles = w.handles ∧
    (retainSend d ss w).2.woken = w.woken ++ ss.flatMap (wakes w.chans) ∧
    (retainSend d ss w).2.chans.length = w.chans.length := by
  induction ss generalizing w with
  | nil =>
    refine ⟨fun i => ?_, rfl, rfl, rfl, rfl, by simp [retainSend], rfl⟩
    have : hit (α := α) [] d i = id := by funext c; simp [hit]
    simp [retainSend, this]
  | cons s ss ih =>
    obtain ⟨hs, hnd'⟩ := List.nodup_cons.1 hnd
    obtain ⟨h1, h2, h3, h4, h5, h6, h7⟩ := ih hnd' (w.send s d).2
    obtain ⟨e1, e2, e3, e4, e5⟩ := send_rest w s d
    refine ⟨fun i => ?_, ?_, by simp [retainSend, h3, e1], by simp [retainSend, h4, e2],
      by simp [retainSend, h5, e3], ?_, by simp [retainSend, h7, e5]⟩
    · simp only [retainSend, h1, send_chans, Option.map_map]
      cases w.chans[i]? with
      | none => rfl
      | some c => simp [hit_cons s ss d i hs]
    · simp only [retainSend, h2, send_fst, List.filter_cons]
      have : List.filter (w.send s d).2.rxLive ss = List.filter w.rxLive ss := by
        apply List.filter_congr
        intro i _
        exact rxLive_congr (send_chans w s d i)
      rw [this]
    · simp only [retainSend, h6, e4, List.flatMap_cons, List.append_assoc]
      congr 2
      have hc : ∀ i ∈ ss, wakes (w.send s d).2.chans i = wakes w.chans i := by
        intro i hi
        unfold wakes
        rw [send_chans]
        have : i ≠ s := by rintro rfl; exact hs hi
        cases w.chans[i]? <;> simp [hit, this]
      have : ∀ l : List Nat, (∀ i ∈ l, i ∈ ss) →
          List.flatMap (wakes (w.send s d).2.chans) l = List.flatMap (wakes w.chans) l := by
        intro l hl
        induction l with
        | nil => rfl
        | cons x l ihl =>
          simp only [List.flatMap_cons]
          rw [hc x (hl x (by simp)), ihl (fun i hi => hl i (by simp [hi]))]
      exact this ss (fun _ h => h)

theorem retainSend_values (d : VecDiff α) (ss : List Nat) (w : World α) (vs : List α) :
    retainSend d ss { w with values := vs } =
      ((retainSend d ss w).1, { (retainSend d ss w).2 with values := vs }) := by
  induction ss generalizing w with
  | nil => rfl
  | cons s ss ih =>
    have : (World.send { w with values := vs } s d) =
        ((w.send s d).1, { (w.send s d).2 with values := vs }) := by
      unfold World.send
      simp only
      split
      · rfl
      · split <;> rfl
    simp only [retainSend, this, ih]

theorem notify_values (w : World α) (d : VecDiff α) (vs : List α) :
    World.notify { w with values := vs } d = { w.notify d with values := vs } := by
  unfold World.notify
  simp only [retainSend_values]

/-- Broadcasting several diffs. -/
def notifyAll (w : World α) (ds : List (VecDiff α)) : World α := ds.foldl World.notify w

@[simp] theorem notifyAll_nil (w : World α) : notifyAll w [] = w := rfl
@[simp] theorem notifyAll_cons (w : World α) (d) (ds : List (VecDiff α)) :
    notifyAll w (d :: ds) = notifyAll (w.notify d) ds := rfl
theorem notifyAll_append (w : World α) (ds es : List (VecDiff α)) :
    notifyAll w (ds ++ es) = notifyAll (notifyAll w ds) es := by simp [notifyAll]

theorem notifyAll_values (w : World α) (ds : List (VecDiff α)) (vs : List α) :
    notifyAll { w with values := vs } ds = { notifyAll w ds with values := vs } := by
  induction ds generalizing w with
  | nil => rfl
  | cons d ds ih => simp only [notifyAll_cons, notify_values, ih]

theorem retainSend_values' (d : VecDiff α) (ss : List Nat) (w : World α) :
    (retainSend d ss w).2.values = w.values := by
  induction ss generalizing w with
  | nil => rfl
  | cons s ss ih => simp only [retainSend, ih]; exact (send_rest w s d).1

@[simp] theorem notify_values' (w : World α) (d : VecDiff α) : (w.notify d).values = w.values := by
  simp only [World.notify, retainSend_values']

@[simp] theorem notifyAll_values' (w : World α) (ds : List (VecDiff α)) :
    (notifyAll w ds).values = w.values := by
  induction ds generalizing w with
  | nil => rfl
  | cons d ds ih => simp only [notifyAll_cons, ih, notify_values']

theorem retainWith_eq (mk : β → VecDiff α) (v : β) (ss : List Nat) (copy : Option β)
    (hcopy : ss ≠ [] → copy = some v) (w : World α) :
    retainWith mk ss ss.length copy w = some (retainSend (mk v) ss w) := by
  induction ss generalizing copy w with
  | nil => rfl
  | cons s ss ih =>
    obtain rfl := hcopy (by simp)
    simp only [retainWith, List.length_cons, Nat.add_eq_zero_iff, Nat.one_ne_zero, and_false,
      ↓reduceIte, Nat.add_one_sub_one]
    rw [ih]
    · simp [retainSend]
    · intro hne
      have : ss.length ≠ 0 := by simpa using hne
      simp [this]

theorem notifyWith_eq (w : World α) (v : β) (change : World α → β → Option (World α))
    (mk : β → VecDiff α) (hch : ∀ w', change w v = some w' → w'.senders = w.senders) :
    w.notifyWith v change mk = (change w v).map (·.notify (mk v)) := by
  unfold World.notifyWith
  simp only
  cases hc : change w v with
  | none => simp
  | some w' =>
    have hs := hch w' hc
    split
    · rename_i h0
      have : w'.senders = [] := by rw [hs]; simpa using h0
      simp [World.notify, this, retainSend]
      cases w'; simp at this ⊢; exact this
    · rw [← hs]
      simp only
      rw [retainWith_eq mk v w'.senders (some v) (fun _ => rfl)]
      simp [World.notify]

/-! ## Each operation as: new values, result, broadcast diffs -/

/-- The diffs sent by the removal loops. -/
def removalDiffs : List Nat → Nat → List (VecDiff α)
  | [], _ => []
  | index :: is, len =>
    (if index = len - 1 then VecDiff.pop else .removeAt index) :: removalDiffs is (len - 1)

theorem notifyRemovals_eq (is : List Nat) (len : Nat) (w : World α) (h : is.length ≤ len) :
    World.notifyRemovals is len w = some (notifyAll w (removalDiffs is len)) := by
  induction is generalizing len w with
  | nil => rfl
  | cons i is ih =>
    simp only [List.length_cons] at h
    simp only [World.notifyRemovals, removalDiffs, notifyAll_cons]
    rw [if_neg (by omega)]
    split <;> rw [ih _ _ (by omega)]

/-- Diffs of `remove_range`. -/
def rangeDiffs (start stop len : Nat) : List (VecDiff α) :=
  if stop > start then
    if start = 0 ∧ stop = len then [.clear] else removalDiffs (rangeList start stop).reverse len
  else []

theorem removeRange_eq (w : World α) (start stop len : Nat) (h : stop ≤ len) :
    w.removeRange start stop len = some (notifyAll w (rangeDiffs start stop len)) := by
  unfold World.removeRange rangeDiffs
  split
  · split
    · rfl
    · exact notifyRemovals_eq _ _ _ (by simp [rangeList]; omega)
  · rfl

/-- The diffs sent by each operation on given contents (for operations that do not panic). -/
def Op.diffs : Op α → List α → List (VecDiff α)
  | .pop, l => if l.length = 0 then [] else [.pop]
  | .remove i, l => if i = l.length - 1 then [.pop] else [.removeAt i]
  | .clear, l => if l.length = 0 then [] else [.clear]
  | .moveFromTo i j, _ => if i = j then [] else [.move i j]
  | .swap a b, _ =>
    if a < b then .move a b :: (if b - 1 = a then [] else [.move (b - 1) a])
    else if a > b then .move a b :: (if b + 1 = a then [] else [.move (b + 1) a])
    else []
  | .retain f, l =>
    if l.length = 0 then []
    else if (l.filter f).length = 0 then [.clear]
    else removalDiffs (removals f 0 l).reverse l.length
  | .drain lo hi, l => rangeDiffs lo.lower (hi.upper l.length) l.length
  | .truncate n, l => rangeDiffs n l.length l.length
  | .reverse, l => (List.range (l.length - 1)).map fun i => .move (l.length - 1) i
  | .push a, _ => [.push a]
  | .pushCloned a, _ => [.push a]
  | .insert i a, l => if i = l.length then [.push a] else [.insertAt i a]
  | .insertCloned i a, l => if i = l.length then [.push a] else [.insertAt i a]
  | .set i a, _ => [.updateAt i a]
  | .setCloned i a, _ => [.updateAt i a]
  | .replace vs, _ => [.replace vs]
  | .replaceCloned vs, _ => [.replace vs]
  | .extend vs, _ => vs.map .push
  | .applyVecDiff d, l =>
    match d with
    | .replace vs => [.replace vs]
    | .insertAt i a => if i = l.length then [.push a] else [.insertAt i a]
    | .updateAt i a => [.updateAt i a]
    | .removeAt i => if i = l.length - 1 then [.pop] else [.removeAt i]
    | .move i j => if i = j then [] else [.move i j]
    | .push a => [.push a]
    | .pop => [.pop]
    | .clear => if l.length = 0 then [] else [.clear]

theorem moveFromTo_eq (w : World α) (i j : Nat) :
    w.moveFromTo i j = if i = j then some w else
      (moved w.values i j).map fun vs => { w.notify (.move i j) with values := vs } := by
  unfold World.moveFromTo moved vRemove vInsert
  by_cases h : i = j
  · simp [h]
  · simp only [ne_eq, h, not_false_eq_true, ↓reduceIte]
    cases hx : w.values[i]? with
    | none => simp
    | some a =>
      have hi := (List.getElem?_eq_some_iff.1 hx).1
      simp only [List.length_eraseIdx, hi, ↓reduceIte]
      by_cases hj : j < w.values.length
      · have : j ≤ w.values.length - 1 := by omega
        simp [hj, this, notify_values]
      · have : ¬ j ≤ w.values.length - 1 := by omega
        simp [hj, this]

theorem moved_length {l l' : List α} {i j : Nat} (h : moved l i j = some l') :
    l'.length = l.length := by
  unfold moved at h
  split at h
  · cases h
  · rename_i a hx
    have hi := (List.getElem?_eq_some_iff.1 hx).1
    split at h
    · cases h
      rename_i hj
      rw [List.length_insertIdx, List.length_eraseIdx, if_pos hi, if_pos (by omega)]
      omega
    · cases h

theorem moved_eq_apply (l : List α) (i j : Nat) : moved l i j = (VecDiff.move i j).apply l := by
  simp only [moved, VecDiff.apply, vRemove, vInsert]
  cases hx : l[i]? with
  | none => simp
  | some a =>
    have hi := (List.getElem?_eq_some_iff.1 hx).1
    simp only [List.length_eraseIdx, hi, ↓reduceIte]
    by_cases hj : j < l.length
    · have : j ≤ l.length - 1 := by omega
      simp [hj, this]
    · have : ¬ j ≤ l.length - 1 := by omega
      simp [hj, this]

theorem moved_fwd (p : List α) (a : α) (m q : List α) :
    moved (p ++ a :: (m ++ q)) p.length (p.length + m.length) = some (p ++ m ++ a :: q) := by
  rw [moved_eq_apply]; exact apply_eq_some.2 (.moveFwd p a m q)

theorem moved_back (p m : List α) (a : α) (q : List α) :
    moved (p ++ m ++ a :: q) (p.length + m.length) p.length = some (p ++ a :: (m ++ q)) := by
  rw [moved_eq_apply]; exact apply_eq_some.2 (.moveBack p m a q)

/-- Splitting a list at two distinct positions. -/
theorem split2 {l : List α} {a b : Nat} (hab : a < b) (hb : b < l.length) :
    ∃ p x m y q, l = p ++ x :: (m ++ y :: q) ∧ p.length = a ∧ p.length + 1 + m.length = b := by
  have ha : a < l.length := by omega
  refine ⟨l.take a, l[a], (l.drop (a+1)).take (b - a - 1), l[b], l.drop (b+1), ?_, by simp; omega,
    by simp; omega⟩
  have h1 : l.drop b = l[b] :: l.drop (b+1) := by simp
  have h2 : l.drop (a+1) = (l.drop (a+1)).take (b-a-1) ++ l.drop b := by
    have := List.take_append_drop (b-a-1) (l.drop (a+1))
    rw [List.drop_drop] at this
    rw [show a + 1 + (b - a - 1) = b by omega] at this
    exact this.symm
  rw [← h1, ← h2]
  simp

theorem swapped_split (p : List α) (x : α) (m : List α) (y : α) (q : List α) :
    swapped (p ++ x :: (m ++ y :: q)) p.length (p.length + 1 + m.length) =
      some (p ++ y :: (m ++ x :: q)) := by
  have h1 : (p ++ x :: (m ++ y :: q))[p.length]? = some x := by simp
  have h2 : (p ++ x :: (m ++ y :: q))[p.length + 1 + m.length]? = some y := by
    rw [List.getElem?_append_right (by omega)]
    rw [show p.length + 1 + m.length - p.length = m.length + 1 by omega]
    simp
  unfold swapped
  rw [h1, h2]
  simp only [Option.some.injEq]
  rw [List.set_append_right _ _ (by omega), Nat.sub_self, List.set_cons_zero,
    List.set_append_right _ _ (by omega),
    show p.length + 1 + m.length - p.length = m.length + 1 by omega, List.set_cons_succ,
    List.set_append_right _ _ (by omega), Nat.sub_self, List.set_cons_zero]

theorem swapped_comm (l : List α) (a b : Nat) : swapped l a b = swapped l b a := by
  unfold swapped
  by_cases h : a = b
  · subst h; cases l[a]? <;> rfl
  · cases l[a]? <;> cases l[b]? <;> simp
    rw [List.set_comm _ _ h]

theorem swapped_none {l : List α} {a b : Nat} (h : l.length ≤ a ∨ l.length ≤ b) :
    swapped l a b = none := by
  unfold swapped
  rcases h with h | h
  · rw [List.getElem?_eq_none h]
  · rw [List.getElem?_eq_none h]; cases l[a]? <;> rfl

theorem moved_none {l : List α} {a b : Nat} (h : l.length ≤ a ∨ l.length ≤ b) :
    moved l a b = none := by
  unfold moved
  rcases h with h | h
  · rw [List.getElem?_eq_none h]
  · cases l[a]? with
    | none => rfl
    | some x => simp; omega

/-- `swap` as two moves, on lists. -/
theorem swap_lists {l : List α} {a b : Nat} :
    (a < b → (moved l a b).bind (fun l' => if b - 1 = a then some l' else moved l' (b - 1) a)
      = swapped l a b) ∧
    (a > b → (moved l a b).bind (fun l' => if b + 1 = a then some l' else moved l' (b + 1) a)
      = swapped l a b) := by
  constructor
  · intro hab
    by_cases hb : b < l.length
    · obtain ⟨p, x, m, y, q, rfl, rfl, rfl⟩ := split2 hab hb
      rw [swapped_split]
      have h1 := moved_fwd p x (m ++ [y]) q
      simp only [List.append_assoc, List.cons_append, List.nil_append, List.length_append,
        List.length_cons, List.length_nil] at h1
      rw [show p.length + 1 + m.length = p.length + (m.length + (0 + 1)) by omega, h1]
      simp only [Option.bind_some]
      have h2 := moved_back p m y (x :: q)
      simp only [List.append_assoc] at h2
      rw [show p.length + (m.length + (0 + 1)) - 1 = p.length + m.length by omega, h2]
      split
      · have : m = [] := by apply List.eq_nil_of_length_eq_zero; omega
        simp [this]
      · rfl
    · rw [moved_none (by omega), swapped_none (by omega)]; rfl
  · intro hab
    by_cases hb : a < l.length
    · obtain ⟨p, x, m, y, q, rfl, rfl, rfl⟩ := split2 hab hb
      rw [swapped_comm, swapped_split]
      have h1 := moved_back p (x :: m) y q
      simp only [List.append_assoc, List.cons_append,  List.length_cons] at h1
      rw [show p.length + 1 + m.length = p.length + (m.length + 1) by omega, h1]
      simp only [Option.bind_some]
      have h2 := moved_fwd (p ++ [y]) x m q
      simp only [List.append_assoc, List.cons_append, List.nil_append, List.length_append,
        List.length_cons, List.length_nil] at h2
      rw [show p.length + (m.length + 1) = p.length + (0 + 1) + m.length by omega,
        show p.length + (0 + 1) = p.length + 1 by omega] at *
      split
      · have : m = [] := by apply List.eq_nil_of_length_eq_zero; omega
        simp [this]
      · rw [h2]
    · rw [moved_none (by omega), swapped_none (by omega)]; rfl

theorem swap_eq (w : World α) (a b : Nat) :
    w.swap a b = if a = b then some w else
      (swapped w.values a b).map fun vs =>
        { notifyAll w (Op.diffs (.swap a b) w.values) with values := vs } := by
  unfold World.swap
  rcases Nat.lt_trichotomy a b with h | h | h
  · have := (swap_lists (l := w.values) (a := a) (b := b)).1 h
    rw [if_pos h, if_neg (by omega), ← this, moveFromTo_eq, if_neg (by omega)]
    cases hm : moved w.values a b with
    | none => rfl
    | some l' =>
      simp only [Option.map_some, Option.bind_some, moveFromTo_eq, Op.diffs, h, ↓reduceIte]
      split
      · simp
      · cases moved l' (b-1) a with
        | none => rfl
        | some l'' => simp [notify_values]
  · simp [h]
  · have := (swap_lists (l := w.values) (a := a) (b := b)).2 h
    rw [if_neg (by omega), if_pos h, if_neg (by omega), ← this, moveFromTo_eq, if_neg (by omega)]
    have hn : ¬ a < b := by omega
    cases hm : moved w.values a b with
    | none => rfl
    | some l' =>
      simp only [Option.map_some, Option.bind_some, moveFromTo_eq, Op.diffs, h, ↓reduceIte, hn]
      split
      · simp
      · cases moved l' (b+1) a with
        | none => rfl
        | some l'' => simp [notify_values]

/-- The loop of `reverse`: moving the last element in front of the rest, repeatedly. -/
theorem reverseLoop_eq (n : Nat) (w : World α) (p l : List α) (hv : w.values = p ++ l)
    (hl : l.length = n + 1) :
    World.reverseLoop (p.length + n) n p.length w =
      some { notifyAll w ((List.range' p.length n).map fun i => .move (p.length + n) i) with
        values := p ++ l.reverse } := by
  induction n generalizing w p l with
  | zero =>
    match l, hl with
    | [x], _ => simp [World.reverseLoop, ← hv]
  | succ n ih =>
    obtain ⟨m, x, rfl⟩ : ∃ m x, l = m ++ [x] := by
      have hne : l ≠ [] := by rintro rfl; simp at hl
      exact ⟨l.dropLast, l.getLast hne, (List.dropLast_concat_getLast hne).symm⟩
    simp only [List.length_append, List.length_cons, List.length_nil, Nat.zero_add,
      Nat.add_right_cancel_iff] at hl
    unfold World.reverseLoop
    rw [moveFromTo_eq, if_neg (by omega), hv]
    have h1 := moved_back p m x []
    simp only [List.append_assoc, List.append_nil] at h1
    rw [← hl, h1]
    simp only [Option.map_some]
    have := ih { w.notify (.move (p.length + m.length) p.length) with values := p ++ x :: m }
      (p ++ [x]) m (by simp) (by omega)
    simp only [List.length_append, List.length_cons, List.length_nil, Nat.zero_add] at this
    rw [show p.length + 1 + n = p.length + m.length by omega] at this
    rw [this]
    have hr : (List.range' p.length m.length) = p.length :: List.range' (p.length + 1) n := by
      rw [hl, List.range'_succ]
    simp only [notifyAll_values, hr, List.map_cons, notifyAll_cons]
    simp

theorem reverse_eq (w : World α) :
    w.reverse = some { notifyAll w (Op.diffs .reverse w.values) with
      values := w.values.reverse } := by
  unfold World.reverse
  simp only [Op.diffs]
  split
  · rename_i h
    have := reverseLoop_eq (w.values.length - 1) w [] w.values (by simp) (by omega)
    simp only [List.length_nil, Nat.zero_add, List.nil_append] at this
    rw [this]
    simp [List.range_eq_range']
  · rename_i h
    have h0 : w.values.length - 1 = 0 := by omega
    have hr : w.values.reverse = w.values := by
      match w.values, h with
      | [], _ => rfl
      | [x], _ => rfl
      | _ :: _ :: _, h => simp at h
    simp [h0, hr]

theorem convertRange_eq (lo hi : Bound) (len : Nat) :
    convertRange lo hi len =
      if lo.lower ≤ hi.upper len ∧ hi.upper len ≤ len then some (lo.lower, hi.upper len)
      else none := by
  have key : ∀ start stop : Nat,
      (if start > stop then none else if stop > len then none else some (start, stop)) =
      if start ≤ stop ∧ stop ≤ len then some (start, stop) else none := by
    intro start stop
    by_cases h3 : start ≤ stop
    · by_cases h4 : stop ≤ len
      · rw [if_neg (by omega), if_neg (by omega), if_pos ⟨h3, h4⟩]
      · rw [if_neg (by omega), if_pos (by omega), if_neg (by omega)]
    · rw [if_pos (by omega), if_neg (by omega)]
  have := key lo.lower (hi.upper len)
  cases lo <;> cases hi <;> exact this

theorem pushClone_eq (w : World α) (a : α) :
    w.pushClone a = some { w.notify (.push a) with values := w.values ++ [a] } := by
  unfold World.pushClone
  rw [notifyWith_eq]
  · simp [notify_values]
  · intro w' h; cases h; rfl

theorem extend_eq (w : World α) (vs : List α) :
    w.extend vs = some { notifyAll w (vs.map .push) with values := w.values ++ vs } := by
  induction vs generalizing w with
  | nil => simp [World.extend]
  | cons v vs ih =>
    simp only [World.extend, pushClone_eq, ih, List.map_cons, notifyAll_cons, notifyAll_values,
      List.append_assoc, List.cons_append, List.nil_append]

theorem removals_length (f : α → Bool) (k : Nat) (l : List α) :
    (removals f k l).length ≤ l.length := by
  induction l generalizing k with
  | nil => simp [removals]
  | cons a l ih =>
    simp only [removals]
    split
    · simp; exact ih _
    · have := ih (k+1); simp; omega

theorem pop_eq (w : World α) :
    w.pop = (w.values.getLast?, { notifyAll w (Op.diffs .pop w.values) with
      values := w.values.dropLast }) := by
  unfold World.pop vPop
  simp only [Op.diffs]
  cases h : w.values with
  | nil => simp [← h]
  | cons a l =>
    simp [notify_values]

theorem remove_eq (w : World α) (i : Nat) :
    w.remove i = (w.values[i]?).map fun a =>
      (a, { notifyAll w (Op.diffs (.remove i) w.values) with values := w.values.eraseIdx i }) := by
  unfold World.remove vRemove
  simp only [Op.diffs]
  cases h : w.values[i]? with
  | none => rfl
  | some a => simp only [Option.map_some]; split <;> simp [notify_values]

theorem clear_eq (w : World α) :
    w.clear = { notifyAll w (Op.diffs .clear w.values) with values := [] } := by
  unfold World.clear
  simp only [Op.diffs]
  cases h : w.values with
  | nil => simp; rw [← h]
  | cons a l => simp [notify_values]

theorem insertClone_eq (w : World α) (i : Nat) (a : α) :
    w.insertClone i a = if i ≤ w.values.length then
      some { notifyAll w (Op.diffs (.insertCloned i a) w.values) with
        values := w.values.insertIdx i a } else none := by
  unfold World.insertClone
  simp only [Op.diffs]
  split
  · rename_i h
    rw [pushClone_eq, h]
    simp
  · rename_i h
    rw [notifyWith_eq]
    · unfold vInsert
      by_cases hi : i ≤ w.values.length <;> simp [hi, notify_values]
    · intro w' h
      split at h
      · cases h
      · cases h; rfl

theorem setClone_eq (w : World α) (i : Nat) (a : α) :
    w.setClone i a = if i < w.values.length then
      some { notifyAll w (Op.diffs (.setCloned i a) w.values) with
        values := w.values.set i a } else none := by
  unfold World.setClone
  simp only [Op.diffs]
  rw [notifyWith_eq]
  · unfold vSet
    by_cases hi : i < w.values.length <;> simp [hi, notify_values]
  · intro w' h
    split at h
    · cases h
    · cases h; rfl

theorem replaceClone_eq (w : World α) (vs : List α) :
    w.replaceClone vs = some { notifyAll w [.replace vs] with values := vs } := by
  unfold World.replaceClone
  rw [notifyWith_eq]
  · simp [notify_values]
  · intro w' h; cases h; rfl

/-- Every operation: result and new contents are those of the specification, and the diffs
`Op.diffs` are broadcast. -/
theorem exec_eq (w : World α) (o : Op α) :
    w.exec o = (o.spec w.values).map fun r =>
      (r.1, { notifyAll w (o.diffs w.values) with values := r.2 }) := by
  cases o with
  | pop => simp [World.exec, Op.spec, pop_eq]
  | remove i =>
    simp only [World.exec, Op.spec, remove_eq, Option.map_map]; rfl
  | clear => simp [World.exec, Op.spec, clear_eq]
  | moveFromTo i j =>
    simp only [World.exec, Op.spec, moveFromTo_eq, Op.diffs]
    split
    · simp
    · cases moved w.values i j <;> simp
  | swap a b =>
    simp only [World.exec, Op.spec, swap_eq]
    split
    · rename_i h; simp [Op.diffs, h]
    · cases swapped w.values a b <;> simp
  | retain f =>
    simp only [World.exec, Op.spec, World.retain, Op.diffs]
    cases hv : w.values with
    | nil => simp; rw [← hv]
    | cons a l =>
      simp only [List.length_cons, gt_iff_lt, Nat.zero_lt_succ, ↓reduceIte, Nat.add_eq_zero_iff,
        Nat.one_ne_zero, and_false, Option.map_some]
      split
      · simp [notify_values]
      · rw [notifyRemovals_eq]
        · simp [notifyAll_values]
        · have := removals_length f 0 (a :: l)
          simpa using this
  | drain lo hi =>
    simp only [World.exec, Op.spec, World.drain, Op.diffs, convertRange_eq]
    by_cases h : lo.lower ≤ hi.upper w.values.length ∧ hi.upper w.values.length ≤ w.values.length
    · simp only [h, and_self, ↓reduceIte]
      rw [removeRange_eq _ _ _ _ h.2]
      simp [List.drop_take]
    · simp only [h, ↓reduceIte, Option.map_none]
  | truncate n =>
    simp only [World.exec, Op.spec, World.truncate, Op.diffs]
    rw [removeRange_eq _ _ _ _ (Nat.le_refl _)]
    simp
  | reverse => simp [World.exec, Op.spec, reverse_eq]
  | push a => simp [World.exec, Op.spec, World.pushCopy, Op.diffs, notify_values]
  | insert i a =>
    simp only [World.exec, Op.spec, World.insertCopy, Op.diffs]
    by_cases h : i = w.values.length
    · subst h; simp [World.pushCopy, notify_values]
    · simp only [h, ↓reduceIte, vInsert]
      by_cases hi : i ≤ w.values.length <;> simp [hi, notify_values]
  | set i a =>
    simp only [World.exec, Op.spec, World.setCopy, Op.diffs, vSet]
    by_cases hi : i < w.values.length <;> simp [hi, notify_values]
  | replace vs =>
    have := replaceClone_eq w vs
    simp only [World.exec, Op.spec, Op.diffs]
    unfold World.replaceClone at this
    simp [World.replaceCopy, this]
  | pushCloned a => simp [World.exec, Op.spec, pushClone_eq, Op.diffs]
  | insertCloned i a =>
    simp only [World.exec, Op.spec, insertClone_eq]
    split <;> simp
  | setCloned i a =>
    simp only [World.exec, Op.spec, setClone_eq]
    split <;> simp
  | replaceCloned vs => simp [World.exec, Op.spec, replaceClone_eq, Op.diffs]
  | extend vs => simp [World.exec, Op.spec, extend_eq, Op.diffs]
  | applyVecDiff d =>
    cases d with
    | replace vs => simp [World.exec, Op.spec, World.applyVecDiff, replaceClone_eq, Op.diffs,
        VecDiff.apply]
    | insertAt i a =>
      simp only [World.exec, Op.spec, World.applyVecDiff, insertClone_eq, VecDiff.apply, vInsert,
        Op.diffs]
      split <;> simp
    | updateAt i a =>
      simp only [World.exec, Op.spec, World.applyVecDiff, setClone_eq, VecDiff.apply, vSet,
        Op.diffs]
      split <;> simp
    | removeAt i =>
      simp only [World.exec, Op.spec, World.applyVecDiff, remove_eq, VecDiff.apply, vRemove,
        Op.diffs]
      cases w.values[i]? <;> simp
    | move i j =>
      simp only [World.exec, Op.spec, World.applyVecDiff, moveFromTo_eq, Op.diffs]
      split
      · simp
      · cases moved w.values i j <;> simp
    | push a => simp [World.exec, Op.spec, World.applyVecDiff, pushClone_eq, Op.diffs,
        VecDiff.apply]
    | pop =>
      simp only [World.exec, Op.spec, World.applyVecDiff, pop_eq, VecDiff.apply, vPop, Op.diffs]
      cases h : w.values with
      | nil => simp
      | cons a l => simp [List.getLast?_eq_some_getLast]
    | clear => simp [World.exec, Op.spec, World.applyVecDiff, clear_eq, Op.diffs, VecDiff.apply]

/-! ## The broadcast diffs describe the change -/

theorem eraseStep (p : List α) (b : α) (q : List α) (i len : Nat) (hi : i = p.length)
    (hlen : len = (p ++ b :: q).length) :
    VecDiff.apply (if i = len - 1 then VecDiff.pop else .removeAt i) (p ++ b :: q)
      = some (p ++ q) := by
  subst hi hlen
  split
  · rename_i h
    have : q = [] := by
      apply List.eq_nil_of_length_eq_zero
      simp only [List.length_append, List.length_cons] at h; omega
    subst this
    exact apply_eq_some.2 (by simpa using Applies.pop p b)
  · exact apply_eq_some.2 (.removeAt p b q)

theorem removalDiffs_append (is js : List Nat) (len : Nat) :
    removalDiffs (α := α) (is ++ js) len =
      removalDiffs is len ++ removalDiffs js (len - is.length) := by
  induction is generalizing len with
  | nil => rfl
  | cons i is ih =>
    simp only [List.cons_append, removalDiffs, ih, List.length_cons]
    rw [show len - 1 - is.length = len - (is.length + 1) by omega]

theorem removals_filter (f : α → Bool) (k : Nat) (l : List α) :
    (removals f k l).length + (l.filter f).length = l.length := by
  induction l generalizing k with
  | nil => rfl
  | cons a l ih =>
    have := ih (k+1)
    simp only [removals, List.filter_cons]
    cases f a <;> simp <;> omega

theorem replay_retain (f : α → Bool) (l p : List α) :
    replay (removalDiffs (removals f p.length l).reverse (p.length + l.length)) (p ++ l)
      = some (p ++ l.filter f) := by
  induction l generalizing p with
  | nil => simp [removals, removalDiffs, replay]
  | cons a l ih =>
    have h := ih (p ++ [a])
    simp only [List.length_append, List.length_cons, List.length_nil, Nat.zero_add,
      List.append_assoc, List.cons_append, List.nil_append] at h
    rw [show p.length + 1 + l.length = p.length + (l.length + 1) by omega] at h
    cases hf : f a with
    | true =>
      simpa [removals, hf, List.filter_cons] using h
    | false =>
      simp only [removals, hf, Bool.not_false, ↓reduceIte, List.reverse_cons, List.length_cons,
        removalDiffs_append, List.filter_cons, Bool.false_eq_true]
      apply replay_append_some h
      have hc := removals_filter f (p.length + 1) l
      simp only [removalDiffs, replay_singleton]
      apply eraseStep
      · rfl
      · simp; omega

theorem replay_range (m p q : List α) :
    replay (removalDiffs (List.range' p.length m.length).reverse (p ++ (m ++ q)).length)
      (p ++ (m ++ q)) = some (p ++ q) := by
  induction m generalizing p with
  | nil => simp [removalDiffs, replay]
  | cons a m ih =>
    have h := ih (p ++ [a])
    simp only [List.length_append, List.length_cons, List.length_nil, Nat.zero_add,
      List.append_assoc, List.cons_append, List.nil_append] at h
    simp only [List.length_cons, List.range'_succ, List.reverse_cons, removalDiffs_append,
      List.length_append, List.cons_append, List.length_reverse, List.length_range']
    apply replay_append_some h
    simp only [removalDiffs, replay_singleton]
    apply eraseStep
    · rfl
    · simp; omega

theorem replay_rangeDiffs (l : List α) (start stop : Nat) (h : stop ≤ l.length) :
    replay (rangeDiffs start stop l.length) l =
      some (l.take start ++ l.drop (max start stop)) := by
  unfold rangeDiffs
  split
  · rename_i hlt
    rw [Nat.max_eq_right (by omega)]
    split
    · rename_i hc
      obtain ⟨rfl, rfl⟩ := hc
      simp [replay, VecDiff.apply]
    · have := replay_range ((l.take stop).drop start) (l.take start) (l.drop stop)
      have hl : l.take start ++ ((l.take stop).drop start ++ l.drop stop) = l := by
        have h1 : l.take start = (l.take stop).take start := by
          rw [List.take_take, Nat.min_eq_left (by omega)]
        rw [← List.append_assoc, h1, List.take_append_drop, List.take_append_drop]
      rw [hl] at this
      simp only [List.length_take, List.length_drop] at this
      rw [Nat.min_eq_left (by omega), Nat.min_eq_left h] at this
      exact this
  · rw [Nat.max_eq_left (by omega)]
    simp [replay]

theorem replay_reverse (n : Nat) (p l : List α) (hl : l.length = n + 1) :
    replay ((List.range' p.length n).map fun i => .move (p.length + n) i) (p ++ l)
      = some (p ++ l.reverse) := by
  induction n generalizing p l with
  | zero =>
    match l, hl with
    | [x], _ => simp [replay]
  | succ n ih =>
    obtain ⟨m, x, rfl⟩ : ∃ m x, l = m ++ [x] := by
      have hne : l ≠ [] := by rintro rfl; simp at hl
      exact ⟨l.dropLast, l.getLast hne, (List.dropLast_concat_getLast hne).symm⟩
    simp only [List.length_append, List.length_cons, List.length_nil, Nat.zero_add,
      Nat.add_right_cancel_iff] at hl
    rw [List.range'_succ, List.map_cons]
    have h1 := moved_back p m x []
    simp only [List.append_assoc, List.append_nil, moved_eq_apply] at h1
    rw [hl] at h1
    rw [replay_cons_some h1]
    have := ih (p ++ [x]) m hl
    simp only [List.length_append, List.length_cons, List.length_nil, Nat.zero_add,
      List.append_assoc, List.cons_append, List.nil_append] at this
    rw [show p.length + 1 + n = p.length + (n + 1) by omega] at this
    rw [this]
    simp

theorem replay_push (vs l : List α) : replay (vs.map .push) l = some (l ++ vs) := by
  induction vs generalizing l with
  | nil => simp [replay]
  | cons v vs ih => simp [replay, VecDiff.apply, ih]

theorem replay_pop (l : List α) : replay (Op.diffs .pop l) l = some l.dropLast := by
  cases l with
  | nil => rfl
  | cons a l =>
    simp [Op.diffs, replay, VecDiff.apply, vPop, List.getLast?_eq_some_getLast]

theorem replay_remove (l : List α) (i : Nat) (h : i < l.length) :
    replay (Op.diffs (.remove i) l) l = some (l.eraseIdx i) := by
  have h2 : l = l.take i ++ l[i] :: l.drop (i+1) := by simp
  have := eraseStep (l.take i) l[i] (l.drop (i+1)) i l.length (by simp; omega) (by rw [← h2])
  rw [← h2] at this
  rw [List.eraseIdx_eq_take_drop_succ, ← this]
  simp only [Op.diffs]
  split <;> exact replay_singleton

theorem replay_insert (l : List α) (i : Nat) (a : α) (h : i ≤ l.length) :
    replay (if i = l.length then [VecDiff.push a] else [.insertAt i a]) l
      = some (l.insertIdx i a) := by
  split
  · rename_i h; subst h; simp [replay, VecDiff.apply]
  · simp [replay, VecDiff.apply, vInsert, h]

/-- The diffs broadcast by an operation, applied to the old contents, give the new contents. -/
theorem replay_diffs (o : Op α) (l : List α) (r : Ret α × List α) (h : o.spec l = some r) :
    replay (o.diffs l) l = some r.2 := by
  have hmove : ∀ i j : Nat, (if i = j then some (Ret.unit, l) else (moved l i j).map (Ret.unit, ·))
      = some r → replay (if i = j then [] else [VecDiff.move i j]) l = some r.2 := by
    intro i j h
    split at h
    · rename_i hij; cases h; simp [hij, replay]
    · rename_i hij
      simp only [hij, ↓reduceIte, replay_singleton, ← moved_eq_apply]
      cases hm : moved l i j with
      | none => simp [hm] at h
      | some l' => simp [hm] at h; rw [← h]
  cases o with
  | pop => cases h; exact replay_pop l
  | remove i =>
    simp only [Op.spec] at h
    cases hx : l[i]? with
    | none => simp [hx] at h
    | some a =>
      simp [hx] at h; rw [← h]
      exact replay_remove l i (List.getElem?_eq_some_iff.1 hx).1
  | clear =>
    cases h
    cases l <;> simp [Op.diffs, replay, VecDiff.apply]
  | moveFromTo i j => exact hmove i j h
  | swap a b =>
    simp only [Op.spec] at h
    split at h
    · rename_i hab; cases h; simp [Op.diffs, hab, replay]
    · rename_i hab
      cases hs : swapped l a b with
      | none => simp [hs] at h
      | some l' =>
        simp [hs] at h; rw [← h]
        rcases Nat.lt_or_gt_of_ne hab with hlt | hgt
        · have := (swap_lists (l := l) (a := a) (b := b)).1 hlt
          rw [hs] at this
          simp only [Op.diffs, hlt, ↓reduceIte, replay, ← moved_eq_apply]
          cases hm : moved l a b with
          | none => simp [hm] at this
          | some l1 =>
            simp only [hm, Option.bind_some] at this
            split at this
            · rename_i hc; simpa [hc, replay] using this
            · rename_i hc; simpa [hc, replay_singleton, ← moved_eq_apply] using this
        · have := (swap_lists (l := l) (a := a) (b := b)).2 hgt
          rw [hs] at this
          have hn : ¬ a < b := by omega
          simp only [Op.diffs, hgt, hn, ↓reduceIte, replay, ← moved_eq_apply]
          cases hm : moved l a b with
          | none => simp [hm] at this
          | some l1 =>
            simp only [hm, Option.bind_some] at this
            split at this
            · rename_i hc; simpa [hc, replay] using this
            · rename_i hc; simpa [hc, replay_singleton, ← moved_eq_apply] using this
  | retain f =>
    cases h
    simp only [Op.diffs]
    split
    · rename_i h0
      have : l = [] := List.eq_nil_of_length_eq_zero h0
      simp [this, replay]
    · split
      · rename_i h1
        have : l.filter f = [] := List.eq_nil_of_length_eq_zero h1
        rw [this]; rfl
      · simpa using replay_retain f l []
  | drain lo hi =>
    simp only [Op.spec] at h
    split at h
    · rename_i hc
      cases h
      simp only [Op.diffs]
      rw [replay_rangeDiffs _ _ _ hc.2, Nat.max_eq_right hc.1]
    · cases h
  | truncate n =>
    cases h
    simp only [Op.diffs]
    rw [replay_rangeDiffs _ _ _ (Nat.le_refl _)]
    have : l.drop (max n l.length) = [] := by
      apply List.drop_eq_nil_of_le; exact Nat.le_max_right _ _
    simp [this]
  | reverse =>
    cases h
    simp only [Op.diffs]
    cases l with
    | nil => rfl
    | cons a l =>
      have := replay_reverse l.length [] (a :: l) rfl
      simpa [List.range_eq_range'] using this
  | push a => cases h; rfl
  | pushCloned a => cases h; rfl
  | insert i a =>
    simp only [Op.spec] at h
    split at h
    · cases h; exact replay_insert l i a (by assumption)
    · cases h
  | insertCloned i a =>
    simp only [Op.spec] at h
    split at h
    · cases h; exact replay_insert l i a (by assumption)
    · cases h
  | set i a =>
    simp only [Op.spec] at h
    split at h
    · cases h; simp [Op.diffs, replay, VecDiff.apply, vSet, *]
    · cases h
  | setCloned i a =>
    simp only [Op.spec] at h
    split at h
    · cases h; simp [Op.diffs, replay, VecDiff.apply, vSet, *]
    · cases h
  | replace vs => cases h; rfl
  | replaceCloned vs => cases h; rfl
  | extend vs => cases h; exact replay_push vs l
  | applyVecDiff d =>
    cases d with
    | replace vs => cases h; rfl
    | insertAt i a =>
      simp only [Op.spec, VecDiff.apply, vInsert] at h
      split at h
      · simp only [Option.map_some, Option.some.injEq] at h
        rw [← h]; exact replay_insert l i a (by assumption)
      · cases h
    | updateAt i a =>
      simp only [Op.spec, VecDiff.apply, vSet] at h
      split at h
      · simp only [Option.map_some, Option.some.injEq] at h
        rw [← h]; simp [Op.diffs, replay, VecDiff.apply, vSet, *]
      · cases h
    | removeAt i =>
      simp only [Op.spec, VecDiff.apply, vRemove] at h
      cases hx : l[i]? with
      | none => simp [hx] at h
      | some a =>
        simp [hx] at h; rw [← h]
        exact replay_remove l i (List.getElem?_eq_some_iff.1 hx).1
    | move i j => exact hmove i j h
    | push a => cases h; rfl
    | pop =>
      simp only [Op.spec, VecDiff.apply, vPop] at h
      cases l with
      | nil => simp at h
      | cons a l =>
        simp [List.getLast?_eq_some_getLast] at h
        rw [← h]
        simp [Op.diffs, replay, VecDiff.apply, vPop, List.getLast?_eq_some_getLast]
    | clear =>
      cases h
      cases l <;> simp [Op.diffs, replay, VecDiff.apply]

end Verif.MutVec
