import Verif.Volume
import Verif.SignalVec1
import Verif.SignalVec2
import Verif.SignalVec3
import Verif.SignalVec4
import Verif.SignalVec5
import Verif.SignalVec6
import Verif.SignalMap
import Verif.SignalA
import Verif.SignalB
import Verif.Checks

/-!
# Volume of changes: lemmas

An amortised count: a potential of the state pays for what is answered later.
-/

namespace Verif

variable {α β ι κ σ ρ : Type}

@[simp] theorem sumBy_nil (f : α → Nat) : sumBy f [] = 0 := rfl
@[simp] theorem sumBy_cons (f : α → Nat) (a : α) (l : List α) : sumBy f (a :: l) = f a + sumBy f l := rfl
@[simp] theorem sumBy_append (f : α → Nat) (l l' : List α) : sumBy f (l ++ l') = sumBy f l + sumBy f l' := by
  simp [sumBy]
theorem sumBy_map (f : β → Nat) (g : α → β) (l : List α) : sumBy f (l.map g) = sumBy (fun a => f (g a)) l := by
  simp [sumBy, Function.comp_def]
theorem sumBy_mono {f g : α → Nat} (h : ∀ a, f a ≤ g a) (l : List α) : sumBy f l ≤ sumBy g l := by
  induction l with
  | nil => exact Nat.le_refl _
  | cons a l ih => simp only [sumBy_cons]; have := h a; omega
theorem sumBy_mul (c : Nat) (f : α → Nat) (l : List α) : sumBy (fun a => c * f a) l = c * sumBy f l := by
  induction l with
  | nil => simp
  | cons a l ih => simp only [sumBy_cons, ih, Nat.mul_add]
theorem sumBy_const (c : Nat) (l : List α) : sumBy (fun _ => c) l = c * l.length := by
  induction l with
  | nil => simp
  | cons a l ih => simp only [sumBy_cons, ih, List.length_cons, Nat.mul_add]; omega
theorem sumBy_one (l : List α) : sumBy (fun _ => 1) l = l.length := by
  rw [sumBy_const]; omega
theorem sumBy_add (f g : α → Nat) (l : List α) : sumBy (fun a => f a + g a) l = sumBy f l + sumBy g l := by
  induction l with
  | nil => simp
  | cons a l ih => simp only [sumBy_cons, ih]; omega

@[simp, grind =] theorem size_replace (l : List α) : (VecDiff.replace l).size = l.length + 1 := rfl
@[simp, grind =] theorem size_insertAt (i : Nat) (a : α) : (VecDiff.insertAt i a).size = 2 := rfl
@[simp, grind =] theorem size_updateAt (i : Nat) (a : α) : (VecDiff.updateAt i a).size = 2 := rfl
@[simp, grind =] theorem size_push (a : α) : (VecDiff.push a).size = 2 := rfl
@[simp, grind =] theorem size_removeAt (i : Nat) : (VecDiff.removeAt i : VecDiff α).size = 1 := rfl
@[simp, grind =] theorem size_move (i j : Nat) : (VecDiff.move i j : VecDiff α).size = 1 := rfl
@[simp, grind =] theorem size_pop : (VecDiff.pop : VecDiff α).size = 1 := rfl
@[simp, grind =] theorem size_clear : (VecDiff.clear : VecDiff α).size = 1 := rfl

@[simp] theorem vol_nil : vol ([] : List (VecDiff α)) = 0 := rfl
@[simp] theorem vol_cons (d : VecDiff α) (ds) : vol (d :: ds) = d.size + vol ds := rfl
@[simp] theorem vol_append (ds es : List (VecDiff α)) : vol (ds ++ es) = vol ds + vol es := sumBy_append _ _ _

/-- What the answer of a poll weighs. -/
def answer (c : β → Nat) : Poll (Option β) → Nat
  | .ready (some b) => c b
  | _ => 0

/-- What leaving a loop weighs. -/
def Stop.weight (c : ρ → Nat) : Stop ρ → Nat
  | .ret r => c r
  | _ => 0

theorem Src.poll_todo (w : Waker) (src : Src (Option α)) :
    items src.todo = items [(src.poll w).1] ++ items (src.poll w).2.todo := by
  obtain ⟨todo, hist⟩ := src
  match todo with
  | [] => rfl
  | .pending :: todo => rfl
  | .ready none :: todo => rfl
  | .ready (some a) :: todo => rfl

theorem Src.poll_weight (wt : α → Nat) {w : Waker} {src src' : Src (Option α)} {r : Poll (Option α)}
    (h : src.poll w = (r, src')) :
    answer wt r + sumBy wt (items src'.todo) = sumBy wt (items src.todo) ∧
    sumBy wt src'.got = sumBy wt src.got + answer wt r := by
  have h1 := src.poll_todo w
  have h2 := src.poll_got w
  rw [h] at h1 h2
  rw [h1, h2, sumBy_append, sumBy_append]
  match r with
  | .pending => exact ⟨rfl, rfl⟩
  | .ready none => exact ⟨rfl, rfl⟩
  | .ready (some a) => exact ⟨by simp [answer], by simp [answer]⟩

/-- The answer of an optional input. -/
def answer? (c : β → Nat) : Option (Poll (Option β)) → Nat
  | some r => answer c r
  | none => 0

theorem Inp.poll_weight (wt : α → Nat) {w : Waker} {i i' : Inp (Option α)} {r : Option (Poll (Option α))}
    (h : i.poll w = (r, i')) :
    answer? wt r + sumBy wt (items i'.src.todo) = sumBy wt (items i.src.todo) ∧
    sumBy wt i'.src.got = sumBy wt i.src.got + answer? wt r := by
  unfold Inp.poll at h
  split at h
  · split at h <;> (rename_i h1; cases h; have := Src.poll_weight wt h1; exact this)
  · cases h
    simp [answer?]

/-- Each item a loop takes pays, with `wt`, for the growth of the potential `φ` and for what the loop
returns. -/
def Pays (body : σ → α → Ctl σ ρ) (φ : σ → Nat) (c : ρ → Nat) (wt : α → Nat) : Prop :=
  ∀ s a, match body s a with
    | .cont s' => φ s' ≤ φ s + wt a
    | .ret s' r => c r + φ s' ≤ φ s + wt a
    | .panic => True

theorem pollLoop_weight {body : σ → α → Ctl σ ρ} (φ : σ → Nat) (c : ρ → Nat) (wt : α → Nat)
    (hb : Pays body φ c wt) {w : Waker} {src src' : Src (Option α)} {s s' : σ} {st : Stop ρ}
    (h : src.loop w body s = (st, s', src')) (hs : st ≠ .panic) :
    st.weight c + φ s' + sumBy wt (items src'.todo) ≤ φ s + sumBy wt (items src.todo) ∧
    sumBy wt src'.got + sumBy wt (items src'.todo) = sumBy wt src.got + sumBy wt (items src.todo) := by
  have key := pollLoop_rule (w := w) (body := body)
    (fun s1 src1 => φ s1 + sumBy wt (items src1.todo) ≤ φ s + sumBy wt (items src.todo) ∧
      sumBy wt src1.got + sumBy wt (items src1.todo) = sumBy wt src.got + sumBy wt (items src.todo))
    (fun st s1 src1 => st = .panic ∨
      st.weight c + φ s1 + sumBy wt (items src1.todo) ≤ φ s + sumBy wt (items src.todo) ∧
      sumBy wt src1.got + sumBy wt (items src1.todo) = sumBy wt src.got + sumBy wt (items src.todo))
    ?_ ?_ ?_ ?_ ?_ src s ⟨Nat.le_refl _, rfl⟩
  · rw [h] at key
    exact key.resolve_left hs
  · rintro s1 a t h s' ⟨h1, h2⟩ hc
    have := hb s1 a
    rw [hc] at this
    rw [got_snoc]
    simp only [items_some, sumBy_cons, Src.got, sumBy_append, items_nil, sumBy_nil] at *
    omega
  · rintro s1 a t h s' r ⟨h1, h2⟩ hc
    have := hb s1 a
    rw [hc] at this
    rw [got_snoc]
    simp only [items_some, sumBy_cons, Src.got, sumBy_append, items_nil, sumBy_nil, Stop.weight] at *
    omega
  · intros; exact .inl rfl
  · rintro s1 t h ⟨h1, h2⟩
    rw [got_snoc]
    simp only [items_none, Src.got, sumBy_append, items_nil, sumBy_nil, Stop.weight] at *
    omega
  · rintro s1 t t' h ⟨h1, h2⟩ ht
    rw [got_snoc]
    rcases ht with rfl | ⟨rfl, rfl⟩ <;>
      (simp only [items_pending, Src.got, sumBy_append, items_nil, sumBy_nil, Stop.weight] at *; omega)

theorem Inp.loop_weight {body : σ → α → Ctl σ ρ} (φ : σ → Nat) (c : ρ → Nat) (wt : α → Nat)
    (hb : Pays body φ c wt) {w : Waker} {i i' : Inp (Option α)} {s s' : σ} {st : Stop ρ}
    (h : i.loop w body s = (st, s', i')) (hs : st ≠ .panic) :
    st.weight c + φ s' + sumBy wt (items i'.src.todo) ≤ φ s + sumBy wt (items i.src.todo) ∧
    sumBy wt i'.src.got + sumBy wt (items i'.src.todo) = sumBy wt i.src.got + sumBy wt (items i.src.todo) := by
  unfold Inp.loop at h
  split at h
  · split at h
    · rename_i h1
      cases h
      exact pollLoop_weight φ c wt hb h1 hs
    · rename_i h1
      cases h
      exact pollLoop_weight φ c wt hb h1 hs
  · cases h
    simp [Stop.weight]

/-- If every poll is paid for by the potential `Φ` and what was taken from the inputs, `Ψ`, then so
is a run. -/
theorem run_weight {poll : Waker → σ → Option (Poll (Option β) × σ)} (c : β → Nat) (Φ Ψ : σ → Nat)
    (hstep : ∀ w s r s', poll w s = some (r, s') → answer c r + Φ s' + Ψ s ≤ Φ s + Ψ s')
    {ws : List Waker} {s0 s : σ} {outs : List (Poll (Option β))} (h : run poll ws s0 = some (outs, s)) :
    sumBy c (items outs) + Φ s + Ψ s0 ≤ Φ s0 + Ψ s := by
  induction ws generalizing s0 outs with
  | nil => cases h; simp
  | cons w ws ih =>
    unfold run at h
    split at h
    · cases h
    · rename_i s1 h1
      cases h
      have := hstep _ _ _ _ h1
      simp [answer] at this ⊢
      omega
    · rename_i r s1 hr h1
      split at h
      · cases h
      · rename_i rs s2 h2
        cases h
        have a1 := hstep _ _ _ _ h1
        have a2 := ih h2
        have : sumBy c (items (r :: rs)) = answer c r + sumBy c (items rs) := by
          match r with
          | .pending => simp [answer]
          | .ready none => simp [answer]
          | .ready (some a) => simp [answer]
        omega

/-! ## Lengths -/

theorem vInsert_length {l l' : List α} {i : Nat} {a : α} (h : vInsert l i a = some l') :
    l'.length = l.length + 1 := by
  obtain ⟨p, q, rfl, -, rfl⟩ := vInsert_eq_some.1 h
  simp; omega

theorem vInsert_total (f : α → Nat) {l l' : List α} {i : Nat} {a : α} (h : vInsert l i a = some l') :
    sumBy f l' = sumBy f l + f a := by
  obtain ⟨p, q, rfl, -, rfl⟩ := vInsert_eq_some.1 h
  simp; omega

theorem vRemove_total (f : α → Nat) {l l' : List α} {i : Nat} {a : α} (h : vRemove l i = some (a, l')) :
    sumBy f l = sumBy f l' + f a := by
  obtain ⟨p, q, rfl, -, rfl⟩ := vRemove_eq_some.1 h
  simp; omega

theorem vSet_total (f : α → Nat) {l l' : List α} {i : Nat} {a : α} (h : vSet l i a = some l') :
    sumBy f l' ≤ sumBy f l + f a := by
  obtain ⟨p, b, q, rfl, -, rfl⟩ := vSet_eq_some.1 h
  simp; omega

theorem vPop_total (f : α → Nat) {l l' : List α} {a : α} (h : vPop l = (some a, l')) :
    sumBy f l = sumBy f l' + f a := by
  obtain rfl | ⟨z, b, rfl⟩ := List.eq_nil_or_concat l
  · simp [vPop] at h
  · simp [vPop] at h
    obtain ⟨rfl, rfl⟩ := h
    simp

theorem set_total (f : α → Nat) (l : List α) (i : Nat) (a : α) : sumBy f (l.set i a) ≤ sumBy f l + f a := by
  induction l generalizing i with
  | nil => simp
  | cons b l ih =>
    cases i with
    | zero => simp; omega
    | succ i => simp only [List.set_cons_succ, sumBy_cons]; have := ih i; omega

grind_pattern vSet_total => vSet l i a, sumBy f l'
grind_pattern vRemove_total => vRemove l i, some (a, l'), sumBy f l
grind_pattern vInsert_total => vInsert l i a, sumBy f l'
grind_pattern set_total => sumBy f (l.set i a)

@[simp] theorem removesDesc_vol (off n : Nat) : vol (removesDesc off n : List (VecDiff α)) = n := by
  induction n with
  | zero => rfl
  | succ n ih => simp [removesDesc, ih]; omega

@[simp] theorem insertsFrom_vol (off : Nat) (l : List α) : vol (insertsFrom off l) = 2 * l.length := by
  induction l generalizing off with
  | nil => rfl
  | cons a l ih => simp [insertsFrom, ih]; omega

@[simp] theorem pops_vol (n : Nat) : vol (List.replicate n .pop : List (VecDiff α)) = n := by
  induction n with
  | zero => rfl
  | succ n ih => simp [List.replicate_succ, ih]; omega

@[simp] theorem pushes_vol (l : List α) : vol (l.map .push) = 2 * l.length := by
  induction l with
  | nil => rfl
  | cons a l ih => simp [ih]; omega

theorem mapS_length (f : κ → α → β × κ) (k : κ) (l : List α) : (mapS f k l).1.length = l.length := by
  induction l generalizing k with
  | nil => rfl
  | cons a l ih => simp [mapS, ih]

theorem VecDiff.mapS_size (f : κ → α → β × κ) (k : κ) (d : VecDiff α) : (d.mapS f k).1.size = d.size := by
  cases d <;> simp [VecDiff.mapS, mapS_length]

theorem filterMapS_le (f : κ → α → Option β × κ) (k : κ) (l : List α) :
    (filterMapS f k l).1.length ≤ l.length := by
  induction l generalizing k with
  | nil => simp [filterMapS]
  | cons a l ih =>
    simp only [filterMapS, List.length_append, List.length_cons]
    have := ih (f k a).2
    cases (f k a).1 <;> simp <;> omega

theorem enumValues_len (cells : Cells) (n : Nat) (l : List α) :
    (enumValues cells n l).1.length = l.length := by
  induction l generalizing cells n with
  | nil => rfl
  | cons a l ih => simp [enumValues, ih]

theorem enumChange_size {mutables mutables' : List Nat} {cells cells' : Cells} {d : VecDiff α}
    {e : VecDiff (Nat × α)} (h : enumChange mutables cells d = some (e, mutables', cells')) :
    e.size = d.size := by
  cases d <;> simp only [enumChange] at h <;> (repeat' split at h) <;> cases h <;>
    simp [enumValues_len]

theorem gather_length {values out : List α} {is : List Nat} (h : gather values is = some out) :
    out.length = is.length := by
  induction is generalizing out with
  | nil => cases h; rfl
  | cons i is ih =>
    unfold gather at h
    split at h
    · rename_i h1 h2
      cases h
      simp [ih h2]
    · cases h

theorem apply_size {d : VecDiff α} {xs ys : List α} (h : d.apply xs = some ys) :
    ys.length + 1 ≤ xs.length + d.size := by
  have := apply_eq_some.1 h
  cases this <;> simp  <;> omega

theorem updateLen_size {d : VecDiff α} {m n : Nat} (h : updateLen m d = some n) : n + 1 ≤ m + d.size := by
  cases d <;> simp only [updateLen] at * <;> (repeat' split at h) <;> cases h <;> simp <;> omega

/-! ## `filter_map` -/

theorem filterMapBody_size (f : κ → α → Option β × κ) (s : List Bool × κ) (d : VecDiff α) :
    match filterMapBody f s d with
    | .cont _ => True
    | .ret _ e => e.size ≤ d.size
    | .panic => True := by
  obtain ⟨ix, k⟩ := s
  cases d <;> simp only [filterMapBody] <;> (repeat' split) <;> grind [filterMapS_le]

/-! ## `sort_by_cloned` -/

/-- What the second change of `sort_by_cloned` weighs. -/
def pendWeight : Option (VecDiff α) → Nat
  | some d => d.size
  | none => 0

theorem sortInsertAt_size {indexes indexes' : List Nat} {i j : Nat} {a : α} {d : VecDiff α}
    (h : sortInsertAt indexes i j a = some (indexes', d)) : d.size = 2 := by
  unfold sortInsertAt at h
  (repeat' split at h) <;> cases h <;> rfl

theorem sortRemoveAt_size {indexes indexes' : List Nat} {i : Nat} {d : VecDiff α}
    (h : sortRemoveAt indexes i = some (indexes', d)) : d.size = 1 := by
  unfold sortRemoveAt at h
  (repeat' split at h) <;> cases h <;> rfl

theorem sortBody_size (S : SliceFns) (hS : ∀ c l, (S.sort c l).length = l.length)
    (cmp : α → α → Ordering) (s : List α × List Nat) (d : VecDiff α) :
    match sortBody S cmp s d with
    | .cont _ => True
    | .ret _ e => 2 * (e.1.size + pendWeight e.2) ≤ 3 * d.size
    | .panic => True := by
  obtain ⟨vs, ix⟩ := s
  split
  · trivial
  · rename_i e heq
    cases d <;> simp only [sortBody] at heq <;> (repeat' split at heq) <;> cases heq <;>
      simp_all [pendWeight] <;> grind [sortInsertAt_size, sortRemoveAt_size, gather_length]
  · trivial

/-! ## `chain` -/

/-- What `chain` still owes: the changes it keeps, and one removal for each element. -/
def VChain.owed (s : VChain α) : Nat := vol s.pending + s.leftLen + s.rightLen

/-- What `chain` took from its inputs. -/
def VChain.paid (s : VChain α) : Nat := 3 * (vol s.left.src.got + vol s.right.src.got)

/-- The weight of a change that may be there. -/
def change? : Option (VecDiff α) → Nat
  | some d => d.size
  | none => 0

theorem processRightChange_owed {c : Option (Poll (Option (VecDiff α)))} {s s' : VChain α}
    {o : Option (VecDiff α)} (h : s.processRightChange c = some (o, s')) :
    change? o + s'.owed ≤ s.owed + 3 * answer? VecDiff.size c ∧ s'.left = s.left ∧ s'.right = s.right := by
  unfold VChain.processRightChange at h
  simp only at h
  (repeat' (first | split at h | (dsimp only at h; split at h))) <;> cases h <;> simp [VChain.owed, change?, answer?, answer] <;> omega

theorem processReplace_owed {w : Waker} {vs : List α} {s s' : VChain α}
    {o : Option (VecDiff α)} (h : s.processReplace w vs = some (o, s')) :
    change? o + s'.owed + s.paid ≤ s.owed + s'.paid + 3 * (vs.length + 1) ∧ s'.left = s.left := by
  unfold VChain.processReplace at h
  rcases hr : s.right.poll w with ⟨c, right⟩
  obtain ⟨-, h2⟩ := Inp.poll_weight VecDiff.size hr
  rw [hr] at h
  have e : ∀ ds : List (VecDiff α), sumBy VecDiff.size ds = vol ds := fun _ => rfl
  simp only at h
  split at h
  · cases h
    simp [VChain.owed, VChain.paid, change?, answer?, answer, e] at h2 ⊢
    omega
  · split at h
    · cases h
    all_goals
      rename_i h3
      cases h
      obtain ⟨h4, h5, h6⟩ := processRightChange_owed h3
      revert h4 h5 h6
      split <;> intro h4 h5 h6 <;> simp [VChain.owed, VChain.paid, change?, h5, h6, e] at * <;> omega

theorem processClear_owed {w : Waker} {s s' : VChain α}
    {o : Option (VecDiff α)} (h : s.processClear w = some (o, s')) :
    change? o + s'.owed + s.paid ≤ s.owed + s'.paid + 3 ∧ s'.left = s.left := by
  unfold VChain.processClear at h
  rcases hr : s.right.poll w with ⟨c, right⟩
  obtain ⟨-, h2⟩ := Inp.poll_weight VecDiff.size hr
  rw [hr] at h
  have e : ∀ ds : List (VecDiff α), sumBy VecDiff.size ds = vol ds := fun _ => rfl
  simp only at h
  split at h
  · cases h
    simp [VChain.owed, VChain.paid, change?, answer?, answer, e] at h2 ⊢
    omega
  · split at h
    · cases h
    all_goals
      rename_i h3
      cases h
      obtain ⟨h4, h5, h6⟩ := processRightChange_owed h3
      revert h4 h5 h6
      split <;> intro h4 h5 h6 <;> simp [VChain.owed, VChain.paid, change?, h5, h6, e] at * <;> omega

theorem processLeftChange_owed {w : Waker} {d : VecDiff α} {s s' : VChain α}
    {o : Option (VecDiff α)} (h : s.processLeftChange w d = some (o, s')) :
    change? o + s'.owed + s.paid ≤ s.owed + s'.paid + 3 * d.size ∧ s'.left = s.left := by
  unfold VChain.processLeftChange at h
  split at h
  · simpa using processReplace_owed h
  rotate_right
  · simpa using processClear_owed h
  all_goals
    (repeat' (first | split at h | (dsimp only at h; split at h))) <;> cases h <;>
      simp [VChain.owed, VChain.paid, change?] <;> omega

theorem processLeft_owed {w : Waker} {s s' : VChain α}
    {o : Option (VecDiff α)} (h : s.processLeft w = some (o, s')) :
    change? o + s'.owed + s.paid ≤ s.owed + s'.paid := by
  unfold VChain.processLeft at h
  rcases hr : s.left.poll w with ⟨c, left⟩
  obtain ⟨-, h2⟩ := Inp.poll_weight VecDiff.size hr
  rw [hr] at h
  have e : ∀ ds : List (VecDiff α), sumBy VecDiff.size ds = vol ds := fun _ => rfl
  simp only at h
  split at h
  · obtain ⟨h3, h4⟩ := processLeftChange_owed h
    simp [VChain.owed, VChain.paid, answer?, answer, h4, e] at *
    omega
  all_goals
    cases h
    simp [VChain.owed, VChain.paid, answer?, answer, change?, e] at *
    omega

theorem processRight_owed {w : Waker} {s s' : VChain α}
    {o : Option (VecDiff α)} (h : s.processRight w = some (o, s')) :
    change? o + s'.owed + s.paid ≤ s.owed + s'.paid := by
  unfold VChain.processRight at h
  rcases hr : s.right.poll w with ⟨c, right⟩
  obtain ⟨-, h2⟩ := Inp.poll_weight VecDiff.size hr
  rw [hr] at h
  have e : ∀ ds : List (VecDiff α), sumBy VecDiff.size ds = vol ds := fun _ => rfl
  simp only at h
  obtain ⟨h3, h4, h5⟩ := processRightChange_owed h
  simp [VChain.owed, VChain.paid, h4, h5, e] at *
  omega

theorem VChain.poll_owed (w : Waker) (s : VChain α) (r : Poll (Option (VecDiff α))) (s' : VChain α)
    (h : s.poll w = some (r, s')) : answer VecDiff.size r + s'.owed + s.paid ≤ s.owed + s'.paid := by
  have pop : ∀ (s : VChain α) d rest, s.pending = d :: rest →
      d.size + VChain.owed { s with pending := rest } = s.owed := by
    intro s d rest h
    simp [VChain.owed, h]
    omega
  unfold VChain.poll at h
  split at h
  · rename_i h1
    cases h
    have := pop _ _ _ h1
    simp [answer, VChain.paid] at this ⊢
    omega
  · split at h
    · cases h
    · rename_i h1
      cases h
      exact processLeft_owed h1
    · rename_i h1
      have a1 := processLeft_owed h1
      split at h
      · rename_i h2
        cases h
        have := pop _ _ _ h2
        simp [answer, VChain.paid, change?] at *
        omega
      · split at h
        · cases h
        · rename_i h3
          cases h
          have a2 := processRight_owed h3
          simp [answer, change?] at *
          omega
        · rename_i h3
          have a2 := processRight_owed h3
          split at h
          · rename_i h4
            cases h
            have := pop _ _ _ h4
            simp [answer, VChain.paid, change?] at *
            omega
          · split at h <;> (cases h; simp [answer, change?] at *; omega)

/-! ## `flatten` -/

/-- What an inner list still may cost: the changes to come, and one removal for each element. -/
def FState.owed (s : FState ι β) : Nat := s.len + 3 * vol (items s.signalVec.src.todo)

/-- What `flatten` still owes. -/
def VFlatten.owed (s : VFlatten ι β) : Nat := vol s.pending + sumBy FState.owed s.inner

theorem FState.new_owed (g : ι → List (Poll (Option (VecDiff β)))) (t : ι) :
    (FState.new g t).owed = 3 * vol (items (g t)) := by
  simp [FState.new, FState.owed, Inp.mk', Src.mk']

theorem pollValues_owed {w : Waker} {s s' : FState ι β} {vs : List β}
    (h : s.pollValues w = some (vs, s')) : vs.length + s'.owed ≤ s.owed := by
  have hb : Pays pollValuesBody (fun s : Nat × List β => s.1 + s.2.length) (fun _ => 0)
      (fun d => 3 * d.size) := by
    intro s d
    unfold pollValuesBody
    (repeat' split) <;> rename_i heq <;> (repeat' split at heq) <;> cases heq <;> try trivial
    rename_i h1 _ _ h2
    have := updateLen_size h1
    have := apply_size h2
    simp
    omega
  unfold FState.pollValues at h
  split at h
  · cases h
  · cases h
  · rename_i h1 h2 h3
    cases h
    have := (Inp.loop_weight _ _ _ hb h3 h1).1
    simp only [sumBy_mul] at this
    simp [FState.owed, vol] at this ⊢
    omega

theorem pollAllValues_owed {w : Waker} {l l' : List (FState ι β)} {vs : List β}
    (h : pollAllValues w l = some (vs, l')) : vs.length + sumBy FState.owed l' ≤ sumBy FState.owed l := by
  induction l generalizing l' vs with
  | nil => cases h; simp
  | cons s l ih =>
    unfold pollAllValues at h
    (repeat' split at h) <;> cases h
    rename_i h1 _ _ _ h2
    have := pollValues_owed h1
    have := ih h2
    simp
    omega

theorem pollPending_owed {w : Waker} {n : Nat} {p p' : List (VecDiff β)} {s s' : FState ι β} {b : Bool}
    (h : s.pollPending w n p = some (b, p', s')) : vol p' + s'.owed ≤ vol p + s.owed := by
  have hb : Pays (pollPendingBody n) (fun s : Nat × List (VecDiff β) => s.1 + vol s.2) (fun _ => 0)
      (fun d => 3 * d.size) := by
    rintro ⟨len, p⟩ d
    unfold pollPendingBody
    cases d <;> simp only [updateLen] <;> (repeat' split) <;> grind [vol_append, vol_cons, vol_nil,
      removesDesc_vol, insertsFrom_vol]
  have fin : ∀ {st : Stop Empty} {len : Nat} {i : Inp (Option (VecDiff β))},
      s.signalVec.loop w (pollPendingBody n) (s.len, p) = (st, (len, p'), i) → st ≠ .panic →
      vol p' + (FState.mk s.tag i len).owed ≤ vol p + s.owed := by
    intro st len i h1 h2
    have := (Inp.loop_weight _ _ _ hb h1 h2).1
    simp only [sumBy_mul] at this
    simp only [FState.owed]
    unfold vol at *
    omega
  unfold FState.pollPending at h
  split at h <;> cases h
  all_goals exact fin (by assumption) (by simp)

theorem pollAllPending_owed {w : Waker} {n : Nat} {p p' : List (VecDiff β)} {l l' : List (FState ι β)}
    {b : Bool} (h : pollAllPending w n p l = some (b, p', l')) :
    vol p' + sumBy FState.owed l' ≤ vol p + sumBy FState.owed l := by
  induction l generalizing l' p n b with
  | nil => cases h; simp
  | cons s l ih =>
    unfold pollAllPending at h
    (repeat' split at h) <;> cases h
    rename_i h1 _ _ _ h2
    have := pollPending_owed h1
    have := ih h2
    simp
    omega

theorem flattenBody_owed (g : ι → List (Poll (Option (VecDiff β)))) (w : Waker) :
    Pays (flattenBody g w) (sumBy FState.owed) VecDiff.size (flattenCost g) := by
  intro l d
  have hn := FState.new_owed g
  cases d <;> simp only [flattenBody]
  case replace ts =>
    split <;> rename_i heq <;> split at heq <;> cases heq <;> try trivial
    rename_i h1
    have := pollAllValues_owed h1
    rw [sumBy_map] at this
    simp [flattenCost, VecDiff.payload, hn] at this ⊢
    omega
  case insertAt i t =>
    split <;> rename_i heq <;> split at heq <;> cases heq <;> try trivial
    rename_i h1
    have := vInsert_total FState.owed h1
    simp [flattenCost, VecDiff.payload, hn] at this ⊢
    omega
  case updateAt i t =>
    split <;> rename_i heq <;> split at heq <;> cases heq <;> try trivial
    rename_i h1
    have := vSet_total FState.owed h1
    simp [flattenCost, VecDiff.payload, hn] at this ⊢
    omega
  case removeAt i =>
    split <;> rename_i heq <;> split at heq <;> cases heq <;> try trivial
    rename_i h1
    have := vRemove_total FState.owed h1
    omega
  case move i j =>
    split <;> rename_i heq <;> (repeat' split at heq) <;> cases heq <;> try trivial
    rename_i h1 _ h2
    have := vRemove_total FState.owed h1
    have := vInsert_total FState.owed h2
    omega
  case push t => simp [flattenCost, VecDiff.payload, hn]
  case pop =>
    split <;> rename_i heq <;> (repeat' split at heq) <;> cases heq <;> try trivial
    rename_i h1
    have := vPop_total FState.owed h1
    omega
  case clear => simp [flattenCost, VecDiff.payload]

theorem VFlatten.poll_owed (g : ι → List (Poll (Option (VecDiff β)))) (w : Waker) (s : VFlatten ι β)
    (r : Poll (Option (VecDiff β))) (s' : VFlatten ι β) (h : s.poll g w = some (r, s')) :
    answer VecDiff.size r + s'.owed + sumBy (flattenCost g) s.signal.src.got ≤
      s.owed + sumBy (flattenCost g) s'.signal.src.got := by
  have fin : ∀ {b : Bool} {i : Inp (Option (VecDiff ι))} {l : List (FState ι β)},
      VFlatten.finish w b i l = some (r, s') →
      answer VecDiff.size r + s'.owed ≤ sumBy FState.owed l ∧ s'.signal = i := by
    intro b i l h
    unfold VFlatten.finish at h
    split at h
    · cases h
    · rename_i h1
      cases h
      have := pollAllPending_owed h1
      simp [answer, VFlatten.owed] at this ⊢
      omega
    · rename_i h1
      have := pollAllPending_owed h1
      split at h <;> cases h <;> (simp [answer, VFlatten.owed] at this ⊢; omega)
  unfold VFlatten.poll at h
  split at h
  · rename_i h1
    cases h
    simp [answer, VFlatten.owed, h1]
    omega
  · rename_i hp
    split at h
    · cases h
    all_goals
      rename_i h1
      have h2 := Inp.loop_weight _ _ _ (flattenBody_owed g w) h1 (by simp)
    · cases h
      simp [answer, VFlatten.owed, hp, Stop.weight] at h2 ⊢
      omega
    all_goals
      obtain ⟨h3, h4⟩ := fin h
      simp [VFlatten.owed, hp, Stop.weight, h4] at h2 h3 ⊢
      omega

/-! ## `map_signal` -/

/-- What an inner signal still may cost. -/
def MState.owed (s : MState ι β) : Nat := 2 * (items s.sig.src.todo).length

/-- What `map_signal` still owes. -/
def VMapSignal.owed (s : VMapSignal ι β) : Nat := vol s.pending + sumBy MState.owed s.signals

theorem unwrapPoll_eq {r : Poll (Option α)} {a : α} (h : unwrapPoll r = some a) : r = .ready (some a) := by
  match r with
  | .pending => cases h
  | .ready none => cases h
  | .ready (some b) => cases h; rfl

theorem MState.new_owed {g : ι → List (Poll (Option β))} {w : Waker} {t : ι} {b : β} {s : MState ι β}
    (h : MState.new g w t = some (b, s)) : 2 + s.owed = 2 * (items (g t)).length := by
  unfold MState.new at h
  split at h
  rename_i h1
  split at h
  · cases h
  · rename_i h2
    cases h
    have := (Src.poll_weight (fun _ => 1) h1).1
    rw [unwrapPoll_eq h2, sumBy_one, sumBy_one] at this
    simp [answer, MState.owed, Src.mk'] at this ⊢
    omega

theorem mapNewAll_owed {g : ι → List (Poll (Option β))} {w : Waker} {ts : List ι} {bs : List β}
    {l : List (MState ι β)} (h : mapNewAll g w ts = some (bs, l)) :
    bs.length + sumBy MState.owed l ≤ sumBy (fun t => 2 * (items (g t)).length) ts := by
  induction ts generalizing bs l with
  | nil => cases h; simp
  | cons t ts ih =>
    unfold mapNewAll at h
    (repeat' split at h) <;> cases h
    rename_i h1 _ _ _ h2
    have := MState.new_owed h1
    have := ih h2
    simp
    omega

theorem mapSignalBody_owed (g : ι → List (Poll (Option β))) (w : Waker) :
    Pays (mapSignalBody g w) (fun s => vol s.2 + sumBy MState.owed s.1) (fun _ => 0) (signalsCost g) := by
  rintro ⟨l, p⟩ d
  split
  · rename_i s' heq
    cases d <;> simp only [mapSignalBody] at heq <;> (repeat' split at heq) <;> cases heq <;>
      simp [signalsCost, VecDiff.payload] <;>
      grind [MState.new_owed, → mapNewAll_owed, vPop_total]
  · rename_i r _; exact r.elim
  · trivial

theorem Inp.poll_length {w : Waker} {i i' : Inp (Option α)} {r : Option (Poll (Option α))}
    (h : i.poll w = (r, i')) : answer? (fun _ => 1) r + (items i'.src.todo).length = (items i.src.todo).length := by
  have := (Inp.poll_weight (fun _ => 1) h).1
  rwa [sumBy_one, sumBy_one] at this

theorem pollSignals_owed {w : Waker} {n : Nat} {p p' : List (VecDiff β)} {l l' : List (MState ι β)}
    {b : Bool} (h : pollSignals w n p l = (b, p', l')) :
    vol p' + sumBy MState.owed l' ≤ vol p + sumBy MState.owed l := by
  induction l generalizing l' p n b with
  | nil => cases h; simp
  | cons s l ih =>
    unfold pollSignals at h
    split at h
    all_goals
      rename_i h1
      have h1 := Inp.poll_length h1
      cases h
      have := ih (n := n + 1) rfl
      simp [answer?, answer, MState.owed] at h1 this ⊢
      omega

theorem VMapSignal.poll_owed (g : ι → List (Poll (Option β))) (w : Waker) (s : VMapSignal ι β)
    (r : Poll (Option (VecDiff β))) (s' : VMapSignal ι β) (h : s.poll g w = some (r, s')) :
    answer VecDiff.size r + s'.owed + sumBy (signalsCost g) s.signal.src.got ≤
      s.owed + sumBy (signalsCost g) s'.signal.src.got := by
  have fin : ∀ {b : Bool} {i : Inp (Option (VecDiff ι))} {l : List (MState ι β)} {p : List (VecDiff β)},
      VMapSignal.finish w b i l p = (r, s') →
      answer VecDiff.size r + s'.owed ≤ vol p + sumBy MState.owed l ∧ s'.signal = i := by
    intro b i l p h
    unfold VMapSignal.finish at h
    split at h
    · rename_i h1
      cases h
      have := pollSignals_owed h1
      simp [answer, VMapSignal.owed] at this ⊢
      omega
    · rename_i h1
      have := pollSignals_owed h1
      split at h <;> cases h <;> (simp [answer, VMapSignal.owed] at this ⊢; omega)
  unfold VMapSignal.poll at h
  split at h
  · rename_i h1
    cases h
    simp [answer, VMapSignal.owed, h1]
    omega
  · rename_i hp
    split at h
    · cases h
    · cases h
    all_goals
      rename_i h1
      have h2 := Inp.loop_weight _ _ _ (mapSignalBody_owed g w) h1 (by simp)
      obtain ⟨h3, h4⟩ := fin (Option.some.inj h)
      simp [VMapSignal.owed, hp, Stop.weight, h4] at h2 h3 ⊢
      omega

/-! ## `filter_signal_cloned` -/

/-- What an inner signal still may cost. -/
def FCState.owed (s : FCState α) : Nat := 2 * (items s.signal.src.todo).length

/-- What `filter_signal_cloned` still owes. -/
def VFilterSignal.owed (s : VFilterSignal α) : Nat := vol s.pending + sumBy FCState.owed s.signals

theorem FCState.new_owed {g : α → List (Poll (Option Bool))} {w : Waker} {t : α} {s : FCState α}
    (h : FCState.new g w t = some s) : 2 + s.owed = 2 * (items (g t)).length := by
  unfold FCState.new at h
  split at h
  rename_i h1
  split at h
  · cases h
  · rename_i h2
    cases h
    have := (Src.poll_weight (fun _ => 1) h1).1
    rw [unwrapPoll_eq h2, sumBy_one, sumBy_one] at this
    simp [answer, FCState.owed, Src.mk'] at this ⊢
    omega

theorem fcNewAll_owed {g : α → List (Poll (Option Bool))} {w : Waker} {ts bs : List α}
    {l : List (FCState α)} (h : fcNewAll g w ts = some (bs, l)) :
    bs.length + sumBy FCState.owed l ≤ sumBy (fun t => 2 * (items (g t)).length) ts := by
  induction ts generalizing bs l with
  | nil => cases h; simp
  | cons t ts ih =>
    unfold fcNewAll at h
    split at h
    · cases h
    · rename_i s h1
      split at h
      · cases h
      · rename_i vs ss h2
        cases h
        have := FCState.new_owed h1
        have := ih h2
        have : (if s.isIn = true then t :: vs else vs).length ≤ vs.length + 1 := by split <;> simp
        simp
        omega

theorem filterSignalBody_owed (g : α → List (Poll (Option Bool))) (w : Waker) :
    Pays (filterSignalBody g w) (fun s => vol s.2 + sumBy FCState.owed s.1) (fun _ => 0) (signalsCost g) := by
  rintro ⟨l, p⟩ d
  split
  · rename_i s' heq
    cases d <;> simp only [filterSignalBody] at heq <;> (repeat' split at heq) <;> cases heq <;>
      simp [signalsCost, VecDiff.payload] <;>
      grind [FCState.new_owed, → fcNewAll_owed, vPop_total]
  · rename_i r _; exact r.elim
  · trivial

theorem drain_owed (w : Waker) (s : FCState α) :
    (if (s.drain w).2.isIn ≠ s.isIn then 2 else 0) + (s.drain w).2.owed ≤ s.owed := by
  have hb : Pays (fun (_ : Bool) (b : Bool) => (Ctl.cont b : Ctl Bool Empty))
      (fun b => if b ≠ s.isIn then 2 else 0) (fun _ => 0) (fun _ => 2) := by
    intro a b
    show (if b ≠ s.isIn then 2 else 0) ≤ (if a ≠ s.isIn then 2 else 0) + 2
    split <;> omega
  have np : (s.signal.loop w (fun (_ : Bool) (b : Bool) => (Ctl.cont b : Ctl Bool Empty)) s.isIn).1 ≠ .panic := by
    unfold Inp.loop Src.loop
    have key := pollLoop_rule (w := w) (body := fun (_ : Bool) (b : Bool) => (Ctl.cont b : Ctl Bool Empty))
      (fun _ _ => True) (fun st _ _ => st ≠ .panic) (by simp) (by simp) (by simp) (by simp) (by simp)
      s.signal.src s.isIn trivial
    unfold Src.loop at key
    split
    · split
      · simp
      · rename_i h1
        rw [h1] at key
        exact key
    · simp
  rcases hl : s.signal.loop w (fun (_ : Bool) (b : Bool) => (Ctl.cont b : Ctl Bool Empty)) s.isIn with ⟨st, b, i⟩
  rw [hl] at np
  have h2 := (Inp.loop_weight _ _ _ hb hl np).1
  rw [sumBy_const, sumBy_const] at h2
  unfold FCState.drain
  rw [hl]
  simp at h2
  cases st <;> simp [FCState.owed] <;> omega

theorem drainSignals_owed (w : Waker) (n : Nat) (p : List (VecDiff α)) (l : List (FCState α)) :
    vol (drainSignals w n p l).2.1 + sumBy FCState.owed (drainSignals w n p l).2.2 ≤
      vol p + sumBy FCState.owed l := by
  induction l generalizing p n with
  | nil => simp [drainSignals]
  | cons s l ih =>
    have h1 := drain_owed w s
    simp only [drainSignals, sumBy_cons]
    have key : ∀ n' p', vol p' ≤ vol p + (if (s.drain w).2.isIn ≠ s.isIn then 2 else 0) →
        vol (drainSignals w n' p' l).2.1 + ((s.drain w).2.owed + sumBy FCState.owed (drainSignals w n' p' l).2.2) ≤
          vol p + (s.owed + sumBy FCState.owed l) := by
      intro n' p' h
      have := ih n' p'
      omega
    apply key
    (repeat' split) <;> simp

theorem VFilterSignal.poll_owed (g : α → List (Poll (Option Bool))) (w : Waker) (s : VFilterSignal α)
    (r : Poll (Option (VecDiff α))) (s' : VFilterSignal α) (h : s.poll g w = some (r, s')) :
    answer VecDiff.size r + s'.owed + sumBy (signalsCost g) s.signal.src.got ≤
      s.owed + sumBy (signalsCost g) s'.signal.src.got := by
  have fin : ∀ {b : Bool} {i : Inp (Option (VecDiff α))} {l : List (FCState α)} {p : List (VecDiff α)},
      VFilterSignal.finish w b i l p = (r, s') →
      answer VecDiff.size r + s'.owed ≤ vol p + sumBy FCState.owed l ∧ s'.signal = i := by
    intro b i l p h
    have h0 := drainSignals_owed w 0 p l
    unfold VFilterSignal.finish at h
    split at h
    · rename_i h1
      rw [h1] at h0
      cases h
      simp [answer, VFilterSignal.owed] at h0 ⊢
      omega
    · rename_i h1
      rw [h1] at h0
      split at h <;> cases h <;> (simp [answer, VFilterSignal.owed] at h0 ⊢; omega)
  unfold VFilterSignal.poll at h
  split at h
  · rename_i h1
    cases h
    simp [answer, VFilterSignal.owed, h1]
    omega
  · rename_i hp
    split at h
    · cases h
    · cases h
    all_goals
      rename_i h1
      have h2 := Inp.loop_weight _ _ _ (filterSignalBody_owed g w) h1 (by simp)
      obtain ⟨h3, h4⟩ := fin (Option.some.inj h)
      simp [VFilterSignal.owed, hp, Stop.weight, h4] at h2 h3 ⊢
      omega

end Verif
