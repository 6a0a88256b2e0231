import Verif.VolumeProofs

/-!
# Volume of changes: lemmas, continued
-/

namespace Verif

variable {α β ι κ σ ρ τ : Type}

@[simp] theorem answer_some (c : β → Nat) (b : β) : answer c (.ready (some b)) = c b := rfl
@[simp] theorem answer_none (c : β → Nat) : answer c (.ready none) = 0 := rfl
@[simp] theorem answer_pending (c : β → Nat) : answer c .pending = 0 := rfl
@[simp] theorem answer?_some (c : β → Nat) (r : Poll (Option β)) : answer? c (some r) = answer c r := rfl
@[simp] theorem answer?_none (c : β → Nat) : answer? c none = 0 := rfl

/-! ## `delay_remove` -/

/-- What the local variables owe: the changes collected, and one removal for each element. -/
def DVars.owed (v : DVars α) : Nat := vol v.newPending + v.futures.length

/-- What `delay_remove` still owes. -/
def VDelay.owed (s : VDelay α) : Nat := vol s.pending + s.futures.length

theorem vRemove_length {l l' : List α} {i : Nat} {a : α} (h : vRemove l i = some (a, l')) :
    l.length = l'.length + 1 := by
  have := vRemove_total (fun _ => 1) h
  rwa [sumBy_one, sumBy_one] at this

theorem vPop_length {l l' : List α} {a : α} (h : vPop l = (some a, l')) : l.length = l'.length + 1 := by
  have := vPop_total (fun _ => 1) h
  rwa [sumBy_one, sumBy_one] at this

theorem vSet_length {l l' : List α} {i : Nat} {a : α} (h : vSet l i a = some l') : l'.length = l.length := by
  obtain ⟨p, b, q, rfl, -, rfl⟩ := vSet_eq_some.1 h
  simp

theorem removeIndex_owed {v v' : DVars α} {i : Nat} (h : v.removeIndex i = some v') : v'.owed = v.owed := by
  unfold DVars.removeIndex at h
  (repeat' split at h) <;> cases h
  · rename_i h1
    have := vPop_length h1
    simp [DVars.owed]
    omega
  · rename_i h1
    have := vRemove_length h1
    simp [DVars.owed]
    omega

theorem removeAll_owed {v v' : DVars α} {is : List Nat} (h : v.removeAll is = some v') : v'.owed = v.owed := by
  induction is generalizing v with
  | nil => cases h; rfl
  | cons i is ih =>
    unfold DVars.removeAll at h
    split at h
    · rename_i h1
      rw [ih h, removeIndex_owed h1]
    · cases h

theorem markExisting_len (w : Waker) (l : List (DState α)) : (markExisting w l).length = l.length := by
  induction l with
  | nil => rfl
  | cons s l ih => unfold markExisting; split <;> simp [ih]

theorem pollRemoving_len (w : Waker) (l : List (DState α)) : (pollRemoving w l).1.length = l.length := by
  induction l with
  | nil => rfl
  | cons s l ih => unfold pollRemoving; simp only; (repeat' split) <;> simp [ih]

theorem removeExisting_owed {w : Waker} {v v' : DVars α} (h : v.removeExisting w = some v') :
    v'.owed = v.owed := by
  rw [removeAll_owed h]
  simp [DVars.owed, markExisting_len]

theorem removeOne_owed {w : Waker} {v v' : DVars α} {i : Nat} (h : v.removeOne w i = some v') :
    v'.owed = v.owed := by
  unfold DVars.removeOne at h
  split at h
  · cases h
  · split at h
    · cases h
    · rw [removeIndex_owed h]; simp [DVars.owed]
    · cases h; simp [DVars.owed]

theorem delayBody_owed (g : α → List (Poll Unit)) (w : Waker) :
    Pays (delayBody g w) DVars.owed (fun _ => 0) (fun d => 3 * d.size) := by
  intro v d
  split
  · rename_i s' heq
    cases d <;> simp only [delayBody] at heq
    case replace vs =>
      split at heq
      · cases heq; simp [DVars.owed]; omega
      · split at heq <;> cases heq
        rename_i h1
        have := removeExisting_owed h1
        simp [DVars.owed] at this ⊢
        omega
    case insertAt =>
      split at heq <;> cases heq
      rename_i h1
      have := vInsert_length h1
      simp [DVars.owed]
      omega
    case push => cases heq; simp [DVars.owed]; omega
    case updateAt =>
      (repeat' split at heq) <;> cases heq
      rename_i h1
      have := vSet_length h1
      simp [DVars.owed]
      omega
    case move =>
      (repeat' split at heq) <;> cases heq
      rename_i h1 _ _ h2
      have := vRemove_length h1
      have := vInsert_length h2
      simp [DVars.owed]
      omega
    case removeAt =>
      split at heq
      · cases heq
      · unfold goOn at heq
        split at heq <;> cases heq
        rename_i h1
        rw [removeOne_owed h1]
        omega
    case pop =>
      split at heq
      · cases heq
      · unfold goOn at heq
        split at heq <;> cases heq
        rename_i h1
        rw [removeOne_owed h1]
        omega
    case clear =>
      unfold goOn at heq
      split at heq <;> cases heq
      rename_i h1
      rw [removeExisting_owed h1]
      omega
  · rename_i r _; exact r.elim
  · trivial

theorem VDelay.poll_owed (g : α → List (Poll Unit)) (w : Waker) (s : VDelay α)
    (r : Poll (Option (VecDiff α))) (s' : VDelay α) (h : s.poll g w = some (r, s')) :
    answer VecDiff.size r + s'.owed + 3 * vol s.signal.src.got ≤ s.owed + 3 * vol s'.signal.src.got := by
  have fin : ∀ {b : Bool} {i : Inp (Option (VecDiff α))} {v : DVars α},
      VDelay.finish w b i v = some (r, s') → answer VecDiff.size r + s'.owed = v.owed ∧ s'.signal = i := by
    intro b i v h
    unfold VDelay.finish at h
    split at h
    rename_i h0
    have hl := pollRemoving_len w v.futures
    rw [h0] at hl
    split at h
    · cases h
    · rename_i h1
      have h2 := removeAll_owed h1
      simp [DVars.owed, hl] at h2 ⊢
      (repeat' split at h) <;> cases h <;> simp_all [VDelay.owed] <;> omega
  unfold VDelay.poll at h
  split at h
  · rename_i h1
    cases h
    simp [VDelay.owed, h1]
    omega
  · rename_i hp
    have e : ∀ ds : List (VecDiff α), sumBy VecDiff.size ds = vol ds := fun _ => rfl
    split at h
    rotate_right
    · cases h
    all_goals
      rename_i h1
      have h2 := Inp.loop_weight _ _ _ (delayBody_owed g w) h1 (by simp)
      obtain ⟨h3, h4⟩ := fin h
      simp only [sumBy_mul, e] at h2
      simp [VDelay.owed, DVars.owed, hp, Stop.weight, h4] at h2 h3 ⊢
      omega

/-! ## `switch_signal_vec` -/

/-- What `switch_signal_vec` still owes. -/
def VSwitch.owed (s : VSwitch τ α) : Nat := vol (items s.inner.src.todo)

theorem VSwitch.poll_owed (g : τ → List (Poll (Option (VecDiff α)))) (w : Waker) (s : VSwitch τ α)
    (r : Poll (Option (VecDiff α))) (s' : VSwitch τ α) (h : s.poll g w = some (r, s')) :
    answer VecDiff.size r + s'.owed + sumBy (switchCost g) s.signal.src.got ≤
      s.owed + sumBy (switchCost g) s'.signal.src.got := by
  have e : ∀ ds : List (VecDiff α), sumBy VecDiff.size ds = vol ds := fun _ => rfl
  have nsv : ∀ n, answer VecDiff.size (newSignalVec n : Poll (Option (VecDiff α)) × Nat).1 ≤ 1 := by
    intro n
    unfold newSignalVec
    split <;> simp
  have fin : ∀ {b : Bool} {v : Option τ} {i : Inp (Option τ)},
      VSwitch.finish g w b v i s = some (r, s') →
      answer VecDiff.size r + s'.owed ≤ (match v with | some t => switchCost g t | none => s.owed) ∧
        s'.signal = i := by
    intro b v i h
    unfold VSwitch.finish at h
    split at h
    · rename_i t
      rcases hp : (Inp.mk' (g t)).poll w with ⟨a, inner⟩
      have h1 := (Inp.poll_weight VecDiff.size hp).1
      rw [hp] at h
      simp only [e, Inp.mk', Src.mk'] at h1
      have := nsv s.len
      generalize newSignalVec s.len = q at h this
      obtain ⟨q1, q2⟩ := q
      clear nsv
      split at h
      · cases h
        simp_all [VSwitch.owed, switchCost]
      · split at h
        · split at h <;> cases h
          simp_all [VSwitch.owed, switchCost]
        · split at h <;> cases h
          rename_i h2
          have := apply_size h2
          simp_all [VSwitch.owed, switchCost]
          omega
      · split at h <;> cases h <;> simp_all [VSwitch.owed, switchCost] <;> omega
    · rcases hp : s.inner.poll w with ⟨a, inner⟩
      have h1 := (Inp.poll_weight VecDiff.size hp).1
      rw [hp] at h
      simp only [e] at h1
      split at h
      · cases h
        simp_all [VSwitch.owed]
      · split at h <;> cases h
        simp_all [VSwitch.owed]
      · split at h <;> cases h <;> simp_all [VSwitch.owed] <;> omega
  have hb : Pays (lastValue : Option τ → τ → Ctl (Option τ) Empty)
      (fun v => match v with | some t => switchCost g t | none => s.owed) (fun _ => 0) (switchCost g) := by
    intro v t
    simp [lastValue]
  unfold VSwitch.poll at h
  split at h
  rotate_right
  · cases h
  all_goals
    rename_i h1
    have h2 := Inp.loop_weight _ _ _ hb h1 (by simp)
    obtain ⟨h3, h4⟩ := fin h
    simp [Stop.weight, h4] at h2 h3 ⊢
    omega

/-! ## Runs that answer each item with one of the same size -/

theorem run_sizes {poll : Waker → σ → Option (Poll (Option β) × σ)} (c : β → Nat) (Ψ : σ → List Nat)
    (hstep : ∀ w s r s', poll w s = some (r, s') → Ψ s' = Ψ s ++ (items [r]).map c)
    {ws : List Waker} {s0 s : σ} {outs : List (Poll (Option β))} (h : run poll ws s0 = some (outs, s)) :
    Ψ s = Ψ s0 ++ (items outs).map c := by
  induction ws generalizing s0 outs with
  | nil => cases h; simp
  | cons w ws ih =>
    unfold run at h
    split at h
    · cases h
    · rename_i s1 h1
      cases h
      exact hstep _ _ _ _ h1
    · rename_i r s1 hr h1
      split at h
      · cases h
      · rename_i rs s2 h2
        cases h
        rw [ih h2, hstep _ _ _ _ h1, List.append_assoc, ← List.map_append, ← items_append]
        rfl

/-! ## Signals made from lists -/

/-- One if something is to be sent. -/
def flag (b : Bool) : Nat := if b then 1 else 0

@[simp] theorem flag_true : flag true = 1 := rfl
@[simp] theorem flag_false : flag false = 0 := rfl
theorem flag_le (b : Bool) : flag b ≤ 1 := by cases b <;> simp

/-- A loop that never returns and notes at most whether something changed. -/
theorem pays_flag {body : σ → α → Ctl σ Empty} (φ : σ → Bool) : Pays body (fun s => flag (φ s)) (fun _ => 0) (fun _ => 1) := by
  intro s a
  split
  · rename_i s' _
    have := flag_le (φ s')
    show flag (φ s') ≤ flag (φ s) + 1
    omega
  · rename_i r _; exact r.elim
  · trivial

theorem Inp.loop_flag {body : σ → α → Ctl σ Empty} (φ : σ → Bool) {w : Waker} {i i' : Inp (Option α)}
    {s s' : σ} {st : Stop Empty} (h : i.loop w body s = (st, s', i')) (hs : st ≠ .panic) :
    flag (φ s') + i.src.got.length ≤ flag (φ s) + i'.src.got.length := by
  have := Inp.loop_weight _ _ _ (pays_flag φ) h hs
  simp only [sumBy_one] at this
  omega

theorem Src.loop_flag {body : σ → α → Ctl σ Empty} (φ : σ → Bool) {w : Waker} {i i' : Src (Option α)}
    {s s' : σ} {st : Stop Empty} (h : i.loop w body s = (st, s', i')) (hs : st ≠ .panic) :
    flag (φ s') + i.got.length ≤ flag (φ s) + i'.got.length := by
  have := pollLoop_weight _ _ _ (pays_flag φ) h hs
  simp only [sumBy_one] at this
  omega

theorem VToSignal.poll_count (callback : List α → β) (w : Waker) (s : VToSignal α) (r : Poll (Option β))
    (s' : VToSignal α) (h : s.poll callback w = some (r, s')) :
    answer (fun _ => 1) r + flag s'.first + s.signal.src.got.length ≤
      flag s.first + s'.signal.src.got.length := by
  unfold VToSignal.poll at h
  split at h
  · cases h
  · cases h
  · rename_i h0 _ h1
    have h2 := Inp.loop_flag (fun s : List α × Bool => s.2) h1 h0
    (repeat' split at h) <;> cases h <;> simp_all <;> grind [flag_true, flag_false]

theorem VSum.poll_count (add : α → α → α) (zero : α) (w : Waker) (s : VToSignal α) (r : Poll (Option α))
    (s' : VToSignal α) (h : VSum.poll add zero w s = some (r, s')) :
    answer (fun _ => 1) r + flag s'.first + s.signal.src.got.length ≤
      flag s.first + s'.signal.src.got.length := by
  unfold VSum.poll at h
  split at h
  · cases h
  · cases h
  · rename_i h0 _ h1
    have h2 := Inp.loop_flag (fun s : List α × Bool => s.2) h1 h0
    (repeat' split at h) <;> cases h <;> simp_all <;> grind [flag_true, flag_false]

theorem VLen.poll_count (w : Waker) (s : VLen α) (r : Poll (Option Nat))
    (s' : VLen α) (h : s.poll w = some (r, s')) :
    answer (fun _ => 1) r + flag s'.first + s.signal.src.got.length ≤
      flag s.first + s'.signal.src.got.length := by
  unfold VLen.poll at h
  split at h
  · cases h
  · cases h
  · rename_i h0 _ h1
    have h2 := Inp.loop_flag (fun s : Nat × Bool => s.2) h1 h0
    (repeat' split at h) <;> cases h <;> simp_all <;> grind [flag_true, flag_false]

theorem VIsEmpty.poll_count (w : Waker) (s : VIsEmpty α) (r : Poll (Option Bool))
    (s' : VIsEmpty α) (h : s.poll w = some (r, s')) :
    answer (fun _ => 1) r + flag s'.len.first + s.len.signal.src.got.length ≤
      flag s.len.first + s'.len.signal.src.got.length := by
  unfold VIsEmpty.poll at h
  split at h
  · cases h
  all_goals
    rename_i h1
    have := VLen.poll_count _ _ _ _ h1
    try dsimp only at h
    (repeat' split at h) <;> cases h <;> simp_all <;> omega

/-! ## Signals -/

/-- What the inner signal of `flatten` may still send. -/
def SFlatten.owed (m : SFlatten ι β) : Nat :=
  match m.inner with
  | some i => (items i.src.todo).length
  | none => 0

theorem SFlatten.poll_count (g : ι → List (Poll (Option β))) (w : Waker) (s : SFlatten ι β) (r : Poll (Option β))
    (s' : SFlatten ι β) (h : s.poll g w = some (r, s')) :
    answer (fun _ => 1) r + s'.owed + sumBy (fun t => (items (g t)).length) s.signal.src.got ≤
      s.owed + sumBy (fun t => (items (g t)).length) s'.signal.src.got := by
  have inner : ∀ (b : Bool) (m : SFlatten ι β),
      answer (fun _ => 1) (SFlatten.pollInner w b m).1 + (SFlatten.pollInner w b m).2.owed ≤ m.owed ∧
        (SFlatten.pollInner w b m).2.signal = m.signal := by
    intro b m
    unfold SFlatten.pollInner
    split
    · rename_i i hi
      split
      · split <;> simp [SFlatten.owed]
      · rename_i hp
        have := (Src.poll_weight (fun _ => 1) hp).1
        rw [sumBy_one, sumBy_one] at this
        simp [SFlatten.owed, hi]
        omega
    · split <;> simp
  unfold SFlatten.poll at h
  split at h
  all_goals
    rename_i h1
    have h1 := (Inp.poll_weight (fun t => (items (g t)).length) h1).2
    have h := Option.some.inj h
    rw [← Prod.eta (SFlatten.pollInner _ _ _)] at h
    cases h
    have := inner
    grind [SFlatten.owed, answer_some, answer_none, answer_pending, answer?_some, answer?_none, Made.new, Src.mk']

/-- One if there is something. -/
def some? : Option α → Nat
  | some _ => 1
  | none => 0

theorem SMapFuture.poll_count (g : α → List (Poll β)) (w : Waker) (s : SMapFuture α β)
    (r : Poll (Option (Option β))) (s' : SMapFuture α β) (h : s.poll g w = some (r, s')) :
    answer (fun _ => 1) r + (flag s'.first + some? s'.future) + s.signal.src.got.length ≤
      flag s.first + some? s.future + s'.signal.src.got.length := by
  have hb : Pays (mapFutureBody g) (fun s => some? s.1) (fun _ => 0) (fun _ => 1) := by
    intro s a
    simp [mapFutureBody, some?]
  have fin : ∀ (b : Bool) (m : SMapFuture α β), SMapFuture.finish w b m = (r, s') →
      answer (fun _ => 1) r + (flag s'.first + some? s'.future) ≤ flag m.first + some? m.future ∧
        s'.signal = m.signal := by
    intro b m h
    unfold SMapFuture.finish at h
    (repeat' split at h) <;> cases h <;> simp_all [some?]
  unfold SMapFuture.poll at h
  split at h
  rotate_right 2
  · cases h
  · cases h
  all_goals
    rename_i h1
    have h2 := Inp.loop_weight _ _ _ hb h1 (by simp)
    obtain ⟨h3, h4⟩ := fin _ _ (Option.some.inj h)
    simp only [sumBy_one] at h2
    simp [h4] at h2 h3 ⊢
    omega

theorem SThrottle.poll_count (g : Nat → List (Poll Unit)) (w : Waker) (s : SThrottle α)
    (r : Poll (Option α)) (s' : SThrottle α) (h : s.poll g w = some (r, s')) :
    answer (fun _ => 1) r + s.signal.src.got.length = s'.signal.src.got.length := by
  have sig : ∀ m : SThrottle α, SThrottle.pollSignal g w m = (r, s') →
      answer (fun _ => 1) r + m.signal.src.got.length = s'.signal.src.got.length := by
    intro m h
    unfold SThrottle.pollSignal at h
    split at h
    all_goals
      rename_i h1
      have h2 := (Inp.poll_weight (fun _ => 1) h1).2
      simp only [sumBy_one] at h2
      (repeat' split at h) <;> cases h <;> simp at h2 ⊢ <;> omega
  unfold SThrottle.poll at h
  split at h
  · exact sig _ (Option.some.inj h)
  · split at h
    · have := sig _ (Option.some.inj h)
      exact this
    · cases h; simp

theorem SFromStream.poll_count (w : Waker) (s : SFromStream α)
    (r : Poll (Option (Option α))) (s' : SFromStream α) (h : s.poll w = some (r, s')) :
    answer (fun _ => 1) r + flag s'.first + s.stream.src.got.length ≤
      flag s.first + s'.stream.src.got.length := by
  unfold SFromStream.poll at h
  split at h
  rotate_right 2
  · cases h
  · cases h
  all_goals
    rename_i h1
    have h2 := Inp.loop_flag (fun v : Option α => v.isSome) h1 (by simp)
    have h := Option.some.inj h
    unfold SFromStream.finish at h
    (repeat' split at h) <;> cases h <;> simp_all <;> omega

theorem MWatch.poll_count [DecidableEq ι] (w : Waker) (s : MWatch ι α)
    (r : Poll (Option (Option α))) (s' : MWatch ι α) (h : s.poll w = some (r, s')) :
    answer (fun _ => 1) r + flag s'.first + s.signal.got.length ≤ flag s.first + s'.signal.got.length := by
  unfold MWatch.poll at h
  split at h
  · cases h
  · cases h
  all_goals
    rename_i h1
    have h2 := Src.loop_flag (fun v : Option (Option α) => v.isSome) h1 (by simp)
    have h := Option.some.inj h
    unfold MWatch.finish at h
    (repeat' split at h) <;> cases h <;> simp_all <;> omega

/-- What the inputs of `map_ref!` gave. -/
def inputsGot (ms : List (MapRef1 α)) : Nat := sumBy (fun m => m.signal.src.got.length) ms

theorem pollInputs_count (w : Waker) (ms : List (MapRef1 α)) :
    flag (pollInputs w ms).1.changed + inputsGot ms ≤ inputsGot (pollInputs w ms).2 := by
  have one : ∀ m : MapRef1 α, flag (m.poll w).1.changed + m.signal.src.got.length ≤
      (m.poll w).2.signal.src.got.length := by
    intro m
    unfold MapRef1.poll
    split
    all_goals
      rename_i h1
      have h2 := (Inp.poll_weight (fun _ => 1) h1).2
      simp only [sumBy_one] at h2
      simp at h2 ⊢
      omega
  induction ms with
  | nil => simp [pollInputs]
  | cons m ms ih =>
    have := one m
    simp only [pollInputs, PollResult.merge, inputsGot, sumBy_cons] at ih ⊢
    have : flag ((m.poll w).1.changed || (pollInputs w ms).1.changed) ≤
        flag (m.poll w).1.changed + flag (pollInputs w ms).1.changed := by
      cases (m.poll w).1.changed <;> simp
    omega

theorem setValues_got (ms : List (MapRef1 α)) (vs : List α) : inputsGot (setValues ms vs) = inputsGot ms := by
  induction ms generalizing vs with
  | nil => rfl
  | cons m ms ih =>
    cases vs with
    | nil => rfl
    | cons v vs => simp [setValues, inputsGot] at ih ⊢; exact ih vs

theorem SMapMut.poll_count (f : List α → β × List α) (w : Waker) (ms : List (MapRef1 α))
    (r : Poll (Option β)) (ms' : List (MapRef1 α)) (h : SMapMut.poll f w ms = some (r, ms')) :
    answer (fun _ => 1) r + inputsGot ms ≤ inputsGot ms' := by
  have h1 := pollInputs_count w ms
  unfold SMapMut.poll at h
  split at h
  rename_i h2
  rw [h2] at h1
  (repeat' split at h) <;> cases h <;> simp_all [setValues_got] <;> omega

theorem SSample.poll_count (w : Waker) (s : SSample α β) (r : Poll (Option (α × β))) (s' : SSample α β)
    (h : s.poll w = some (r, s')) : answer (fun _ => 1) r + s.stream.got.length = s'.stream.got.length := by
  unfold SSample.poll at h
  split at h
  all_goals
    rename_i h1
    have h2 := (Src.poll_weight (fun _ => 1) h1).2
    simp only [sumBy_one] at h2
    (repeat' split at h) <;> cases h <;> simp at h2 ⊢ <;> omega

/-! ## Maps -/

variable {K V W : Type}

@[simp] theorem msize_replace (l : List (K × V)) : (MapDiff.replace l).size = l.length + 1 := rfl
@[simp] theorem msize_insert (k : K) (v : V) : (MapDiff.insert k v).size = 2 := rfl
@[simp] theorem msize_update (k : K) (v : V) : (MapDiff.update k v).size = 2 := rfl
@[simp] theorem msize_remove (k : K) : (MapDiff.remove k : MapDiff K V).size = 1 := rfl
@[simp] theorem msize_clear : (MapDiff.clear : MapDiff K V).size = 1 := rfl

theorem mapEntriesS_length (f : κ → V → W × κ) (k : κ) (l : List (K × V)) :
    (mapEntriesS f k l).1.length = l.length := by
  induction l generalizing k with
  | nil => rfl
  | cons a l ih => simp [mapEntriesS, ih]

theorem MapDiff.mapS_size (f : κ → V → W × κ) (k : κ) (d : MapDiff K V) : (d.mapS f k).1.size = d.size := by
  cases d <;> simp [MapDiff.mapS, mapEntriesS_length]

section
variable [LinearOrder K]

theorem entriesChange_size {bs : List K → K → Except Nat Nat} {keys keys' : List K} {d : MapDiff K V}
    {e : VecDiff (K × V)} (h : entriesChange bs keys d = some (e, keys')) : e.size = d.size := by
  cases d <;> simp only [entriesChange] at h <;> (repeat' split at h) <;> cases h <;> simp

theorem keysBody_size (bs : List K → K → Except Nat Nat) :
    Pays (keysBody bs : List K → MapDiff K V → Ctl (List K) (VecDiff K)) (fun _ => 0) VecDiff.size MapDiff.size := by
  intro keys d
  split
  · simp
  · rename_i heq
    cases d <;> simp only [keysBody] at heq <;> (repeat' split at heq) <;> cases heq <;> simp
  · trivial

theorem bInsert_total (f : V → Nat) (k : K) (v : V) (m : List (K × V)) :
    sumBy (fun e => f e.2) (bInsert k v m).2 ≤ sumBy (fun e => f e.2) m + f v := by
  induction m with
  | nil => simp [bInsert]
  | cons e m ih =>
    unfold bInsert
    (repeat' split) <;> simp <;> omega

theorem bRemove_total (f : V → Nat) (k : K) (m : List (K × V)) :
    sumBy (fun e => f e.2) (bRemove k m).2 ≤ sumBy (fun e => f e.2) m := by
  induction m with
  | nil => simp [bRemove]
  | cons e m ih =>
    unfold bRemove
    (repeat' split) <;> simp <;> omega

theorem bUpdate_total (f : V → Nat) {k : K} {v : V} {m m' : List (K × V)} (h : bUpdate k v m = some m') :
    sumBy (fun e => f e.2) m' ≤ sumBy (fun e => f e.2) m + f v := by
  induction m generalizing m' with
  | nil => simp [bUpdate] at h
  | cons e m ih =>
    unfold bUpdate at h
    (repeat' split at h) <;> cases h <;> simp <;> grind

/-- What `map_value_signal` still owes. -/
def MMapSignal.owed (s : MMapSignal K V β) : Nat :=
  sumBy MapDiff.size s.pending + sumBy (fun e => MState.owed e.2) s.signals

theorem newEntries_owed {g : V → List (Poll (Option β))} {w : Waker} {es : List (K × V)}
    {l l' : List (K × MState V β)} {bs : List (K × β)} (h : newEntries g w es l = some (bs, l')) :
    bs.length + sumBy (fun e => MState.owed e.2) l' ≤
      sumBy (fun e => MState.owed e.2) l + sumBy (fun e => 2 * (items (g e.2)).length) es := by
  induction es generalizing l bs with
  | nil => cases h; simp
  | cons e es ih =>
    unfold newEntries at h
    split at h
    · cases h
    · rename_i b s h1
      split at h
      · cases h
      · rename_i h2
        cases h
        have a1 := MState.new_owed h1
        have a2 := ih h2
        have a3 := bInsert_total MState.owed e.1 s l
        simp
        omega

theorem mapValueBody_owed (g : V → List (Poll (Option β))) (w : Waker) :
    Pays (mapValueBody g w : List (K × MState V β) × List (MapDiff K β) → MapDiff K V → _)
      (fun s => sumBy MapDiff.size s.2 + sumBy (fun e => MState.owed e.2) s.1) (fun _ => 0)
      (mapSignalsCost g) := by
  rintro ⟨l, p⟩ d
  split
  · rename_i s' heq
    cases d <;> simp only [mapValueBody] at heq
    case replace es =>
      split at heq <;> cases heq
      rename_i h1
      have := newEntries_owed h1
      simp [mapSignalsCost, MapDiff.values, sumBy_map] at this ⊢
      omega
    case insert k v =>
      split at heq <;> cases heq
      rename_i s h1
      have := MState.new_owed h1
      have := bInsert_total MState.owed k s l
      simp [mapSignalsCost, MapDiff.values] at this ⊢
      omega
    case update k v =>
      (repeat' split at heq) <;> cases heq
      rename_i h1 _ _ h2
      have := MState.new_owed h1
      have := bUpdate_total MState.owed h2
      simp [mapSignalsCost, MapDiff.values] at this ⊢
      omega
    case remove k =>
      cases heq
      have := bRemove_total MState.owed k l
      simp [mapSignalsCost, MapDiff.values] at this ⊢
      omega
    case clear =>
      cases heq
      simp [mapSignalsCost, MapDiff.values]
  · rename_i r _; exact r.elim
  · trivial

theorem pollEntries_owed {w : Waker} {p p' : List (MapDiff K β)} {l l' : List (K × MState V β)}
    {b : Bool} (h : pollEntries w p l = (b, p', l')) :
    sumBy MapDiff.size p' + sumBy (fun e => MState.owed e.2) l' ≤
      sumBy MapDiff.size p + sumBy (fun e => MState.owed e.2) l := by
  induction l generalizing l' p b with
  | nil => cases h; simp
  | cons s l ih =>
    unfold pollEntries at h
    split at h
    all_goals
      rename_i h1
      have h1 := Inp.poll_length h1
      cases h
      have := ih rfl
      simp [MState.owed] at h1 this ⊢
      omega

theorem MMapSignal.poll_owed (g : V → List (Poll (Option β))) (w : Waker) (s : MMapSignal K V β)
    (r : Poll (Option (MapDiff K β))) (s' : MMapSignal K V β) (h : s.poll g w = some (r, s')) :
    answer MapDiff.size r + s'.owed + sumBy (mapSignalsCost g) s.signal.src.got ≤
      s.owed + sumBy (mapSignalsCost g) s'.signal.src.got := by
  have fin : ∀ {b : Bool} {i : Inp (Option (MapDiff K V))} {l : List (K × MState V β)} {p : List (MapDiff K β)},
      MMapSignal.finish w b i l p = (r, s') →
      answer MapDiff.size r + s'.owed ≤ sumBy MapDiff.size p + sumBy (fun e => MState.owed e.2) l ∧
        s'.signal = i := by
    intro b i l p h
    unfold MMapSignal.finish at h
    split at h
    · rename_i h1
      cases h
      have := pollEntries_owed h1
      simp [MMapSignal.owed] at this ⊢
      omega
    · rename_i h1
      have := pollEntries_owed h1
      split at h <;> cases h <;> (simp [MMapSignal.owed] at this ⊢; omega)
  unfold MMapSignal.poll at h
  split at h
  · rename_i h1
    cases h
    simp [MMapSignal.owed, h1]
    omega
  · rename_i hp
    split at h
    · cases h
    · cases h
    all_goals
      rename_i h1
      have h2 := Inp.loop_weight _ _ _ (mapValueBody_owed g w) h1 (by simp)
      obtain ⟨h3, h4⟩ := fin (Option.some.inj h)
      simp [MMapSignal.owed, hp, Stop.weight, h4] at h2 h3 ⊢
      omega

end

theorem run_count {poll : Waker → σ → Option (Poll (Option β) × σ)} (Ψ : σ → Nat)
    (hstep : ∀ w s r s', poll w s = some (r, s') → answer (fun _ => 1) r + Ψ s = Ψ s')
    {ws : List Waker} {s0 s : σ} {outs : List (Poll (Option β))} (h : run poll ws s0 = some (outs, s)) :
    (items outs).length + Ψ s0 = Ψ s := by
  have := run_sizes (fun _ => 1) (fun s => List.replicate (Ψ s) 1) (fun w s r s' h => by
    rw [← hstep w s r s' h]
    rcases r with ((_ | b) | _) <;> simp [List.replicate_succ', Nat.add_comm]) h
  have := congrArg List.length this
  simp at this
  omega

end Verif
