import Verif.SignalVec2
import Verif.Polite

/-!
# Proofs about `chain`
-/

namespace Verif

variable {α β : Type}

/-! ## Batches of diffs -/

theorem replay_removesDesc (p m q : List α) :
    replay (removesDesc p.length m.length) (p ++ m ++ q) = some (p ++ q) := by
  generalize hn : m.length = n
  induction n generalizing m with
  | zero => have : m = [] := List.length_eq_zero_iff.1 hn; subst this; simp [removesDesc, replay]
  | succ n ih =>
    rcases List.eq_nil_or_concat m with rfl | ⟨m', a, rfl⟩
    · simp at hn
    · simp only [List.concat_eq_append, List.length_append, List.length_cons, List.length_nil] at hn
      have hn' : m'.length = n := by omega
      have h : (VecDiff.removeAt (p.length + n)).apply (p ++ (m' ++ [a]) ++ q) = some (p ++ m' ++ q) := by
        rw [apply_eq_some]
        have := Applies.removeAt (p ++ m') a q
        simp only [List.length_append, hn'] at this
        simpa using this
      simp only [removesDesc, replay, List.concat_eq_append, h]
      exact ih m' hn'

theorem replay_insertsFrom (p vs q : List α) :
    replay (insertsFrom p.length vs) (p ++ q) = some (p ++ vs ++ q) := by
  induction vs generalizing p with
  | nil => simp [insertsFrom, replay]
  | cons v vs ih =>
    have h : (VecDiff.insertAt p.length v).apply (p ++ q) = some ((p ++ [v]) ++ q) := by
      rw [apply_eq_some]; simpa using Applies.insertAt p q v
    simp only [insertsFrom, replay, h]
    have := ih (p ++ [v])
    simpa using this

theorem replay_pops (p m : List α) :
    replay (List.replicate m.length .pop) (p ++ m) = some p := by
  generalize hn : m.length = n
  induction n generalizing m with
  | zero => have : m = [] := List.length_eq_zero_iff.1 hn; subst this; simp [replay]
  | succ n ih =>
    rcases List.eq_nil_or_concat m with rfl | ⟨m', a, rfl⟩
    · simp at hn
    · simp only [List.concat_eq_append, List.length_append, List.length_cons, List.length_nil] at hn
      have h : VecDiff.pop.apply (p ++ (m' ++ [a])) = some (p ++ m') := by
        rw [apply_eq_some]; simpa using Applies.pop (p ++ m') a
      simp only [List.replicate, replay, List.concat_eq_append, h]
      exact ih m' (by omega)

theorem replay_pushes (p vs : List α) : replay (vs.map .push) p = some (p ++ vs) := by
  induction vs generalizing p with
  | nil => simp [replay]
  | cons v vs ih => simp [replay, VecDiff.apply, ih]

/-- The diff on a suffix, seen as a diff on the whole list. -/
def VecDiff.shift (k : Nat) : VecDiff α → VecDiff α
  | .insertAt i a => .insertAt (i + k) a
  | .updateAt i a => .updateAt (i + k) a
  | .removeAt i => .removeAt (i + k)
  | .move i j => .move (i + k) (j + k)
  | d => d

/-- Diffs that address single elements. -/
def VecDiff.isLocal : VecDiff α → Bool
  | .replace _ => false
  | .clear => false
  | _ => true

theorem shift_apply {d : VecDiff α} {ys ys' : List α} (xs : List α) (hd : d.apply ys = some ys')
    (hl : d.isLocal = true) : (d.shift xs.length).apply (xs ++ ys) = some (xs ++ ys') := by
  rw [apply_eq_some] at hd ⊢
  cases hd with
  | replace => simp [VecDiff.isLocal] at hl
  | clear => simp [VecDiff.isLocal] at hl
  | insertAt p q a => simpa [VecDiff.shift, Nat.add_comm] using Applies.insertAt (xs ++ p) q a
  | updateAt p b q a => simpa [VecDiff.shift, Nat.add_comm] using Applies.updateAt (xs ++ p) b q a
  | removeAt p b q => simpa [VecDiff.shift, Nat.add_comm] using Applies.removeAt (xs ++ p) b q
  | moveFwd p a m q =>
    have := Applies.moveFwd (xs ++ p) a m q
    simp only [List.length_append] at this
    rw [show xs.length + p.length = p.length + xs.length by omega,
      show p.length + xs.length + m.length = p.length + m.length + xs.length by omega] at this
    simpa [VecDiff.shift] using this
  | moveBack p m a q =>
    have := Applies.moveBack (xs ++ p) m a q
    simp only [List.length_append] at this
    rw [show xs.length + p.length = p.length + xs.length by omega,
      show p.length + xs.length + m.length = p.length + m.length + xs.length by omega] at this
    simpa [VecDiff.shift] using this
  | push l a => simpa [VecDiff.shift] using Applies.push (xs ++ ys) a
  | pop l a => simpa [VecDiff.shift] using Applies.pop (xs ++ ys') a

/-- The diff on a prefix of length `n`, seen as a diff on the whole list. -/
def VecDiff.widen (n : Nat) : VecDiff α → VecDiff α
  | .push a => .insertAt n a
  | .pop => .removeAt (n - 1)
  | d => d

theorem widen_apply {d : VecDiff α} {xs xs' : List α} (ys : List α) (hd : d.apply xs = some xs')
    (hl : d.isLocal = true) : (d.widen xs.length).apply (xs ++ ys) = some (xs' ++ ys) := by
  rw [apply_eq_some] at hd ⊢
  cases hd with
  | replace => simp [VecDiff.isLocal] at hl
  | clear => simp [VecDiff.isLocal] at hl
  | insertAt p q a => simpa [VecDiff.widen] using Applies.insertAt p (q ++ ys) a
  | updateAt p b q a => simpa [VecDiff.widen] using Applies.updateAt p b (q ++ ys) a
  | removeAt p b q => simpa [VecDiff.widen] using Applies.removeAt p b (q ++ ys)
  | moveFwd p a m q => simpa [VecDiff.widen] using Applies.moveFwd p a m (q ++ ys)
  | moveBack p m a q => simpa [VecDiff.widen] using Applies.moveBack p m a (q ++ ys)
  | push l a => simpa [VecDiff.widen] using Applies.insertAt xs ys a
  | pop l a => simpa [VecDiff.widen] using Applies.removeAt xs' a ys

/-- How a diff changes the length. -/
theorem updateLen_apply {d : VecDiff α} {xs xs' : List α} (hd : d.apply xs = some xs') :
    updateLen xs.length d = some xs'.length := by
  rw [apply_eq_some] at hd
  cases hd <;> simp [updateLen] <;> omega

theorem processRightChange_local {s : VChain α} {d : VecDiff α} (hl : d.isLocal = true) :
    s.processRightChange (some (.ready (some d))) =
      (updateLen s.rightLen d).map fun n => (some (d.shift s.leftLen), { s with rightLen := n }) := by
  cases d <;> simp [VecDiff.isLocal] at hl <;>
    simp only [VChain.processRightChange, updateLen, VecDiff.shift] <;>
    first | rfl | (by_cases h : s.rightLen = 0 <;> simp [h])

theorem removesDesc_local {off n : Nat} {d : VecDiff α} (h : d ∈ removesDesc off n) :
    d.isLocal = true := by
  induction n with
  | zero => cases h
  | succ n ih =>
    rcases List.mem_cons.1 h with rfl | h
    · rfl
    · exact ih h

theorem insertsFrom_local {off : Nat} {vs : List α} {d : VecDiff α} (h : d ∈ insertsFrom off vs) :
    d.isLocal = true := by
  induction vs generalizing off with
  | nil => cases h
  | cons v vs ih =>
    rcases List.mem_cons.1 h with rfl | h
    · rfl
    · exact ih h

/-! ## Single steps of `chain` -/

/-- The lengths kept by `chain` are those of the two sides. -/
structure VChain.Lens (s : VChain α) (xs ys : List α) : Prop where
  left : s.leftLen = xs.length
  right : s.rightLen = ys.length

/-- A diff that replaces or clears an already empty vector by an empty one. -/
def Trivial (d : VecDiff α) (xs : List α) : Prop := (d = .replace [] ∨ d = .clear) ∧ xs = []

/-- None of these diffs, applied in this order, is trivial. -/
def Lively (ds : List (VecDiff α)) (zs : List α) : Prop :=
  ∀ a d b ys, ds = a ++ d :: b → replay a zs = some ys → ¬ Trivial d ys

theorem lively_nil (zs : List α) : Lively [] zs := fun a d b ys h => by simp at h

theorem lively_local {ds : List (VecDiff α)} (h : ∀ d ∈ ds, d.isLocal = true) (zs : List α) :
    Lively ds zs := by
  rintro a d b ys rfl - ⟨rfl | rfl, -⟩
  · exact absurd (h (.replace []) (by simp)) (by simp [VecDiff.isLocal])
  · exact absurd (h .clear (by simp)) (by simp [VecDiff.isLocal])

theorem lively_single {d : VecDiff α} {zs : List α} (h : ¬ Trivial d zs) : Lively [d] zs := by
  intro a d' b ys he hr
  cases a with
  | nil => cases he; cases hr; exact h
  | cons x a => simp at he

theorem lively_append {ds es : List (VecDiff α)} {zs ys : List α} (h : Lively ds zs)
    (hr : replay ds zs = some ys) (h' : Lively es ys) : Lively (ds ++ es) zs := by
  intro a d b xs he hx
  rcases List.append_eq_append_iff.1 he with ⟨c, rfl, rfl⟩ | ⟨c, rfl, hc⟩
  · rw [replay_append, hr] at hx
    exact h' c d b xs rfl hx
  · cases c with
    | nil =>
      simp only [List.nil_append] at hc
      subst hc
      rw [List.append_nil] at hr
      rw [hr] at hx
      cases hx
      exact h' [] d b _ rfl rfl
    | cons x c =>
      simp only [List.cons_append, List.cons.injEq] at hc
      obtain ⟨rfl, -⟩ := hc
      exact h a d c xs rfl hx

theorem lively_cons {d : VecDiff α} {ds : List (VecDiff α)} {zs zs' : List α}
    (h : Lively (d :: ds) zs) (hd : d.apply zs = some zs') : ¬ Trivial d zs ∧ Lively ds zs' := by
  refine ⟨h [] d ds zs rfl rfl, fun a e b ys he hr => h (d :: a) e b ys (by simp [he]) ?_⟩
  simp only [replay, hd]
  exact hr

/-- The effect of a step that consumes `r` from the right and returns `out`. -/
theorem processRightChange_spec {ok : VecDiff α → List α → Prop} {s : VChain α}
    {xs ys ys' : List α} {r : Option (Poll (Option (VecDiff α)))}
    (hl : s.Lens xs ys) (hd : Delta ok r ys ys') :
    ∃ out add, s.processRightChange r =
        some (out, { s with rightLen := ys'.length, pending := s.pending ++ add }) ∧
      replay (add ++ out.toList) (xs ++ ys) = some (xs ++ ys') ∧
      (out ≠ none → add = []) ∧
      (out = none → add = [] → ∀ d, r = some (.ready (some d)) → Trivial d ys) ∧
      ((∀ d, r = some (.ready (some d)) → ¬ Trivial d ys) → Lively (add ++ out.toList) (xs ++ ys)) := by
  have hR := hl.right
  have hL := hl.left
  have hskip : ys' = ys → (∀ d, r ≠ some (.ready (some d))) →
      s.processRightChange r = some (none, s) →
      ∃ out add, s.processRightChange r =
        some (out, { s with rightLen := ys'.length, pending := s.pending ++ add }) ∧
      replay (add ++ out.toList) (xs ++ ys) = some (xs ++ ys') ∧
      (out ≠ none → add = []) ∧
      (out = none → add = [] → ∀ d, r = some (.ready (some d)) → Trivial d ys) ∧
      ((∀ d, r = some (.ready (some d)) → ¬ Trivial d ys) → Lively (add ++ out.toList) (xs ++ ys)) := by
    rintro rfl hn hp
    exact ⟨none, [], by rw [hp, ← hR]; simp, by simp [replay], by simp, fun _ _ d h => absurd h (hn d),
      fun _ => lively_nil _⟩
  match r with
  | none => exact hskip hd (by simp) rfl
  | some .pending => exact hskip hd (by simp) rfl
  | some (.ready none) => exact hskip hd (by simp) rfl
  | some (.ready (some d)) =>
    obtain ⟨-, hd⟩ := hd
    by_cases hloc : d.isLocal = true
    · have hsh := shift_apply xs hd hloc
      refine ⟨some (d.shift xs.length), [], ?_, by simp [replay, hsh], by simp, by simp, fun _ =>
        lively_local (by cases d <;> simp_all [VecDiff.isLocal, VecDiff.shift]) _⟩
      rw [processRightChange_local hloc, hR, updateLen_apply hd, hL]
      simp
    · cases d with
      | replace vs =>
        cases hd
        by_cases h0 : xs.length = 0
        · have hx : xs = [] := List.length_eq_zero_iff.1 h0
          subst hx
          exact ⟨some (.replace ys'), [], by simp [VChain.processRightChange, hL],
            by simp [replay, VecDiff.apply], by simp, by simp, fun h => lively_single (h _ rfl)⟩
        · refine ⟨none, List.replicate ys.length .pop ++ ys'.map .push,
            by simp [VChain.processRightChange, hL, hR, h0], ?_, by simp, ?_,
            fun _ => lively_local (by
              intro d hd
              simp only [Option.toList_none, List.append_nil, List.mem_append, List.mem_replicate,
                List.mem_map] at hd
              rcases hd with ⟨-, rfl⟩ | ⟨v, -, rfl⟩ <;> rfl) _⟩
          · simp only [Option.toList_none, List.append_nil]
            exact replay_append_some (replay_pops xs ys) (replay_pushes xs ys')
          · intro _ ha d hdd
            cases hdd
            simp at ha
            refine ⟨.inl (by rw [ha.2]), ?_⟩
            cases ys with
            | nil => rfl
            | cons y ys => simp at ha
      | clear =>
        cases hd
        by_cases h0 : xs.length = 0
        · have hx : xs = [] := List.length_eq_zero_iff.1 h0
          subst hx
          exact ⟨some .clear, [], by simp [VChain.processRightChange, hL],
            by simp [replay, VecDiff.apply], by simp, by simp, fun h => lively_single (h _ rfl)⟩
        · refine ⟨none, List.replicate ys.length .pop,
            by simp [VChain.processRightChange, hL, hR, h0], ?_, by simp, ?_,
            fun _ => lively_local (by simp [VecDiff.isLocal]) _⟩
          · simp only [Option.toList_none, List.append_nil]
            exact replay_pops xs ys
          · intro _ ha d hdd
            cases hdd
            refine ⟨.inr rfl, ?_⟩
            cases ys with
            | nil => rfl
            | cons y ys => simp at ha
      | insertAt i a => simp [VecDiff.isLocal] at hloc
      | updateAt i a => simp [VecDiff.isLocal] at hloc
      | removeAt i => simp [VecDiff.isLocal] at hloc
      | move i j => simp [VecDiff.isLocal] at hloc
      | push a => simp [VecDiff.isLocal] at hloc
      | pop => simp [VecDiff.isLocal] at hloc

/-- The effect of the last part of `process_replace` and `process_clear`. -/
theorem right_after_left {ok : VecDiff α → List α → Prop} {s : VChain α} {xs ys ys' : List α}
    {r : Option (Poll (Option (VecDiff α)))} (hl : s.Lens xs ys) (hd : Delta ok r ys ys')
    (output : Option (VecDiff α)) :
    ∃ add, (match s.processRightChange r with
        | none => none
        | some (some change, s) => some (output, { s with pending := s.pending ++ [change] })
        | some (none, s) => some (output, s)) =
        some (output, { s with rightLen := ys'.length, pending := s.pending ++ add }) ∧
      replay add (xs ++ ys) = some (xs ++ ys') ∧
      ((∀ d ys, ok d ys → ¬ Trivial d ys) → Lively add (xs ++ ys)) := by
  obtain ⟨out, add, h1, h2, h3, -, h4⟩ := processRightChange_spec hl hd
  have h4 : (∀ d ys, ok d ys → ¬ Trivial d ys) → Lively (add ++ out.toList) (xs ++ ys) := by
    refine fun h => h4 ?_
    rintro d rfl
    exact h d ys hd.1
  rw [h1]
  cases out with
  | none => exact ⟨add, rfl, by simpa using h2, by simpa using h4⟩
  | some c =>
    have := h3 (by simp)
    subst this
    exact ⟨[c], by simp, by simpa using h2, by simpa using h4⟩

/-- The effect of one change of the left side. -/
theorem processLeftChange_spec {ok : VecDiff α → List α → Prop} {s : VChain α} (w : Waker)
    {xs xs' ys : List α} {d : VecDiff α} (hl : s.Lens xs ys) (hr : s.right.Ok)
    (hv : Valid ok s.right.src ys) (hd : d.apply xs = some xs') :
    ∃ out s' ys' add, s.processLeftChange w d = some (out, s') ∧ s'.left = s.left ∧
      s'.right.Ok ∧ Valid ok s'.right.src ys' ∧ s'.Lens xs' ys' ∧ s'.pending = s.pending ++ add ∧
      replay (out.toList ++ add) (xs ++ ys) = some (xs' ++ ys') ∧
      (out = none → add = [] → Trivial d xs) ∧
      ((∀ d ys, ok d ys → ¬ Trivial d ys) → ¬ Trivial d xs →
        Lively (out.toList ++ add) (xs ++ ys)) := by
  have hR := hl.right
  have hL := hl.left
  by_cases hloc : d.isLocal = true
  · have hw := widen_apply ys hd hloc
    have hlen := updateLen_apply hd
    rw [← hL] at hlen
    have key : ∀ out, s.processLeftChange w d = some (some out, { s with leftLen := xs'.length }) →
        out.apply (xs ++ ys) = some (xs' ++ ys) → out.isLocal = true →
        ∃ out s' ys' add, s.processLeftChange w d = some (out, s') ∧ s'.left = s.left ∧
          s'.right.Ok ∧ Valid ok s'.right.src ys' ∧ s'.Lens xs' ys' ∧ s'.pending = s.pending ++ add ∧
          replay (out.toList ++ add) (xs ++ ys) = some (xs' ++ ys') ∧
          (out = none → add = [] → Trivial d xs) ∧
          ((∀ d ys, ok d ys → ¬ Trivial d ys) → ¬ Trivial d xs →
            Lively (out.toList ++ add) (xs ++ ys)) := fun out h1 h2 h3 =>
      ⟨some out, _, ys, [], h1, rfl, hr, hv, ⟨rfl, hR⟩, by simp, by simp [replay, h2], by simp,
        fun _ _ => lively_local (by simpa using h3) _⟩
    have hsame : s.leftLen = xs'.length → { s with leftLen := xs'.length } = s := by
      intro h; rw [← h]
    cases d with
    | replace vs => simp [VecDiff.isLocal] at hloc
    | clear => simp [VecDiff.isLocal] at hloc
    | insertAt i a =>
      simp only [updateLen, Option.some.injEq] at hlen
      exact key _ (by simp only [VChain.processLeftChange, hlen, VecDiff.widen]) hw rfl
    | updateAt i a =>
      simp only [updateLen, Option.some.injEq] at hlen
      exact key _ (by simp only [VChain.processLeftChange, hsame hlen, VecDiff.widen]) hw rfl
    | move i j =>
      simp only [updateLen, Option.some.injEq] at hlen
      exact key _ (by simp only [VChain.processLeftChange, hsame hlen, VecDiff.widen]) hw rfl
    | removeAt i =>
      simp only [updateLen] at hlen
      split at hlen
      · cases hlen
      · rename_i h0
        simp only [Option.some.injEq] at hlen
        exact key _ (by simp only [VChain.processLeftChange, h0, if_false, hlen, VecDiff.widen]) hw rfl
    | push a =>
      simp only [updateLen, Option.some.injEq] at hlen
      by_cases h0 : s.rightLen = 0
      · have hy : ys = [] := List.length_eq_zero_iff.1 (by omega)
        subst hy
        exact key (.push a) (by simp only [VChain.processLeftChange, h0, if_true, hlen]) (by simpa using hd) rfl
      · rw [← hL] at hw
        exact key (.insertAt s.leftLen a) (by simp only [VChain.processLeftChange, h0, if_false, hlen, VecDiff.widen]) hw rfl
    | pop =>
      simp only [updateLen] at hlen
      split at hlen
      · cases hlen
      · rename_i hz
        simp only [Option.some.injEq] at hlen
        by_cases h0 : s.rightLen = 0
        · have hy : ys = [] := List.length_eq_zero_iff.1 (by omega)
          subst hy
          exact key .pop (by simp only [VChain.processLeftChange, hz, h0, if_true, if_false, hlen])
            (by simpa using hd) rfl
        · rw [← hL] at hw
          simp only [VecDiff.widen, hlen] at hw
          exact key (.removeAt xs'.length)
            (by simp only [VChain.processLeftChange, hz, h0, if_false, hlen]) hw rfl
  · obtain ⟨r, i', ys', p1, p2, p3, p4, -⟩ := Inp.vpoll_rule w s.right ys hr hv
    cases d with
    | insertAt i a => simp [VecDiff.isLocal] at hloc
    | updateAt i a => simp [VecDiff.isLocal] at hloc
    | removeAt i => simp [VecDiff.isLocal] at hloc
    | move i j => simp [VecDiff.isLocal] at hloc
    | push a => simp [VecDiff.isLocal] at hloc
    | pop => simp [VecDiff.isLocal] at hloc
    | replace vs =>
      cases hd
      by_cases hrep : ∃ rv, r = some (.ready (some (.replace rv)))
      · obtain ⟨rv, rfl⟩ := hrep
        obtain ⟨-, p4⟩ := p4
        cases p4
        exact ⟨some (.replace (xs' ++ ys')),
          { s with right := i', leftLen := xs'.length, rightLen := ys'.length }, ys', [],
          by simp [VChain.processLeftChange, VChain.processReplace, p1], rfl, p2, p3, ⟨rfl, rfl⟩,
          by simp, by simp [replay, VecDiff.apply], by simp, fun _ hn => lively_single fun ht => hn (by
            obtain ⟨ht | ht, he⟩ := ht
            · simp only [VecDiff.replace.injEq, List.append_eq_nil_iff] at ht he
              exact ⟨.inl (by rw [ht.1]), he.1⟩
            · cases ht)⟩
      · by_cases h0 : s.rightLen = 0
        · have hy : ys = [] := List.length_eq_zero_iff.1 (by omega)
          obtain ⟨add, a1, a2, a3⟩ := right_after_left (ok := ok) (r := r)
            (s := { s with right := i', leftLen := xs'.length }) (xs := xs') (ys := ys) (ys' := ys')
            ⟨rfl, hR⟩ p4 (some (.replace xs'))
          subst hy
          refine ⟨some (.replace xs'), { s with right := i', leftLen := xs'.length, rightLen := ys'.length, pending := s.pending ++ add }, ys', add, ?_, rfl, p2, p3, ⟨rfl, rfl⟩, rfl, ?_, by simp,
            fun hok hn => lively_append (lively_single (by simpa using hn)) rfl (by simpa using a3 hok)⟩
          · refine Eq.trans ?_ a1
            simp only [VChain.processLeftChange, VChain.processReplace, p1]
            split
            · exact absurd ⟨_, rfl⟩ hrep
            · simp only [h0, if_true]; rfl
          · simpa [replay, VecDiff.apply] using a2
        · obtain ⟨add, a1, a2, a3⟩ := right_after_left (ok := ok) (r := r)
            (s := { s with right := i', leftLen := xs'.length,
                           pending := s.pending ++ removesDesc 0 xs.length ++ insertsFrom 0 xs' })
            (xs := xs') (ys := ys) (ys' := ys')
            ⟨rfl, hR⟩ p4 none
          refine ⟨none, { s with right := i', leftLen := xs'.length, rightLen := ys'.length, pending := s.pending ++ removesDesc 0 xs.length ++ insertsFrom 0 xs' ++ add },
            ys', removesDesc 0 xs.length ++ insertsFrom 0 xs' ++ add, ?_, rfl, p2, p3,
            ⟨rfl, rfl⟩, by simp, ?_, ?_, ?_⟩
          · refine Eq.trans ?_ a1
            simp only [VChain.processLeftChange, VChain.processReplace, p1]
            split
            · exact absurd ⟨_, rfl⟩ hrep
            · simp only [h0, hL, if_false]; rfl
          · have r1 := replay_removesDesc [] xs ys
            have r2 := replay_insertsFrom [] xs' ys
            simp only [List.length_nil, List.nil_append] at r1 r2
            simp only [Option.toList_none, List.nil_append, List.append_assoc]
            exact replay_append_some r1 (replay_append_some r2 a2)
          · intro _ ha
            simp only [List.append_eq_nil_iff] at ha
            refine ⟨.inl ?_, ?_⟩
            · cases xs' with
              | nil => rfl
              | cons a l => simp [insertsFrom] at ha
            · cases xs with
              | nil => rfl
              | cons a l => simp [removesDesc] at ha
          · intro hok _
            have r1 := replay_removesDesc [] xs ys
            have r2 := replay_insertsFrom [] xs' ys
            simp only [List.length_nil, List.nil_append] at r1 r2
            rw [Option.toList_none, List.nil_append]
            exact lively_append (lively_local (by
              intro d hd
              rcases List.mem_append.1 hd with hd | hd
              · exact removesDesc_local hd
              · exact insertsFrom_local hd) _) (replay_append_some r1 r2) (a3 hok)
    | clear =>
      cases hd
      by_cases hrep : r = some (.ready (some .clear))
      · subst hrep
        obtain ⟨-, p4⟩ := p4
        cases p4
        exact ⟨some .clear, { s with right := i', leftLen := 0, rightLen := 0 }, [], [],
          by simp [VChain.processLeftChange, VChain.processClear, p1], rfl, p2, p3, ⟨rfl, rfl⟩,
          by simp, by simp [replay, VecDiff.apply], by simp, fun _ hn => lively_single fun ht => hn
            ⟨.inr rfl, (List.append_eq_nil_iff.1 ht.2).1⟩⟩
      · by_cases h0 : s.rightLen = 0
        · have hy : ys = [] := List.length_eq_zero_iff.1 (by omega)
          obtain ⟨add, a1, a2, a3⟩ := right_after_left (ok := ok) (r := r)
            (s := { s with right := i', leftLen := 0 }) (xs := []) (ys := ys) (ys' := ys')
            ⟨rfl, hR⟩ p4 (some .clear)
          subst hy
          refine ⟨some .clear, { s with right := i', leftLen := 0, rightLen := ys'.length, pending := s.pending ++ add }, ys', add, ?_, rfl, p2, p3, ⟨rfl, rfl⟩, rfl, ?_, by simp,
            fun hok hn => lively_append (lively_single (by simpa using hn)) rfl (by simpa using a3 hok)⟩
          · refine Eq.trans ?_ a1
            simp only [VChain.processLeftChange, VChain.processClear, p1, h0, if_true]
            match r, hrep with
            | none, _ => rfl
            | some .pending, _ => rfl
            | some (.ready none), _ => rfl
            | some (.ready (some d)), h => cases d <;> first | exact absurd rfl h | rfl
          · simpa [replay, VecDiff.apply] using a2
        · obtain ⟨add, a1, a2, a3⟩ := right_after_left (ok := ok) (r := r)
            (s := { s with right := i', leftLen := 0,
                           pending := s.pending ++ removesDesc 0 xs.length })
            (xs := []) (ys := ys) (ys' := ys')
            ⟨rfl, hR⟩ p4 none
          refine ⟨none, { s with right := i', leftLen := 0, rightLen := ys'.length, pending := s.pending ++ removesDesc 0 xs.length ++ add },
            ys', removesDesc 0 xs.length ++ add, ?_, rfl, p2, p3,
            ⟨rfl, rfl⟩, by simp, ?_, ?_, ?_⟩
          · refine Eq.trans ?_ a1
            simp only [VChain.processLeftChange, VChain.processClear, p1, h0, hL, if_false]
            match r, hrep with
            | none, _ => rfl
            | some .pending, _ => rfl
            | some (.ready none), _ => rfl
            | some (.ready (some d)), h => cases d <;> first | exact absurd rfl h | rfl
          · have r1 := replay_removesDesc [] xs ys
            simp only [List.length_nil, List.nil_append] at r1
            simp only [Option.toList_none, List.nil_append]
            exact replay_append_some r1 a2
          · intro _ ha
            simp only [List.append_eq_nil_iff] at ha
            refine ⟨.inr rfl, ?_⟩
            cases xs with
            | nil => rfl
            | cons a l => simp [removesDesc] at ha
          · intro hok _
            have r1 := replay_removesDesc [] xs ys
            simp only [List.length_nil, List.nil_append] at r1
            rw [Option.toList_none, List.nil_append]
            exact lively_append (lively_local (fun d hd => removesDesc_local hd) _) r1 (a3 hok)

/-- The invariant of `chain`: `zs` is the output emitted so far. -/
structure ChainInv (ok : VecDiff α → List α → Prop) (s : VChain α) (xs ys zs : List α) : Prop where
  left : s.left.Ok
  right : s.right.Ok
  vleft : Valid ok s.left.src xs
  vright : Valid ok s.right.src ys
  lens : s.Lens xs ys
  queue : replay s.pending zs = some (xs ++ ys)
  lively : (∀ d xs, ok d xs → ¬ Trivial d xs) → Lively s.pending zs

/-- What is known about an input that a call answering `Pending` leaves behind. -/
def Quiet (w : Waker) (i : Inp (Option α)) : Prop := i.alive = true → i.src.armed w

/-- One poll of `chain`. -/
theorem VChain.step {ok : VecDiff α → List α → Prop} (w : Waker) {s : VChain α}
    {xs ys zs : List α} (h : ChainInv ok s xs ys zs) :
    ∃ r s' xs' ys', VChain.poll w s = some (r, s') ∧
      match r with
      | .ready (some d) => ∃ zs', d.apply zs = some zs' ∧ ChainInv ok s' xs' ys' zs' ∧
          ((∀ d xs, ok d xs → ¬ Trivial d xs) → ¬ Trivial d zs)
      | .ready none => ChainInv ok s' xs' ys' zs ∧ s'.pending = [] ∧ s'.left.alive = false ∧
          s'.right.alive = false
      | .pending => ChainInv ok s' xs' ys' zs ∧ s'.pending = [] ∧
          ¬ (s'.left.alive = false ∧ s'.right.alive = false) ∧
          ((∀ d xs, ok d xs → ¬ Trivial d xs) → Quiet w s'.left ∧ Quiet w s'.right) := by
  have hpop : ∀ (s : VChain α) c rest xs ys zs, s.pending = c :: rest → ChainInv ok s xs ys zs →
      ∃ zs', c.apply zs = some zs' ∧ ChainInv ok { s with pending := rest } xs ys zs' ∧
        ((∀ d xs, ok d xs → ¬ Trivial d xs) → ¬ Trivial c zs) := by
    intro s c rest xs ys zs hp h
    have hq := h.queue
    rw [hp] at hq
    simp only [replay] at hq
    cases hc : c.apply zs with
    | none => simp [hc] at hq
    | some zs' =>
      simp only [hc] at hq
      have hlv := fun hok => lively_cons (hp ▸ h.lively hok) hc
      exact ⟨zs', rfl, ⟨h.left, h.right, h.vleft, h.vright, ⟨h.lens.left, h.lens.right⟩, hq,
        fun hok => (hlv hok).2⟩, fun hok => (hlv hok).1⟩
  unfold VChain.poll
  cases hp : s.pending with
  | cons c rest => exact ⟨_, _, xs, ys, rfl, hpop s c rest xs ys zs hp h⟩
  | nil =>
    simp only
    have hzs : zs = xs ++ ys := by
      have := h.queue; rw [hp] at this; simpa [replay] using this
    subst hzs
    obtain ⟨r, i', xs', p1, p2, p3, p4, p5⟩ := Inp.vpoll_rule w s.left xs h.left h.vleft
    -- after `process_left`
    have hleft : ∃ out s1 ys1, s.processLeft w = some (out, s1) ∧ s1.left = i' ∧ s1.right.Ok ∧
        Valid ok s1.right.src ys1 ∧ s1.Lens xs' ys1 ∧
        replay (out.toList ++ s1.pending) (xs ++ ys) = some (xs' ++ ys1) ∧
        (out = none → s1.pending = [] → (∀ d xs, ok d xs → ¬ Trivial d xs) → Quiet w i') ∧
        ((∀ d xs, ok d xs → ¬ Trivial d xs) → Lively (out.toList ++ s1.pending) (xs ++ ys)) := by
      by_cases hd : ∃ d, r = some (.ready (some d))
      · obtain ⟨d, rfl⟩ := hd
        obtain ⟨hokd, hd⟩ := p4
        obtain ⟨out, s1, ys1, add, a1, a2, a3, a4, a5, a6, a7, a8, a9⟩ :=
          processLeftChange_spec (s := { s with left := i' }) w ⟨h.lens.left, h.lens.right⟩ h.right
            h.vright hd
        refine ⟨out, s1, ys1, ?_, a2, a3, a4, a5, ?_, ?_, ?_⟩
        · simp only [VChain.processLeft, p1]; exact a1
        · rw [a6]; simp only [hp, List.nil_append]; exact a7
        · intro ho hpd hnt
          rw [a6] at hpd
          simp only [hp, List.nil_append] at hpd
          exact absurd (a8 ho hpd) (hnt _ _ hokd)
        · intro hok
          rw [a6]
          simp only [hp, List.nil_append]
          exact a9 hok (hok _ _ hokd)
      · refine ⟨none, { s with left := i' }, ys, ?_, rfl, h.right, h.vright, ?_, ?_, ?_,
          fun _ => by simp only [hp]; exact lively_nil _⟩
        · simp only [VChain.processLeft, p1]
          match r with
          | none => rfl
          | some .pending => rfl
          | some (.ready none) => rfl
          | some (.ready (some d)) => exact absurd ⟨d, rfl⟩ hd
        · have : xs' = xs := by
            match r with
            | none => exact p4
            | some .pending => exact p4
            | some (.ready none) => exact p4
            | some (.ready (some d)) => exact absurd ⟨d, rfl⟩ hd
          subst this
          exact ⟨h.lens.left, h.lens.right⟩
        · have : xs' = xs := by
            match r with
            | none => exact p4
            | some .pending => exact p4
            | some (.ready none) => exact p4
            | some (.ready (some d)) => exact absurd ⟨d, rfl⟩ hd
          subst this
          simp [hp, replay]
        · intro _ _ _ ha
          match r with
          | none => simp only at p5; rw [p5] at ha; cases ha
          | some .pending => exact p5.2
          | some (.ready none) => simp only at p5; rw [p5] at ha; cases ha
          | some (.ready (some d)) => exact absurd ⟨d, rfl⟩ hd
    obtain ⟨out, s1, ys1, b1, b2, b3, b4, b5, b6, b7, b8⟩ := hleft
    rw [b1]
    subst b2
    cases out with
    | some c =>
      simp only [Option.toList_some, List.cons_append, List.nil_append, replay] at b6
      cases hc : c.apply (xs ++ ys) with
      | none => simp [hc] at b6
      | some zs' =>
        simp only [hc] at b6
        have hlv := fun hok => lively_cons (b8 hok) hc
        exact ⟨_, s1, xs', ys1, rfl, zs', hc, ⟨p2, b3, p3, b4, b5, b6, fun hok => (hlv hok).2⟩,
          fun hok => (hlv hok).1⟩
    | none =>
      simp only [Option.toList_none, List.nil_append] at b6
      have hI1 : ChainInv ok s1 xs' ys1 (xs ++ ys) := ⟨p2, b3, p3, b4, b5, b6, b8⟩
      simp only
      cases hp1 : s1.pending with
      | cons c rest => exact ⟨_, _, xs', ys1, rfl, hpop s1 c rest _ _ _ hp1 hI1⟩
      | nil =>
        simp only
        rw [hp1] at b6
        simp only [replay, Option.some.injEq] at b6
        obtain ⟨q, j', ys2, c1, c2, c3, c4, c5⟩ := Inp.vpoll_rule w s1.right ys1 b3 b4
        obtain ⟨out, add, d1, d2, d3, d4, d5⟩ := processRightChange_spec
          (s := { s1 with right := j' }) ⟨b5.left, b5.right⟩ c4
        have d5 : (∀ d xs, ok d xs → ¬ Trivial d xs) → Lively (add ++ out.toList) (xs ++ ys) := by
          refine fun hok => b6 ▸ d5 ?_
          rintro d rfl
          exact hok d ys1 c4.1
        simp only [hp1, List.nil_append] at d1
        have hpr : s1.processRight w = some (out,
            { s1 with right := j', rightLen := ys2.length, pending := add }) := by
          simp only [VChain.processRight, c1, hp1, d1]
        rw [hpr]
        cases out with
        | some c =>
          have := d3 (by simp)
          subst this
          simp only [Option.toList_some, List.nil_append] at d2
          rw [← b6, replay_singleton] at d2
          exact ⟨_, _, xs', ys2, rfl, xs' ++ ys2, d2, ⟨p2, c2, p3, c3, ⟨b5.left, rfl⟩, rfl,
            fun _ => lively_nil _⟩, fun hok => (lively_cons (d5 hok) d2).1⟩
        | none =>
          simp only [Option.toList_none, List.append_nil] at d2
          rw [← b6] at d2
          have hI2 : ChainInv ok { s1 with right := j', rightLen := ys2.length, pending := add }
              xs' ys2 (xs ++ ys) := ⟨p2, c2, p3, c3, ⟨b5.left, rfl⟩, d2, by simpa using d5⟩
          cases add with
          | cons c rest => exact ⟨_, _, xs', ys2, rfl, hpop _ c rest _ _ _ rfl hI2⟩
          | nil =>
            by_cases hend : s1.left.alive = false ∧ j'.alive = false
            · exact ⟨.ready none, _, xs', ys2, by simp [hend], hI2, rfl, hend.1, hend.2⟩
            · refine ⟨.pending, _, xs', ys2, ?_, hI2, rfl, hend, fun hnt => ⟨b7 rfl hp1 hnt, ?_⟩⟩
              · have : (!s1.left.alive && !j'.alive) = false := by
                  cases ha : s1.left.alive <;> cases hb : j'.alive <;> simp_all
                simp [this]
              · intro ha
                match q with
                | none => simp only at c5; rw [c5] at ha; cases ha
                | some .pending => exact c5.2
                | some (.ready none) => simp only at c5; rw [c5] at ha; cases ha
                | some (.ready (some d)) => exact absurd (d4 rfl rfl d rfl) (hnt _ _ c4.1)

end Verif
