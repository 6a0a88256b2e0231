import Verif.EnumerateProofs

/-!
# Proofs about `to_signal_map`, `sum`, `len`, `is_empty`: single polls
-/

namespace Verif

variable {α β : Type}

theorem toSignalBody_eq (s : List α × Bool) (d : VecDiff α) :
    toSignalBody s d = match d.apply s.1 with
      | some ys => .cont (ys, true)
      | none => .panic := by
  obtain ⟨xs, c⟩ := s
  cases d with
  | replace _ => rfl
  | insertAt i a => simp only [toSignalBody, VecDiff.apply]; cases vInsert xs i a <;> rfl
  | updateAt i a => simp only [toSignalBody, VecDiff.apply]; cases vSet xs i a <;> rfl
  | removeAt i => simp only [toSignalBody, VecDiff.apply]; cases vRemove xs i <;> rfl
  | move i j =>
    simp only [toSignalBody, VecDiff.apply]
    cases h : vRemove xs i with
    | none => rfl
    | some r => obtain ⟨a, l⟩ := r; simp only; cases vInsert l j a <;> rfl
  | push a => rfl
  | pop => simp only [toSignalBody, VecDiff.apply]; cases hx : vPop xs with | mk a l => cases a <;> rfl
  | clear => rfl

theorem sumBody_eq (s : List α × Bool) (d : VecDiff α) :
    sumBody s d = match d.apply s.1 with
      | some ys => .cont (ys, match d with | .move _ _ => s.2 | _ => true)
      | none => .panic := by
  obtain ⟨xs, c⟩ := s
  cases d with
  | replace _ => rfl
  | insertAt i a => simp only [sumBody, VecDiff.apply]; cases vInsert xs i a <;> rfl
  | updateAt i a => simp only [sumBody, VecDiff.apply]; cases vSet xs i a <;> rfl
  | removeAt i => simp only [sumBody, VecDiff.apply]; cases vRemove xs i <;> rfl
  | move i j =>
    simp only [sumBody, VecDiff.apply]
    cases h : vRemove xs i with
    | none => rfl
    | some r => obtain ⟨a, l⟩ := r; simp only; cases vInsert l j a <;> rfl
  | push a => rfl
  | pop => simp only [sumBody, VecDiff.apply]; cases hx : vPop xs with | mk a l => cases a <;> rfl
  | clear => rfl

/-- The shape of the loop of a fold-like signal. -/
theorem fold_loop {σ : Type} {w : Waker} {body : σ × Bool → VecDiff α → Ctl (σ × Bool) Empty}
    (R : σ → List α → Prop) (C : List α → List (VecDiff α) → List α → Prop)
    (hbody : ∀ v c d xs0 new xs xs', R v xs → replay new xs0 = some xs → d.apply xs = some xs' →
      (c = true → C xs0 new xs) →
      ∃ v' c', body (v, c) d = .cont (v', c') ∧ R v' xs' ∧
        (c' = true → C xs0 (new ++ [d]) xs'))
    (D : List α → List (VecDiff α) → List α → Prop)
    (hD0 : ∀ xs, D xs [] xs)
    (hD : ∀ v c d xs0 new xs xs', R v xs → d.apply xs = some xs' → D xs0 new xs → c = false →
      ∀ v', body (v, c) d = .cont (v', false) → D xs0 (new ++ [d]) xs')
    (htrue : ∀ v d v' c', body (v, true) d = .cont (v', c') → c' = true)
    (i : Inp (Option (VecDiff α))) (v : σ) (xs : List α) (hok : i.Ok)
    (hv : Valid anyDiff i.src xs) (hR : R v xs) :
    ∃ st v' c i' xs' new, i.loop w body (v, false) = (st, (v', c), i') ∧ i'.Ok ∧
      Valid anyDiff i'.src xs' ∧ i'.src.got = i.src.got ++ new ∧ replay new xs = some xs' ∧
      R v' xs' ∧ (c = true → C xs new xs') ∧ (c = false → D xs new xs') ∧
      (st = .ended ∧ i'.alive = false ∨ st = .pending ∧ i'.alive = true ∧ i'.src.armed w) := by
  obtain ⟨st, ⟨v', c⟩, i', h1, h2, h3⟩ := Inp.loop_rule (w := w) (body := body)
    (fun s g t => ∃ xs' new, g = i.src.got ++ new ∧ replay g [] = some xs' ∧ Feed anyDiff t xs' ∧
      replay new xs = some xs' ∧ R s.1 xs' ∧ (s.2 = true → C xs new xs') ∧ (s.2 = false → D xs new xs'))
    (fun _ _ _ _ => False)
    (by
      rintro ⟨v, c⟩ g d t ⟨xs', new, rfl, hg, ⟨-, ys, hd, ht⟩, hn, hR, hC, hDD⟩
      obtain ⟨v', c', e1, e2, e3⟩ := hbody v c d xs new xs' ys hR hn hd hC
      rw [e1]
      refine ⟨ys, new ++ [d], by simp, ?_, ht, ?_, e2, e3, ?_⟩
      · exact replay_append_some hg (by simp [replay, hd])
      · exact replay_append_some hn (by simp [replay, hd])
      · rintro rfl
        simp only at hR
        cases c with
        | true => exact absurd (htrue _ _ _ _ e1) (by simp)
        | false => exact hD v false d xs new xs' ys hR hd (hDD rfl) rfl v' e1)
    i (v, false) hok ⟨xs, [], by simp, hv.now, hv.rest, rfl, hR, by simp, fun _ => hD0 xs⟩
  cases st with
  | panic => exact h3.elim
  | ret r => exact h3.1.elim
  | ended =>
    obtain ⟨⟨xs', new, a1, a2, a3, a4, a5, a6, a7⟩, b⟩ := h3
    exact ⟨_, v', c, i', xs', new, h1, h2, ⟨a2, a3⟩, a1, a4, a5, a6, a7, .inl ⟨rfl, b⟩⟩
  | pending =>
    obtain ⟨⟨xs', new, a1, a2, a3, a4, a5, a6, a7⟩, b, b'⟩ := h3
    exact ⟨_, v', c, i', xs', new, h1, h2, ⟨a2, a3⟩, a1, a4, a5, a6, a7, .inr ⟨rfl, b, b'⟩⟩

/-- A poll of `to_signal_map`. -/
theorem VToSignal.step (f : List α → β) (w : Waker) {s : VToSignal α} {xs : List α}
    (hok : s.signal.Ok) (hv : Valid anyDiff s.signal.src xs) (hR : s.values = xs) :
    ∃ r s' xs' new, VToSignal.poll f w s = some (r, s') ∧ s'.signal.Ok ∧
      Valid anyDiff s'.signal.src xs' ∧ s'.values = xs' ∧
      s'.signal.src.got = s.signal.src.got ++ new ∧
      match r with
      | .ready (some b) => b = f xs' ∧ s'.first = false ∧ (s.first = true ∨ new ≠ [])
      | .ready none => xs' = xs ∧ new = [] ∧ s.first = false ∧ s'.first = false ∧
          s'.signal.alive = false
      | .pending => xs' = xs ∧ new = [] ∧ s.first = false ∧ s'.first = false ∧
          s'.signal.alive = true ∧ s'.signal.src.armed w := by
  obtain ⟨st, v', c, i', xs', new, h1, h2, h3, h4, h5, h6, h7, h8, h9⟩ :=
    fold_loop (w := w) (body := toSignalBody) (fun v xs => v = xs) (fun _ new _ => new ≠ [])
    (by
      intro v c d xs0 new xs xs' hR _ hd _
      subst hR
      refine ⟨xs', true, by rw [toSignalBody_eq]; simp [hd], rfl, by simp⟩)
    (fun xs new xs' => new = [] ∧ xs' = xs) (by simp)
    (by
      intro v c d xs0 new xs xs' hR hd _ _ v' hb
      rw [toSignalBody_eq] at hb
      split at hb <;> simp at hb)
    (by
      intro v d v' c' hb
      rw [toSignalBody_eq] at hb
      split at hb <;> simp at hb
      exact hb.2)
    s.signal s.values xs hok hv hR
  by_cases hc : c = true ∨ s.first = true
  · refine ⟨.ready (some (f v')), ⟨i', false, v'⟩, xs', new, ?_, h2, h3, h6, h4, by rw [h6], rfl, ?_⟩
    · rcases h9 with ⟨rfl, -⟩ | ⟨rfl, -⟩ <;> rcases hc with hc | hc <;>
        simp [VToSignal.poll, h1, hc]
    · rcases hc with hc | hc
      · exact .inr (h7 hc)
      · exact .inl hc
  · simp only [not_or, Bool.not_eq_true] at hc
    obtain ⟨h81, h82⟩ := h8 hc.1
    rcases h9 with ⟨rfl, h91⟩ | ⟨rfl, h91, h92⟩
    · exact ⟨.ready none, ⟨i', s.first, v'⟩, xs', new, by simp [VToSignal.poll, h1, hc], h2, h3, h6,
        h4, h82, h81, hc.2, hc.2, h91⟩
    · exact ⟨.pending, ⟨i', s.first, v'⟩, xs', new, by simp [VToSignal.poll, h1, hc], h2, h3, h6,
        h4, h82, h81, hc.2, hc.2, h91, h92⟩

/-- Folding a commutative operation does not depend on the order. -/
theorem foldl_perm {f : α → α → α} (hcomm : ∀ a b, f a b = f b a)
    (hassoc : ∀ a b c, f (f a b) c = f a (f b c)) {xs ys : List α} (h : xs.Perm ys) (z : α) :
    xs.foldl f z = ys.foldl f z := by
  have hr : ∀ a b c, f (f a b) c = f (f a c) b := by
    intro a b c; rw [hassoc, hcomm b c, ← hassoc]
  induction h generalizing z with
  | nil => rfl
  | cons x _ ih => exact ih _
  | swap x y l => simp [List.foldl_cons, hr z x y]
  | trans _ _ ih1 ih2 => exact (ih1 z).trans (ih2 z)

theorem move_perm {i j : Nat} {xs ys : List α} (h : (VecDiff.move i j).apply xs = some ys) :
    xs.Perm ys := by
  rw [apply_eq_some] at h
  cases h with
  | moveFwd p a m q =>
    simp only [List.append_assoc]
    exact List.Perm.append_left p List.perm_middle.symm
  | moveBack p m a q =>
    simp only [List.append_assoc]
    exact List.Perm.append_left p List.perm_middle

theorem foldl_eq_foldr {f : α → α → α} (hcomm : ∀ a b, f a b = f b a)
    (hassoc : ∀ a b c, f (f a b) c = f a (f b c)) (xs : List α) (z : α) :
    xs.foldl f z = xs.foldr f z := by
  have : ∀ xs : List α, ∀ a z, xs.foldl f (f a z) = f a (xs.foldl f z) := by
    intro xs
    induction xs with
    | nil => intros; rfl
    | cons b xs ih => intro a z; simp only [List.foldl_cons, hassoc, ih]
  induction xs generalizing z with
  | nil => rfl
  | cons a xs ih => rw [List.foldl_cons, hcomm z a, this, List.foldr_cons, ih]

/-- A poll of `sum`. -/
theorem VSum.step {add : α → α → α} {zero : α} (hcomm : ∀ a b, add a b = add b a)
    (hassoc : ∀ a b c, add (add a b) c = add a (add b c)) (w : Waker) {s : VToSignal α}
    {xs : List α} (hok : s.signal.Ok) (hv : Valid anyDiff s.signal.src xs) (hR : s.values = xs) :
    ∃ r s' xs' new, VSum.poll add zero w s = some (r, s') ∧ s'.signal.Ok ∧
      Valid anyDiff s'.signal.src xs' ∧ s'.values = xs' ∧
      s'.signal.src.got = s.signal.src.got ++ new ∧
      match r with
      | .ready (some b) => b = xs'.foldr add zero ∧ s'.first = false ∧ (s.first = true ∨ new ≠ [])
      | .ready none => xs'.foldr add zero = xs.foldr add zero ∧ s.first = false ∧ s'.first = false ∧
          s'.signal.alive = false
      | .pending => xs'.foldr add zero = xs.foldr add zero ∧ s.first = false ∧ s'.first = false ∧
          s'.signal.alive = true ∧ s'.signal.src.armed w := by
  obtain ⟨st, v', c, i', xs', new, h1, h2, h3, h4, h5, h6, h7, h8, h9⟩ :=
    fold_loop (w := w) (body := sumBody) (fun v xs => v = xs) (fun _ new _ => new ≠ [])
    (by
      intro v c d xs0 new xs xs' hR _ hd _
      subst hR
      refine ⟨xs', (match d with | .move _ _ => c | _ => true), by rw [sumBody_eq]; simp only [hd]; cases d <;> rfl, rfl, by simp⟩)
    (fun xs new xs' => xs'.foldr add zero = xs.foldr add zero) (by simp)
    (by
      intro v c d xs0 new xs xs' hR hd hD hc v' hb
      subst hR
      rw [sumBody_eq] at hb
      simp only [hd] at hb
      split at hb
      · have := foldl_perm hcomm hassoc (move_perm hd) zero
        rw [foldl_eq_foldr hcomm hassoc, foldl_eq_foldr hcomm hassoc] at this
        exact this.symm.trans hD
      · simp at hb)
    (by
      intro v d v' c' hb
      rw [sumBody_eq] at hb
      cases hd : d.apply v with
      | none => simp [hd] at hb
      | some ys => simp only [hd] at hb; cases d <;> simp at hb <;> exact hb.2)
    s.signal s.values xs hok hv hR
  by_cases hc : c = true ∨ s.first = true
  · refine ⟨.ready (some (v'.foldl add zero)), ⟨i', false, v'⟩, xs', new, ?_, h2, h3, h6, h4,
      by rw [h6, foldl_eq_foldr hcomm hassoc], rfl, ?_⟩
    · rcases h9 with ⟨rfl, -⟩ | ⟨rfl, -⟩ <;> rcases hc with hc | hc <;>
        simp [VSum.poll, h1, hc]
    · rcases hc with hc | hc
      · exact .inr (h7 hc)
      · exact .inl hc
  · simp only [not_or, Bool.not_eq_true] at hc
    have h8 := h8 hc.1
    rcases h9 with ⟨rfl, h91⟩ | ⟨rfl, h91, h92⟩
    · exact ⟨.ready none, ⟨i', s.first, v'⟩, xs', new, by simp [VSum.poll, h1, hc], h2, h3, h6,
        h4, h8, hc.2, hc.2, h91⟩
    · exact ⟨.pending, ⟨i', s.first, v'⟩, xs', new, by simp [VSum.poll, h1, hc], h2, h3, h6,
        h4, h8, hc.2, hc.2, h91, h92⟩

/-- Some prefix of the diffs `new`, applied to `xs`, changes the length. -/
def LenChanges (xs : List α) (new : List (VecDiff α)) : Prop :=
  ∃ pre zs, pre <+: new ∧ replay pre xs = some zs ∧ zs.length ≠ xs.length

theorem lenBody_spec {d : VecDiff α} {xs ys : List α} (hd : d.apply xs = some ys) (c : Bool) :
    ∃ c', lenBody (xs.length, c) d = .cont (ys.length, c') ∧
      ((c' = c ∧ ys.length = xs.length) ∨ (c' = true ∧ ys.length ≠ xs.length)) := by
  rw [apply_eq_some] at hd
  cases hd with
  | replace vs l =>
    by_cases h : xs.length = ys.length
    · exact ⟨c, by simp [lenBody, h], .inl ⟨rfl, h.symm⟩⟩
    · exact ⟨true, by simp [lenBody, h], .inr ⟨rfl, fun e => h e.symm⟩⟩
  | insertAt p q a => exact ⟨true, by simp [lenBody]; try omega, .inr ⟨rfl, by simp⟩⟩
  | updateAt p b q a => exact ⟨c, by simp [lenBody], .inl ⟨rfl, by simp⟩⟩
  | removeAt p b q => exact ⟨true, by simp [lenBody]; try omega, .inr ⟨rfl, by simp; try omega⟩⟩
  | moveFwd p a m q => exact ⟨c, by simp [lenBody]; try omega, .inl ⟨rfl, by simp; try omega⟩⟩
  | moveBack p m a q => exact ⟨c, by simp [lenBody]; try omega, .inl ⟨rfl, by simp; try omega⟩⟩
  | push l a => exact ⟨true, by simp [lenBody], .inr ⟨rfl, by simp⟩⟩
  | pop l a => exact ⟨true, by simp [lenBody], .inr ⟨rfl, by simp⟩⟩
  | clear l =>
    by_cases h : xs.length = 0
    · exact ⟨c, by simp [lenBody, h], .inl ⟨rfl, by simp [h]⟩⟩
    · exact ⟨true, by simp [lenBody, h], .inr ⟨rfl, by simp; exact fun e => h (by simp [e])⟩⟩

/-- A poll of `len`. -/
theorem VLen.step (w : Waker) {s : VLen α} {xs : List α}
    (hok : s.signal.Ok) (hv : Valid anyDiff s.signal.src xs) (hR : s.len = xs.length) :
    ∃ r s' xs' new, VLen.poll w s = some (r, s') ∧ s'.signal.Ok ∧
      Valid anyDiff s'.signal.src xs' ∧ s'.len = xs'.length ∧
      s'.signal.src.got = s.signal.src.got ++ new ∧ replay new xs = some xs' ∧
      match r with
      | .ready (some b) => b = xs'.length ∧ s'.first = false ∧ (s.first = true ∨ LenChanges xs new)
      | .ready none => xs'.length = xs.length ∧ s.first = false ∧ s'.first = false ∧
          s'.signal.alive = false
      | .pending => xs'.length = xs.length ∧ s.first = false ∧ s'.first = false ∧
          s'.signal.alive = true ∧ s'.signal.src.armed w := by
  obtain ⟨st, v', c, i', xs', new, h1, h2, h3, h4, h5, h6, h7, h8, h9⟩ :=
    fold_loop (w := w) (body := lenBody) (fun v xs => v = xs.length)
    (fun xs new _ => LenChanges xs new)
    (by
      intro v c d xs0 new xs xs' hR hn hd hC
      subst hR
      obtain ⟨c', e1, e2⟩ := lenBody_spec hd c
      refine ⟨xs'.length, c', e1, rfl, fun hc' => ?_⟩
      cases hcc : c with
      | true =>
        obtain ⟨pre, zs, g1, g2, g3⟩ := hC hcc
        exact ⟨pre, zs, g1.trans (List.prefix_append _ _), g2, g3⟩
      | false =>
        have hne : xs'.length ≠ xs.length := by
          rcases e2 with ⟨e, -⟩ | ⟨-, e⟩
          · rw [hc', hcc] at e; cases e
          · exact e
        by_cases h : xs.length = xs0.length
        · exact ⟨new ++ [d], xs', List.prefix_refl _, replay_append_some hn (by simp [replay, hd]),
            fun e => hne (e.trans h.symm)⟩
        · exact ⟨new, xs, List.prefix_append _ _, hn, h⟩)
    (fun xs new xs' => xs'.length = xs.length) (by simp)
    (by
      intro v c d xs0 new xs xs' hR hd hD hc v' hb
      subst hR
      obtain ⟨c', e1, e2⟩ := lenBody_spec hd c
      rw [e1] at hb
      simp only [Ctl.cont.injEq, Prod.mk.injEq] at hb
      rcases e2 with ⟨-, e⟩ | ⟨e, -⟩
      · exact e.trans hD
      · rw [hb.2] at e; cases e)
    (by
      intro v d v' c' hb
      cases d <;> simp only [lenBody] at hb <;> (try split at hb) <;> simp at hb <;>
        exact hb.2)
    s.signal s.len xs hok hv hR
  by_cases hc : c = true ∨ s.first = true
  · refine ⟨.ready (some v'), ⟨i', false, v'⟩, xs', new, ?_, h2, h3, h6, h4, h5, h6, rfl, ?_⟩
    · rcases h9 with ⟨rfl, -⟩ | ⟨rfl, -⟩ <;> rcases hc with hc | hc <;>
        simp [VLen.poll, h1, hc]
    · rcases hc with hc | hc
      · exact .inr (h7 hc)
      · exact .inl hc
  · simp only [not_or, Bool.not_eq_true] at hc
    have h8 := h8 hc.1
    rcases h9 with ⟨rfl, h91⟩ | ⟨rfl, h91, h92⟩
    · exact ⟨.ready none, ⟨i', s.first, v'⟩, xs', new, by simp [VLen.poll, h1, hc], h2, h3, h6,
        h4, h5, h8, hc.2, hc.2, h91⟩
    · exact ⟨.pending, ⟨i', s.first, v'⟩, xs', new, by simp [VLen.poll, h1, hc], h2, h3, h6,
        h4, h5, h8, hc.2, hc.2, h91, h92⟩

end Verif
