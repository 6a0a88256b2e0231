import Verif.ChainProofs

/-!
# Proofs about `SignalVec::flatten`
-/

namespace Verif

variable {α β ι σ ρ : Type}

/-! ## Loops do not change what an input delivers in total -/

theorem Src.loop_all (w : Waker) (body : σ → α → Ctl σ ρ) (src : Src (Option α)) (s : σ) :
    (src.loop w body s).2.2.all = src.all := by
  refine pollLoop_rule (w := w) (body := body) (fun _ src' => src'.all = src.all)
    (fun _ _ src' => src'.all = src.all) ?_ ?_ ?_ ?_ ?_ src s rfl
  · intro s a t h s' h1 _
    rw [← h1]; simp [Src.all, Src.got, items_append]
  · intro s a t h s' r h1 _
    rw [← h1]; simp [Src.all, Src.got, items_append]
  · intro s a t h h1 _
    rw [← h1]; simp [Src.all, Src.got, items_append]
  · intro s t h h1
    rw [← h1]; simp [Src.all, Src.got, items_append]
  · rintro s t t' h h1 (rfl | ⟨rfl, rfl⟩) <;>
    rw [← h1] <;> simp [Src.all, Src.got, items_append]

theorem Inp.loop_all (w : Waker) (body : σ → α → Ctl σ ρ) (i : Inp (Option α)) (s : σ) :
    (i.loop w body s).2.2.src.all = i.src.all := by
  have := Src.loop_all w body i.src s
  unfold Inp.loop
  split
  · rename_i ha
    split
    · rename_i h; rw [h] at this; exact this
    · rename_i h; rw [h] at this; exact this
  · rfl

/-! ## Inner vectors -/

/-- What the diffs consumed from an inner vector describe. -/
def FState.contents (x : FState ι β) : List β := (replay x.signalVec.src.got []).getD []

/-- Invariant of one inner vector. -/
structure FOk (g : ι → List (Poll (Option (VecDiff β)))) (x : FState ι β) : Prop where
  inp : x.signalVec.Ok
  valid : Valid anyDiff x.signalVec.src x.contents
  all : x.signalVec.src.all = items (g x.tag)
  len : x.len = x.contents.length

theorem contents_eq {x : FState ι β} {ys : List β} (h : replay x.signalVec.src.got [] = some ys) :
    x.contents = ys := by simp [FState.contents, h]

theorem FOk.new {g : ι → List (Poll (Option (VecDiff β)))}
    (hg : ∀ t, ∃ z, replay (items (g t)) [] = some z) (t : ι) : FOk g (FState.new g t) :=
  ⟨Inp.ok_mk' _, valid_mk' (feed_any.2 (hg t)), Src.all_mk' _, rfl⟩

theorem new_contents (g : ι → List (Poll (Option (VecDiff β)))) (t : ι) :
    (FState.new g t).contents = [] := rfl

/-- An input that is in its final state of a call that answered `Pending` or the end. -/
def Settled (w : Waker) (i : Inp (Option α)) : Prop := i.alive = false ∨ i.src.armed w

theorem FState.pollValues_spec {g : ι → List (Poll (Option (VecDiff β)))} (w : Waker)
    {x : FState ι β} (h : FOk g x) (hnew : x.contents = []) :
    ∃ vs x', x.pollValues w = some (vs, x') ∧ x'.tag = x.tag ∧ FOk g x' ∧ vs = x'.contents := by
  obtain ⟨st, s', i', ys, h1, h2, h3, h4⟩ := Inp.vloop_rule (ok := anyDiff) (w := w)
    (body := pollValuesBody (β := β)) (fun s ys => s.1 = ys.length ∧ s.2 = ys)
    (fun _ _ _ => False)
    (by
      rintro s ys d ys' ⟨a, b⟩ - hd
      have hl := updateLen_apply hd
      rw [← a] at hl
      simp only [pollValuesBody, hl, b, hd]
      exact ⟨trivial, trivial⟩)
    x.signalVec (x.len, []) [] h.inp (hnew ▸ h.valid) ⟨by simpa [hnew] using h.len, rfl⟩
  have hall := Inp.loop_all w (pollValuesBody (β := β)) x.signalVec (x.len, [])
  rw [h1] at hall
  obtain ⟨len, out⟩ := s'
  have key : len = ys.length → out = ys → FOk g ⟨x.tag, i', len⟩ ∧
      out = FState.contents ⟨x.tag, i', len⟩ := by
    rintro rfl rfl
    have : FState.contents (⟨x.tag, i', out.length⟩ : FState ι β) = out := contents_eq h3.now
    exact ⟨⟨h2, by rw [this]; exact h3, hall.trans h.all, by rw [this]⟩, this.symm⟩
  unfold FState.pollValues
  rw [h1]
  cases st with
  | panic => exact h4.elim
  | ret r => exact h4.1.elim
  | ended => exact ⟨_, _, rfl, rfl, key h4.1.1 h4.1.2⟩
  | pending => exact ⟨_, _, rfl, rfl, key h4.1.1 h4.1.2⟩

theorem pollAllValues_spec {g : ι → List (Poll (Option (VecDiff β)))}
    (hg : ∀ t, ∃ z, replay (items (g t)) [] = some z) (w : Waker) (ts : List ι) :
    ∃ vs xs, pollAllValues w (ts.map (FState.new g)) = some (vs, xs) ∧ xs.map (·.tag) = ts ∧
      (∀ x ∈ xs, FOk g x) ∧ vs = xs.flatMap (·.contents) := by
  induction ts with
  | nil => exact ⟨[], [], rfl, rfl, by simp, rfl⟩
  | cons t ts ih =>
    obtain ⟨vs, xs, h1, h2, h3, h4⟩ := ih
    obtain ⟨v, x, g1, g2, g3, g4⟩ := FState.pollValues_spec w (FOk.new hg t) (new_contents g t)
    refine ⟨v ++ vs, x :: xs, by simp [pollAllValues, g1, h1], by simp [g2, h2, FState.new], ?_, by simp [g4, h4]⟩
    intro y hy
    rcases List.mem_cons.1 hy with rfl | hy
    · exact g3
    · exact h3 y hy

/-- What one diff of an inner vector queues. -/
theorem pollPendingBody_spec {d : VecDiff β} {ys ys' : List β} (p q : List β)
    (pending : List (VecDiff β)) (hd : d.apply ys = some ys') :
    ∃ add, pollPendingBody p.length (ys.length, pending) d = .cont (ys'.length, pending ++ add) ∧
      replay add (p ++ ys ++ q) = some (p ++ ys' ++ q) := by
  have hl := updateLen_apply hd
  have h1 := replay_removesDesc p ys q
  cases d with
  | replace vs =>
    cases hd
    refine ⟨removesDesc p.length ys.length ++ insertsFrom p.length ys', ?_, ?_⟩
    · simp [pollPendingBody, updateLen]
    · simp only [List.append_assoc] at h1 ⊢
      have := replay_insertsFrom p ys' q
      exact replay_append_some h1 (by simpa using this)
  | clear =>
    cases hd
    refine ⟨removesDesc p.length ys.length, ?_, ?_⟩
    · simp [pollPendingBody, updateLen]
    · simpa using h1
  | insertAt i a =>
    refine ⟨[.insertAt (p.length + i) a], ?_, ?_⟩
    · simp [pollPendingBody, hl]
    · rw [replay_singleton]
      cases apply_eq_some.1 hd with
      | insertAt u v a => exact apply_eq_some.2 (by simpa using Applies.insertAt (p ++ u) (v ++ q) a)
  | updateAt i a =>
    refine ⟨[.updateAt (p.length + i) a], ?_, ?_⟩
    · simp [pollPendingBody, hl]
    · rw [replay_singleton]
      cases apply_eq_some.1 hd with
      | updateAt u b v a => exact apply_eq_some.2 (by simpa using Applies.updateAt (p ++ u) b (v ++ q) a)
  | removeAt i =>
    refine ⟨[.removeAt (p.length + i)], ?_, ?_⟩
    · simp [pollPendingBody, hl]
    · rw [replay_singleton]
      cases apply_eq_some.1 hd with
      | removeAt u b v => exact apply_eq_some.2 (by simpa using Applies.removeAt (p ++ u) b (v ++ q))
  | move i j =>
    refine ⟨[.move (p.length + i) (p.length + j)], ?_, ?_⟩
    · simp [pollPendingBody, hl]
    · rw [replay_singleton]
      cases apply_eq_some.1 hd with
      | moveFwd u a m v =>
        exact apply_eq_some.2 (by simpa [Nat.add_assoc] using Applies.moveFwd (p ++ u) a m (v ++ q))
      | moveBack u m a v =>
        exact apply_eq_some.2 (by simpa [Nat.add_assoc] using Applies.moveBack (p ++ u) m a (v ++ q))
  | push a =>
    refine ⟨[.insertAt (p.length + ys.length) a], ?_, ?_⟩
    · simp [pollPendingBody, hl]
    · rw [replay_singleton]
      cases hd
      exact apply_eq_some.2 (by simpa using Applies.insertAt (p ++ ys) q a)
  | pop =>
    refine ⟨[.removeAt (p.length + (ys.length - 1))], ?_, ?_⟩
    · simp [pollPendingBody, hl]
    · rw [replay_singleton]
      cases apply_eq_some.1 hd with
      | pop _ a => exact apply_eq_some.2 (by simpa using Applies.removeAt (p ++ ys') a q)

theorem FState.pollPending_spec {g : ι → List (Poll (Option (VecDiff β)))} (w : Waker)
    {x : FState ι β} (h : FOk g x) (p q : List β) (pending : List (VecDiff β)) :
    ∃ done add x', x.pollPending w p.length pending = some (done, pending ++ add, x') ∧
      x'.tag = x.tag ∧ FOk g x' ∧
      replay add (p ++ x.contents ++ q) = some (p ++ x'.contents ++ q) ∧
      (done = true → x'.signalVec.alive = false) ∧
      (done = false → x'.signalVec.alive = true ∧ x'.signalVec.src.armed w) := by
  obtain ⟨st, s', i', ys, h1, h2, h3, h4⟩ := Inp.vloop_rule (ok := anyDiff) (w := w)
    (body := pollPendingBody (β := β) p.length) (fun s ys => s.1 = ys.length ∧
      ∃ add, s.2 = pending ++ add ∧ replay add (p ++ x.contents ++ q) = some (p ++ ys ++ q))
    (fun _ _ _ => False)
    (by
      rintro ⟨len, pend⟩ ys d ys' ⟨rfl, add, rfl, hr⟩ - hd
      obtain ⟨add', e1, e2⟩ := pollPendingBody_spec p q (pending ++ add) hd
      rw [e1]
      exact ⟨rfl, add ++ add', by simp, replay_append_some hr e2⟩)
    x.signalVec (x.len, pending) x.contents h.inp h.valid ⟨h.len, [], by simp, rfl⟩
  have hall := Inp.loop_all w (pollPendingBody (β := β) p.length) x.signalVec (x.len, pending)
  rw [h1] at hall
  obtain ⟨len, out⟩ := s'
  have hc : ∀ len, FState.contents (⟨x.tag, i', len⟩ : FState ι β) = ys :=
    fun len => contents_eq h3.now
  have key : len = ys.length → FOk g ⟨x.tag, i', len⟩ := by
    rintro rfl
    exact ⟨h2, by rw [hc]; exact h3, hall.trans h.all, by rw [hc]⟩
  unfold FState.pollPending
  rw [h1]
  cases st with
  | panic => exact h4.elim
  | ret r => exact h4.1.elim
  | ended =>
    obtain ⟨⟨e1, add, rfl, e3⟩, e4⟩ := h4
    exact ⟨_, add, _, rfl, rfl, key e1, by rw [hc]; exact e3, fun _ => e4, by simp⟩
  | pending =>
    obtain ⟨⟨e1, add, rfl, e3⟩, e4⟩ := h4
    exact ⟨_, add, _, rfl, rfl, key e1, by rw [hc]; exact e3, by simp, fun _ => e4⟩

theorem pollAllPending_spec {g : ι → List (Poll (Option (VecDiff β)))} (w : Waker)
    (xs : List (FState ι β)) (h : ∀ x ∈ xs, FOk g x) (p : List β) (pending : List (VecDiff β)) :
    ∃ done add xs', pollAllPending w p.length pending xs = some (done, pending ++ add, xs') ∧
      xs'.map (·.tag) = xs.map (·.tag) ∧ (∀ x ∈ xs', FOk g x) ∧
      replay add (p ++ xs.flatMap (·.contents)) = some (p ++ xs'.flatMap (·.contents)) ∧
      (∀ x ∈ xs', Settled w x.signalVec) ∧
      (done = true ↔ ∀ x ∈ xs', x.signalVec.alive = false) := by
  induction xs generalizing p pending with
  | nil => exact ⟨true, [], [], by simp [pollAllPending], rfl, by simp, rfl, by simp, by simp⟩
  | cons x xs ih =>
    obtain ⟨done, add, x', a1, a2, a3, a4, a5, a6⟩ := FState.pollPending_spec w (h x (by simp)) p
      (xs.flatMap (·.contents)) pending
    obtain ⟨done', add', xs', b1, b2, b3, b4, b5, b6⟩ := ih (fun y hy => h y (by simp [hy]))
      (p ++ x'.contents) (pending ++ add)
    refine ⟨done && done', add ++ add', x' :: xs', ?_, by simp [a2, b2], ?_, ?_, ?_, ?_⟩
    · rw [pollAllPending, a1]
      simp only
      rw [a3.len, ← List.length_append, b1]
      simp
    · intro y hy
      rcases List.mem_cons.1 hy with rfl | hy
      · exact a3
      · exact b3 y hy
    · simp only [List.flatMap_cons, ← List.append_assoc]
      exact replay_append_some a4 b4
    · intro y hy
      rcases List.mem_cons.1 hy with rfl | hy
      · cases done with
        | true => exact .inl (a5 rfl)
        | false => exact .inr (a6 rfl).2
      · exact b5 y hy
    · simp only [Bool.and_eq_true, b6, List.forall_mem_cons]
      constructor
      · rintro ⟨c1, c2⟩; exact ⟨a5 c1, c2⟩
      · rintro ⟨c1, c2⟩
        refine ⟨?_, c2⟩
        cases done with
        | true => rfl
        | false => rw [(a6 rfl).1] at c1; cases c1

/-! ## The whole -/

/-- Changes of the outer vector that do not remove, move or exchange single inner vectors. -/
def OuterOk (d : VecDiff ι) (_ : List ι) : Prop :=
  match d with
  | .replace _ => True
  | .insertAt _ _ => True
  | .push _ => True
  | .clear => True
  | .updateAt _ _ => False
  | .removeAt _ => False
  | .move _ _ => False
  | .pop => False

structure FlattenInv (g : ι → List (Poll (Option (VecDiff β)))) (s : VFlatten ι β)
    (ts : List ι) (zs : List β) : Prop where
  inp : s.signal.Ok
  valid : Valid OuterOk s.signal.src ts
  tags : s.inner.map (·.tag) = ts
  inner : ∀ x ∈ s.inner, FOk g x
  queue : replay s.pending zs = some (s.inner.flatMap (·.contents))

theorem VFlatten.step {g : ι → List (Poll (Option (VecDiff β)))}
    (hg : ∀ t, ∃ z, replay (items (g t)) [] = some z) (w : Waker) {s : VFlatten ι β}
    {ts : List ι} {zs : List β} (h : FlattenInv g s ts zs) :
    ∃ r s' ts', VFlatten.poll g w s = some (r, s') ∧
      match r with
      | .ready (some d) => ∃ zs', d.apply zs = some zs' ∧ FlattenInv g s' ts' zs'
      | .ready none => FlattenInv g s' ts' zs ∧ s'.pending = [] ∧ s'.signal.alive = false ∧
          ∀ x ∈ s'.inner, x.signalVec.alive = false
      | .pending => FlattenInv g s' ts' zs ∧ s'.pending = [] ∧ Settled w s'.signal ∧
          ∀ x ∈ s'.inner, Settled w x.signalVec := by
  obtain ⟨sig, inner, pend⟩ := s
  unfold VFlatten.poll
  cases hp : pend with
  | cons c rest =>
    subst hp
    have hq := h.queue
    simp only [replay] at hq
    cases hc : c.apply zs with
    | none => simp [hc] at hq
    | some zs' =>
      simp only [hc] at hq
      exact ⟨_, _, ts, rfl, zs', hc, h.inp, h.valid, h.tags, h.inner, hq⟩
  | nil =>
    subst hp
    simp only
    have hzs : zs = inner.flatMap (·.contents) := by simpa [replay] using h.queue
    obtain ⟨st, inner', i', ts', h1, h2, h3, h4⟩ := Inp.vloop_rule (ok := OuterOk) (w := w)
      (body := flattenBody g w)
      (fun inner ts => inner.map (·.tag) = ts ∧ (∀ x ∈ inner, FOk g x) ∧
        zs = inner.flatMap (·.contents))
      (fun d inner ts => inner.map (·.tag) = ts ∧ (∀ x ∈ inner, FOk g x) ∧
        d.apply zs = some (inner.flatMap (·.contents)))
      (by
        rintro inner ts d ts' ⟨a, b, c⟩ hok hd
        cases d with
        | replace vs =>
          cases hd
          obtain ⟨vs, xs, e1, e2, e3, e4⟩ := pollAllValues_spec hg w ts'
          simp only [flattenBody, e1]
          exact ⟨e2, e3, by simp [VecDiff.apply, e4]⟩
        | insertAt i t =>
          obtain ⟨p, q, e1, rfl, rfl⟩ := vInsert_eq_some.1 hd
          subst a
          obtain ⟨p', q', rfl, rfl, rfl⟩ := List.map_eq_append_iff.1 e1
          simp only [flattenBody, List.length_map, vInsert_append]
          refine ⟨by simp [FState.new], ?_, by simpa [new_contents] using c⟩
          intro x hx
          simp only [List.mem_append, List.mem_cons] at hx
          rcases hx with hx | rfl | hx
          · exact b x (by simp [hx])
          · exact FOk.new hg t
          · exact b x (by simp [hx])
        | push t =>
          cases hd
          subst a
          simp only [flattenBody]
          refine ⟨by simp [FState.new], ?_, by simpa [new_contents] using c⟩
          intro x hx
          simp only [List.mem_append, List.mem_singleton] at hx
          rcases hx with hx | rfl
          · exact b x hx
          · exact FOk.new hg t
        | clear =>
          cases hd
          exact ⟨rfl, by simp, rfl⟩
        | updateAt i t => exact hok.elim
        | removeAt i => exact hok.elim
        | move i j => exact hok.elim
        | pop => exact hok.elim)
      sig inner ts h.inp h.valid ⟨h.tags, h.inner, hzs⟩
    rw [h1]
    have hfin : ∀ top, (top = true → i'.alive = false) →
        (top = false → i'.alive = true ∧ i'.src.armed w) →
        inner'.map (·.tag) = ts' → (∀ x ∈ inner', FOk g x) → zs = inner'.flatMap (·.contents) →
        ∃ r s' ts', VFlatten.finish w top i' inner' = some (r, s') ∧
          match r with
          | .ready (some d) => ∃ zs', d.apply zs = some zs' ∧ FlattenInv g s' ts' zs'
          | .ready none => FlattenInv g s' ts' zs ∧ s'.pending = [] ∧ s'.signal.alive = false ∧
              ∀ x ∈ s'.inner, x.signalVec.alive = false
          | .pending => FlattenInv g s' ts' zs ∧ s'.pending = [] ∧ Settled w s'.signal ∧
              ∀ x ∈ s'.inner, Settled w x.signalVec := by
      intro top ht1 ht2 a b c
      obtain ⟨done, add, xs', e1, e2, e3, e4, e5, e6⟩ := pollAllPending_spec w inner' b [] []
      simp only [List.length_nil, List.nil_append] at e1 e4
      rw [← c] at e4
      unfold VFlatten.finish
      rw [e1]
      cases add with
      | cons d rest =>
        simp only [replay] at e4
        cases hc : d.apply zs with
        | none => simp [hc] at e4
        | some zs' =>
          simp only [hc] at e4
          exact ⟨_, _, ts', rfl, zs', hc, h2, h3, e2.trans a, e3, e4⟩
      | nil =>
        by_cases hd : done && top
        · simp only [hd, if_true]
          simp only [Bool.and_eq_true] at hd
          exact ⟨_, _, ts', rfl, ⟨h2, h3, e2.trans a, e3, e4⟩, rfl, ht1 hd.2, e6.1 hd.1⟩
        · simp only [hd]
          refine ⟨_, _, ts', rfl, ⟨h2, h3, e2.trans a, e3, e4⟩, rfl, ?_, e5⟩
          cases top with
          | true => exact .inl (ht1 rfl)
          | false => exact .inr (ht2 rfl).2
    cases st with
    | panic => exact h4.elim
    | ret d =>
      obtain ⟨⟨a, b, c⟩, -⟩ := h4
      exact ⟨_, _, ts', rfl, _, c, h2, h3, a, b, rfl⟩
    | ended =>
      obtain ⟨⟨a, b, c⟩, e⟩ := h4
      exact hfin true (fun _ => e) (by simp) a b c
    | pending =>
      obtain ⟨⟨a, b, c⟩, e⟩ := h4
      exact hfin false (by simp) (fun _ => e) a b c

end Verif
