import Verif.Props.SignalVecFlatten

/-!
# `SignalVec::flatten` with any history of the outer vector (property C14)

`RemoveAt`, `Pop`, `UpdateAt` and `Move` of the outer vector are handled wrongly (`C14_flatten_fails`).
Here: how wrong.
-/

namespace Verif

variable {α β ι : Type}

/-- Whether a diff can be applied, and the length it leaves, depend on the length only. -/
theorem apply_length {d : VecDiff α} {xs xs' ys : List α} (hd : d.apply xs = some xs')
    (hl : ys.length = xs.length) : ∃ ys', d.apply ys = some ys' ∧ ys'.length = xs'.length := by
  cases d with
  | replace vs => cases hd; exact ⟨_, rfl, rfl⟩
  | clear => cases hd; exact ⟨_, rfl, rfl⟩
  | push a => cases hd; exact ⟨_, rfl, by simp [hl]⟩
  | insertAt i a =>
    obtain ⟨p, q, rfl, rfl, rfl⟩ := vInsert_eq_some.1 hd
    simp only [List.length_append] at hl
    refine ⟨_, apply_eq_some.2 (by
      have := Applies.insertAt (ys.take p.length) (ys.drop p.length) a
      rwa [List.take_append_drop, List.length_take, Nat.min_eq_left (by omega)] at this), ?_⟩
    simp; omega
  | updateAt i a =>
    cases apply_eq_some.1 hd with
    | updateAt p b q =>
      simp only [List.length_append, List.length_cons] at hl
      have hp : p.length < ys.length := by omega
      refine ⟨ys.set p.length a, by simp [VecDiff.apply, vSet, hp], by simp [hl]⟩
  | removeAt i =>
    cases apply_eq_some.1 hd with
    | removeAt p b q =>
      simp only [List.length_append, List.length_cons] at hl
      cases hr : vRemove ys p.length with
      | none => rw [vRemove_eq_none] at hr; omega
      | some r =>
        obtain ⟨b', ys'⟩ := r
        obtain ⟨p', q', h1, h2, rfl⟩ := vRemove_eq_some.1 hr
        refine ⟨p' ++ q', by simp [VecDiff.apply, hr], ?_⟩
        rw [h1] at hl
        simp only [List.length_append, List.length_cons] at hl ⊢
        omega
  | move i j =>
    cases hr : vRemove ys i with
    | none =>
      rw [vRemove_eq_none] at hr
      cases apply_eq_some.1 hd with
      | moveFwd p a m q => simp only [List.length_append, List.length_cons] at hl; omega
      | moveBack p m a q => simp only [List.length_append, List.length_cons] at hl; omega
    | some r =>
      obtain ⟨b', ys1⟩ := r
      obtain ⟨p', q', h1, h2, rfl⟩ := vRemove_eq_some.1 hr
      have hlen : (p' ++ q').length + 1 = ys.length := by rw [h1]; simp; omega
      cases hi : vInsert (p' ++ q') j b' with
      | none =>
        rw [vInsert_eq_none] at hi
        cases apply_eq_some.1 hd with
        | moveFwd p a m q => simp only [List.length_append, List.length_cons] at hl; omega
        | moveBack p m a q => simp only [List.length_append, List.length_cons] at hl; omega
      | some ys' =>
        obtain ⟨u, v, h3, h4, rfl⟩ := vInsert_eq_some.1 hi
        refine ⟨u ++ b' :: v, by simp [VecDiff.apply, hr, hi], ?_⟩
        have e1 : (u ++ b' :: v).length = (p' ++ q').length + 1 := by rw [h3]; simp; omega
        rw [e1, hlen, hl]
        cases apply_eq_some.1 hd <;> simp <;> omega
  | pop =>
    cases apply_eq_some.1 hd with
    | pop _ a =>
      simp only [List.length_append, List.length_singleton] at hl
      rcases List.eq_nil_or_concat ys with h | ⟨u, b, h⟩
      · subst h; simp at hl
      · rw [List.concat_eq_append] at h
        subst h
        refine ⟨u, apply_eq_some.2 (.pop u b), ?_⟩
        simp at hl; omega

/-- What all inner vectors hold together, according to `flatten`. -/
def total (xs : List (FState ι β)) : Nat := (xs.map fun x => x.contents.length).sum

theorem total_append (xs ys : List (FState ι β)) : total (xs ++ ys) = total xs + total ys := by
  simp [total]

theorem total_cons (x : FState ι β) (xs : List (FState ι β)) :
    total (x :: xs) = x.contents.length + total xs := rfl

theorem length_flatMap_contents (xs : List (FState ι β)) :
    (xs.flatMap (·.contents)).length = total xs := by
  induction xs with
  | nil => rfl
  | cons x xs ih => rw [List.flatMap_cons, List.length_append, ih, total_cons]

theorem FState.pollPending_len {g : ι → List (Poll (Option (VecDiff β)))} (w : Waker)
    {x : FState ι β} (h : FOk g x) (p y q : List β) (hy : y.length = x.contents.length)
    (pending : List (VecDiff β)) :
    ∃ done add x' y', x.pollPending w p.length pending = some (done, pending ++ add, x') ∧
      x'.tag = x.tag ∧ FOk g x' ∧ y'.length = x'.contents.length ∧
      replay add (p ++ y ++ q) = some (p ++ y' ++ q) := by
  obtain ⟨st, s', i', ys, h1, h2, h3, h4⟩ := Inp.vloop_rule (ok := anyDiff) (w := w)
    (body := pollPendingBody (β := β) p.length) (fun s ys => s.1 = ys.length ∧
      ∃ add y', s.2 = pending ++ add ∧ y'.length = ys.length ∧
        replay add (p ++ y ++ q) = some (p ++ y' ++ q))
    (fun _ _ _ => False)
    (by
      rintro ⟨len, pend⟩ ys d ys' ⟨rfl, add, y1, rfl, hy1, hr⟩ - hd
      obtain ⟨y2, hy2, hl2⟩ := apply_length hd hy1
      obtain ⟨add', e1, e2⟩ := pollPendingBody_spec p q (pending ++ add) hy2
      rw [hy1] at e1
      rw [e1]
      exact ⟨hl2, add ++ add', y2, by simp, hl2, replay_append_some hr e2⟩)
    x.signalVec (x.len, pending) x.contents h.inp h.valid ⟨h.len, [], y, by simp, hy, rfl⟩
  have hall := Inp.loop_all w (pollPendingBody (β := β) p.length) x.signalVec (x.len, pending)
  rw [h1] at hall
  obtain ⟨len, out⟩ := s'
  have hc : ∀ len, FState.contents (⟨x.tag, i', len⟩ : FState ι β) = ys :=
    fun len => contents_eq h3.now
  have key : len = ys.length → FOk g ⟨x.tag, i', len⟩ := by
    rintro rfl
    exact ⟨h2, by rw [hc]; exact h3, hall.trans h.all, by rw [hc]⟩
  unfold FState.pollPending
  rw [h1]
  cases st with
  | panic => exact h4.elim
  | ret r => exact h4.1.elim
  | ended =>
    obtain ⟨⟨e1, add, y', rfl, e2, e3⟩, e4⟩ := h4
    exact ⟨_, add, _, y', rfl, rfl, key e1, by rw [hc]; exact e2, e3⟩
  | pending =>
    obtain ⟨⟨e1, add, y', rfl, e2, e3⟩, e4⟩ := h4
    exact ⟨_, add, _, y', rfl, rfl, key e1, by rw [hc]; exact e2, e3⟩

theorem pollAllPending_len {g : ι → List (Poll (Option (VecDiff β)))} (w : Waker)
    (xs : List (FState ι β)) (h : ∀ x ∈ xs, FOk g x) (p y : List β) (hy : total xs ≤ y.length)
    (pending : List (VecDiff β)) :
    ∃ done add xs' y', pollAllPending w p.length pending xs = some (done, pending ++ add, xs') ∧
      xs'.map (·.tag) = xs.map (·.tag) ∧ (∀ x ∈ xs', FOk g x) ∧
      replay add (p ++ y) = some (p ++ y') ∧ y'.length + total xs = y.length + total xs' := by
  induction xs generalizing p y pending with
  | nil => exact ⟨true, [], [], y, by simp [pollAllPending], rfl, by simp, rfl, rfl⟩
  | cons x xs ih =>
    rw [total_cons] at hy
    obtain ⟨done, add, x', y1, a1, a2, a3, a4, a5⟩ := FState.pollPending_len w (h x (by simp)) p
      (y.take x.contents.length) (y.drop x.contents.length)
      (by rw [List.length_take]; omega) pending
    obtain ⟨done', add', xs', y2, b1, b2, b3, b4, b5⟩ := ih (fun z hz => h z (by simp [hz]))
      (p ++ y1) (y.drop x.contents.length) (by rw [List.length_drop]; omega) (pending ++ add)
    refine ⟨done && done', add ++ add', x' :: xs', y1 ++ y2, ?_, by simp [a2, b2], ?_, ?_, ?_⟩
    · rw [pollAllPending, a1]
      simp only
      rw [a3.len, ← a4, ← List.length_append, b1]
      simp
    · intro z hz
      rcases List.mem_cons.1 hz with rfl | hz
      · exact a3
      · exact b3 z hz
    · rw [List.append_assoc, List.take_append_drop] at a5
      rw [← List.append_assoc]
      exact replay_append_some a5 b4
    · rw [List.length_append, total_cons, total_cons, a4]
      rw [List.length_drop] at b5
      omega

/-! ## The specification -/

/-- The changes of the outer vector that `flatten` handles wrongly. -/
def Harms (d : VecDiff ι) : Prop :=
  match d with
  | .updateAt _ _ => True
  | .removeAt _ => True
  | .move _ _ => True
  | .pop => True
  | .replace _ => False
  | .insertAt _ _ => False
  | .push _ => False
  | .clear => False

/-- The changes of the outer vector that exchange everything. -/
def Mends (d : VecDiff ι) : Prop :=
  match d with
  | .replace _ => True
  | .clear => True
  | .updateAt _ _ => False
  | .removeAt _ => False
  | .move _ _ => False
  | .pop => False
  | .insertAt _ _ => False
  | .push _ => False

/-- Every wrongly handled change is followed, at once or later, by one that exchanges everything. -/
def Intact (ds : List (VecDiff ι)) : Prop :=
  ∀ pre d post, ds = pre ++ d :: post → Harms d → ∃ c ∈ post, Mends c

theorem intact_snoc {ds : List (VecDiff ι)} {d : VecDiff ι} (h : Intact (ds ++ [d])) :
    ¬ Harms d ∧ (¬ Mends d → Intact ds) := by
  refine ⟨fun hd => ?_, fun hm pre c post e hc => ?_⟩
  · obtain ⟨c, hc, -⟩ := h ds d [] rfl hd
    cases hc
  · obtain ⟨b, hb, hbm⟩ := h pre c (post ++ [d]) (by simp [e]) hc
    rcases List.mem_append.1 hb with hb | hb
    · exact ⟨b, hb, hbm⟩
    · obtain rfl : b = d := by simpa using hb
      exact (hm hbm).elim

/-! ## The proof -/

/-- As `FlattenInv`, but unless the history is `Intact` more may be shown than there is. -/
structure FlattenLoose (g : ι → List (Poll (Option (VecDiff β)))) (s : VFlatten ι β)
    (ts : List ι) (zs : List β) : Prop where
  inp : s.signal.Ok
  valid : Valid anyDiff s.signal.src ts
  tags : s.inner.map (·.tag) = ts
  inner : ∀ x ∈ s.inner, FOk g x
  queue : ∃ zs', replay s.pending zs = some zs' ∧ total s.inner ≤ zs'.length ∧
    (Intact s.signal.src.got → zs' = s.inner.flatMap (·.contents))

theorem VFlatten.step_loose {g : ι → List (Poll (Option (VecDiff β)))}
    (hg : ∀ t, ∃ z, replay (items (g t)) [] = some z) (w : Waker) {s : VFlatten ι β}
    {ts : List ι} {zs : List β} (h : FlattenLoose g s ts zs) :
    ∃ r s' ts', VFlatten.poll g w s = some (r, s') ∧
      match r with
      | .ready (some d) => ∃ zs', d.apply zs = some zs' ∧ FlattenLoose g s' ts' zs'
      | .ready none => FlattenLoose g s' ts' zs ∧ s'.pending = []
      | .pending => FlattenLoose g s' ts' zs ∧ s'.pending = [] := by
  obtain ⟨sig, inner, pend⟩ := s
  unfold VFlatten.poll
  cases hp : pend with
  | cons c rest =>
    subst hp
    obtain ⟨z, hq, hz⟩ := h.queue
    simp only [replay] at hq
    cases hc : c.apply zs with
    | none => simp [hc] at hq
    | some zs' =>
      simp only [hc] at hq
      exact ⟨_, _, ts, rfl, zs', hc, h.inp, h.valid, h.tags, h.inner, z, hq, hz⟩
  | nil =>
    subst hp
    simp only
    have hzs : total inner ≤ zs.length ∧ (Intact sig.src.got → zs = inner.flatMap (·.contents)) := by
      obtain ⟨z, hq, hz⟩ := h.queue
      simp only [replay, Option.some.injEq] at hq
      rw [hq]; exact hz
    obtain ⟨st, inner', i', h1, h2, h4⟩ := Inp.loop_rule (w := w) (body := flattenBody g w)
      (fun inner got todo => ∃ ts, (replay got [] = some ts ∧ Feed anyDiff todo ts) ∧
        inner.map (·.tag) = ts ∧ (∀ x ∈ inner, FOk g x) ∧ total inner ≤ zs.length ∧
        (Intact got → zs = inner.flatMap (·.contents)))
      (fun d inner got todo => ∃ ts, (replay got [] = some ts ∧ Feed anyDiff todo ts) ∧
        inner.map (·.tag) = ts ∧ (∀ x ∈ inner, FOk g x) ∧
        ∃ zs', d.apply zs = some zs' ∧ total inner ≤ zs'.length ∧
          (Intact got → zs' = inner.flatMap (·.contents)))
      (by
        rintro inner got d todo ⟨ts, ⟨hgot, -, ts', hd, htodo⟩, a, b, c, c'⟩
        have hnow : replay (got ++ [d]) [] = some ts' ∧ Feed anyDiff todo ts' :=
          ⟨replay_append_some hgot (by simp [replay, hd]), htodo⟩
        have hbad : Harms d → ¬ Intact (got ++ [d]) := fun hd h => (intact_snoc h).1 hd
        have hnew : ∀ t, (FState.new g t).contents.length = 0 := fun t => rfl
        cases d with
        | replace vs =>
          cases hd
          obtain ⟨vs, xs, e1, e2, e3, e4⟩ := pollAllValues_spec hg w ts'
          simp only [flattenBody, e1]
          exact ⟨_, hnow, e2, e3, vs, rfl, by rw [e4, length_flatMap_contents]; exact Nat.le_refl _, fun _ => e4⟩
        | clear =>
          cases hd
          exact ⟨_, hnow, rfl, by simp, [], rfl, Nat.le_refl _, fun _ => rfl⟩
        | push t =>
          cases hd
          subst a
          simp only [flattenBody]
          refine ⟨_, hnow, by simp [FState.new], ?_, ?_, fun hi => by
            simpa [new_contents] using c' ((intact_snoc hi).2 id)⟩
          · intro x hx
            simp only [List.mem_append, List.mem_singleton] at hx
            rcases hx with hx | rfl
            · exact b x hx
            · exact FOk.new hg t
          · rw [total_append, total_cons, hnew]; simpa [total] using c
        | insertAt i t =>
          obtain ⟨p, q, e1, rfl, rfl⟩ := vInsert_eq_some.1 hd
          subst a
          obtain ⟨p', q', rfl, rfl, rfl⟩ := List.map_eq_append_iff.1 e1
          simp only [flattenBody, List.length_map, vInsert_append]
          simp only [List.length_map] at hnow hbad
          refine ⟨_, hnow, by simp [FState.new], ?_, ?_, fun hi => by
            simpa [new_contents] using c' ((intact_snoc hi).2 id)⟩
          · intro x hx
            simp only [List.mem_append, List.mem_cons] at hx
            rcases hx with hx | rfl | hx
            · exact b x (by simp [hx])
            · exact FOk.new hg t
            · exact b x (by simp [hx])
          · rw [total_append] at c ⊢
            rw [total_cons, hnew]; omega
        | updateAt i t =>
          cases apply_eq_some.1 hd with
          | updateAt p y q _ =>
            obtain ⟨p', q', rfl, rfl, e2⟩ := List.map_eq_append_iff.1 a
            obtain ⟨x, q'', rfl, rfl, rfl⟩ := List.map_eq_cons_iff.1 e2
            simp only [flattenBody, List.length_map, vSet_append]
            simp only [List.length_map] at hnow hbad
            refine ⟨_, hnow, by simp [FState.new], ?_, ?_, fun hi => (hbad trivial hi).elim⟩
            · intro z hz
              simp only [List.mem_append, List.mem_cons] at hz
              rcases hz with hz | rfl | hz
              · exact b z (by simp [hz])
              · exact FOk.new hg t
              · exact b z (by simp [hz])
            · rw [total_append, total_cons] at c ⊢
              rw [hnew]; omega
        | removeAt i =>
          cases apply_eq_some.1 hd with
          | removeAt p y q =>
            obtain ⟨p', q', rfl, rfl, e2⟩ := List.map_eq_append_iff.1 a
            obtain ⟨x, q'', rfl, rfl, rfl⟩ := List.map_eq_cons_iff.1 e2
            simp only [flattenBody, List.length_map, vRemove_append]
            simp only [List.length_map] at hnow hbad
            refine ⟨_, hnow, by simp, ?_, ?_, fun hi => (hbad trivial hi).elim⟩
            · intro z hz
              refine b z ?_
              simp only [List.mem_append, List.mem_cons] at hz ⊢
              rcases hz with hz | hz <;> simp [hz]
            · rw [total_append, total_cons] at c
              rw [total_append]; omega
        | pop =>
          cases apply_eq_some.1 hd with
          | pop _ y =>
            obtain ⟨p', q', rfl, e1, e2⟩ := List.map_eq_append_iff.1 a
            obtain ⟨x, q'', rfl, rfl, e3⟩ := List.map_eq_cons_iff.1 e2
            obtain rfl := List.map_eq_nil_iff.1 e3
            simp only [flattenBody, vPop_snoc]
            refine ⟨_, hnow, e1, fun z hz => b z (by simp [hz]), ?_, fun hi => (hbad trivial hi).elim⟩
            rw [total_append] at c
            omega
        | move i j =>
          cases apply_eq_some.1 hd with
          | moveFwd p y m q =>
            obtain ⟨p', q', rfl, rfl, e2⟩ := List.map_eq_append_iff.1 a
            obtain ⟨x, q'', rfl, rfl, e3⟩ := List.map_eq_cons_iff.1 e2
            obtain ⟨m', q3, rfl, rfl, rfl⟩ := List.map_eq_append_iff.1 e3
            simp only [flattenBody, List.length_map, vRemove_append]
            simp only [List.length_map] at hnow hbad
            have : vInsert (p' ++ (m' ++ q3)) (p'.length + m'.length) x = some (p' ++ m' ++ x :: q3) := by
              have := vInsert_append (p' ++ m') q3 x
              simpa using this
            rw [this]
            refine ⟨_, hnow, by simp, ?_, ?_, fun hi => (hbad trivial hi).elim⟩
            · intro z hz
              refine b z ?_
              simp only [List.mem_append, List.mem_cons] at hz ⊢
              grind
            · simp only [total_append, total_cons] at c ⊢
              omega
          | moveBack p m y q =>
            obtain ⟨pm, q', rfl, e1, e2⟩ := List.map_eq_append_iff.1 a
            obtain ⟨p', m', rfl, rfl, rfl⟩ := List.map_eq_append_iff.1 e1
            obtain ⟨x, q'', rfl, rfl, rfl⟩ := List.map_eq_cons_iff.1 e2
            have hr : vRemove (p' ++ m' ++ x :: q'') (p'.length + m'.length) = some (x, p' ++ m' ++ q'') := by
              have := vRemove_append (p' ++ m') q'' x
              rwa [List.length_append] at this
            have hi : vInsert (p' ++ m' ++ q'') p'.length x = some (p' ++ x :: (m' ++ q'')) := by
              have := vInsert_append p' (m' ++ q'') x
              rwa [← List.append_assoc] at this
            simp only [flattenBody, List.length_map, hr, hi]
            simp only [List.length_map] at hnow hbad
            refine ⟨_, hnow, by simp, ?_, ?_, fun hi => (hbad trivial hi).elim⟩
            · intro z hz
              refine b z ?_
              simp only [List.mem_append, List.mem_cons] at hz ⊢
              grind
            · simp only [total_append, total_cons] at c ⊢
              omega)
      sig inner h.inp ⟨ts, ⟨h.valid.now, h.valid.rest⟩, h.tags, h.inner, hzs⟩
    rw [h1]
    have hfin : ∀ top ts', (replay i'.src.got [] = some ts' ∧ Feed anyDiff (items i'.src.todo) ts') →
        inner'.map (·.tag) = ts' → (∀ x ∈ inner', FOk g x) → total inner' ≤ zs.length →
        (Intact i'.src.got → zs = inner'.flatMap (·.contents)) →
        ∃ r s' ts', VFlatten.finish w top i' inner' = some (r, s') ∧
          match r with
          | .ready (some d) => ∃ zs', d.apply zs = some zs' ∧ FlattenLoose g s' ts' zs'
          | .ready none => FlattenLoose g s' ts' zs ∧ s'.pending = []
          | .pending => FlattenLoose g s' ts' zs ∧ s'.pending = [] := by
      intro top ts' h3 a b c c'
      obtain ⟨done, add, xs', y', e1, e2, e3, e4, e5⟩ := pollAllPending_len w inner' b [] zs c []
      simp only [List.length_nil, List.nil_append] at e1 e4
      have e6 : Intact i'.src.got → y' = xs'.flatMap (·.contents) := by
        intro hi
        obtain ⟨done1, add1, xs1, f1, -, -, f4, -, -⟩ := pollAllPending_spec w inner' b [] []
        simp only [List.length_nil, List.nil_append] at f1 f4
        rw [f1] at e1
        cases e1
        rw [← c' hi] at f4
        exact Option.some.inj (e4.symm.trans f4)
      unfold VFlatten.finish
      rw [e1]
      cases add with
      | cons d rest =>
        simp only [replay] at e4
        cases hc : d.apply zs with
        | none => simp [hc] at e4
        | some zs' =>
          simp only [hc] at e4
          exact ⟨_, _, ts', rfl, zs', hc, h2, ⟨h3.1, h3.2⟩, e2.trans a, e3, y', e4, by simp only; omega, e6⟩
      | nil =>
        have hq : ∃ zs', replay [] zs = some zs' ∧ total xs' ≤ zs'.length ∧
            (Intact i'.src.got → zs' = xs'.flatMap (·.contents)) := ⟨y', e4, by omega, e6⟩
        by_cases hd : done && top
        · simp only [hd, if_true]
          exact ⟨_, _, ts', rfl, ⟨h2, ⟨h3.1, h3.2⟩, e2.trans a, e3, hq⟩, rfl⟩
        · simp only [hd]
          exact ⟨_, _, ts', rfl, ⟨h2, ⟨h3.1, h3.2⟩, e2.trans a, e3, hq⟩, rfl⟩
    cases st with
    | panic => exact h4.elim
    | ret d =>
      obtain ⟨⟨ts', h3, a, b, zs', c1, c2⟩, -⟩ := h4
      exact ⟨_, _, ts', rfl, _, c1, h2, ⟨h3.1, h3.2⟩, a, b, zs', rfl, c2⟩
    | ended =>
      obtain ⟨⟨ts', h3, a, b, c, c'⟩, -⟩ := h4
      exact hfin true ts' h3 a b c c'
    | pending =>
      obtain ⟨⟨ts', h3, a, b, c, c'⟩, -⟩ := h4
      exact hfin false ts' h3 a b c c'

/-- **C14** (partial), for histories of the outer vector with diffs of all eight kinds.  Whatever the
outer vector does, for all well-formed histories of the inner vectors and every schedule of polls: no
poll panics, the emitted diffs are applicable, `flatten` holds exactly the inner vectors the outer
vector holds, in that order, and whenever the last answer is `Pending` or the end:
* what is shown is never shorter than the inner vectors together;
* if every wrongly handled change (`UpdateAt`, `RemoveAt`, `Move`, `Pop`) was followed by a `Replace`
  or `Clear` of the outer vector, what is shown is exactly their concatenation: `flatten` recovers.

Missing for the full claim: what is shown after a wrongly handled change, for which it is false
(`C14_flatten_fails`, `C14_flatten_wrong_index`). -/
theorem C14_flatten_any_partial (g : ι → List (Poll (Option (VecDiff β))))
    (hg : ∀ t, ∃ z, replay (items (g t)) [] = some z)
    (script : List (Poll (Option (VecDiff ι)))) (hwf : ∃ z, replay (items script) [] = some z)
    (ws : List Waker) :
    ∃ outs s zs, run (VFlatten.poll g) ws (VFlatten.init script) = some (outs, s) ∧
      replay (items outs) [] = some zs ∧
      replay s.signal.src.got [] = some (s.inner.map (·.tag)) ∧
      (∀ x ∈ s.inner, x.signalVec.src.all = items (g x.tag)) ∧
      (outs.getLast? = some .pending ∨ .ready none ∈ outs →
        ∃ parts : List (List β),
          s.inner.map (fun x => replay x.signalVec.src.got []) = parts.map some ∧
          parts.flatten.length ≤ zs.length ∧
          (Intact s.signal.src.got → zs = parts.flatten)) := by
  obtain ⟨outs, s, zs, h1, h2, h3, h4, h5⟩ := vec_run (poll := VFlatten.poll g)
    (fun s zs => ∃ ts, FlattenLoose g s ts zs)
    (fun s zs => (∃ ts, FlattenLoose g s ts zs) ∧ s.pending = [])
    (fun s zs => (∃ ts, FlattenLoose g s ts zs) ∧ s.pending = [])
    (fun _ _ h => h.1)
    (by
      rintro w s zs ⟨ts, h⟩
      obtain ⟨r, s', ts', g1, g2⟩ := VFlatten.step_loose hg w h
      refine ⟨r, s', g1, ?_⟩
      match r with
      | .ready (some d) => obtain ⟨zs', g3, g4⟩ := g2; exact ⟨zs', g3, ts', g4⟩
      | .ready none => exact ⟨⟨ts', g2.1⟩, g2.2⟩
      | .pending => exact ⟨⟨ts', g2.1⟩, g2.2⟩)
    ws (VFlatten.init script) ⟨[], Inp.ok_mk' _, valid_mk' (feed_any.2 hwf), rfl,
      by simp [VFlatten.init], [], rfl, Nat.le_refl _, fun _ => rfl⟩
  have hinv : ∃ ts, FlattenLoose g s ts zs := by
    by_cases he : .ready none ∈ outs
    · exact (h5 he).1
    · exact h3 he
  obtain ⟨ts, hi⟩ := hinv
  refine ⟨outs, s, zs, h1, h2, by rw [hi.tags]; exact hi.valid.now, fun x hx => (hi.inner x hx).all,
    fun h => ⟨s.inner.map (·.contents), ?_, ?_⟩⟩
  · rw [List.map_map]
    exact List.map_congr_left fun x hx => (hi.inner x hx).valid.now
  · have hp : s.pending = [] := by
      rcases h with h | h
      · exact (h4 h).2
      · exact (h5 h).2
    obtain ⟨z, q1, q2, q3⟩ := hi.queue
    rw [hp] at q1
    cases q1
    rw [← List.flatMap_def, length_flatMap_contents]
    exact ⟨q2, q3⟩

/-- Meets the hypotheses: inner vectors are removed, exchanged and moved, then everything is
replaced.  Before the `Replace` the consumer shows `[10, 11, 10, 11]` while only one vector `[10, 11]`
is left; afterwards `[20]`, which is right. -/
def demoHarm : List (Poll (Option (VecDiff Nat))) :=
  [.ready (some (.replace [0, 0, 2])), .ready (some (.move 0 1)), .ready (some .pop),
   .ready (some (.removeAt 1)), .pending, .ready (some (.updateAt 0 2)), .ready (some (.replace [1])),
   .pending]
def demoQuiet : Nat → List (Poll (Option (VecDiff Nat)))
  | 0 => [.ready (some (.replace [10, 11]))]
  | 1 => [.ready (some (.push 20))]
  | _ => []

example : ∃ z, replay (items demoHarm) [] = some z := ⟨[1], rfl⟩
example : Intact (items demoHarm) := by
  intro pre d post h hd
  refine ⟨.replace [1], ?_, trivial⟩
  have e : items demoHarm = [.replace [0, 0, 2], .move 0 1, .pop, .removeAt 1, .updateAt 0 2,
    .replace [1]] := rfl
  rw [e] at h
  rcases pre with _ | ⟨a, _ | ⟨b, _ | ⟨c, _ | ⟨d', _ | ⟨e', _ | ⟨f, pre⟩⟩⟩⟩⟩⟩ <;>
    simp at h <;> obtain ⟨-, h⟩ := h <;> grind [Harms]
example : (run (VFlatten.poll demoQuiet) [0, 0] (VFlatten.init demoHarm)).bind
    (fun q => replay (items q.1) []) = some [10, 11, 10, 11] := by rfl
example : (run (VFlatten.poll demoQuiet) [0, 0, 0, 0] (VFlatten.init demoHarm)).bind
    (fun q => replay (items q.1) []) = some [20] := by rfl

end Verif
