import Verif.Expr
import Verif.FlowProofs
import Verif.Props.SignalVecFlatten

/-!
# `flatten` as a stage of an expression
-/

namespace Verif

variable {α β γ ι σ ρ : Type}

theorem rest_cases {o : Option Waker} {t : List (Waker × Poll (Option γ))} (h : Rest o t) :
    (∃ x, o = some x ∧ (t.map (·.1)).getLast? = some x ∧ (t.map (·.2)).getLast? = some .pending) ∨
    .ready none ∈ t.map (·.2) := by
  rcases h with ⟨x, ho, h⟩ | ⟨y, h⟩
  · exact .inl ⟨x, ho, by simp [List.getLast?_map, h], by simp [List.getLast?_map, h]⟩
  · exact .inr (List.mem_of_getLast? (by rw [List.getLast?_map, h]; rfl))

theorem pollLoop_ret {w : Waker} {body : σ → α → Ctl σ ρ} (Q : ρ → Prop)
    (hr : ∀ s a s' r, body s a = .ret s' r → Q r) (todo : List (Poll (Option α)))
    (hist : List (Waker × Poll (Option α))) (s : σ) {s' : σ} {src' : Src (Option α)} {r : ρ}
    (e : pollLoop w body todo hist s = (.ret r, s', src')) : Q r := by
  induction todo generalizing hist s with
  | nil => simp [pollLoop] at e
  | cons q todo ih =>
    match q with
    | .pending => simp [pollLoop] at e
    | .ready none => simp [pollLoop] at e
    | .ready (some a) =>
      simp only [pollLoop] at e
      cases hb : body s a with
      | cont s1 => rw [hb] at e; exact ih _ _ e
      | ret s1 r' => rw [hb] at e; cases e; exact hr _ _ _ _ hb
      | panic => rw [hb] at e; cases e

theorem Inp.loop_ret {w : Waker} {body : σ → α → Ctl σ ρ} (Q : ρ → Prop)
    (hr : ∀ s a s' r, body s a = .ret s' r → Q r) {i i' : Inp (Option α)} {s s' : σ} {r : ρ}
    (e : i.loop w body s = (.ret r, s', i')) : Q r := by
  unfold Inp.loop at e
  split at e
  · obtain ⟨q, s1, src', hq⟩ : ∃ q s1 src', i.src.loop w body s = (q, s1, src') := ⟨_, _, _, rfl⟩
    rw [hq] at e
    cases q <;> cases e
    exact pollLoop_ret Q hr _ _ _ hq
  · cases e

theorem removesDesc_fwd (off n : Nat) : ∀ d ∈ removesDesc (α := β) off n, Fwd d := by
  induction n with
  | zero => simp [removesDesc]
  | succ n ih =>
    intro d hd
    simp only [removesDesc, List.mem_cons] at hd
    rcases hd with rfl | hd
    · simp [Fwd]
    · exact ih d hd

theorem insertsFrom_fwd (off : Nat) (vs : List β) : ∀ d ∈ insertsFrom off vs, Fwd d := by
  induction vs generalizing off with
  | nil => simp [insertsFrom]
  | cons v vs ih =>
    intro d hd
    simp only [insertsFrom, List.mem_cons] at hd
    rcases hd with rfl | hd
    · simp [Fwd]
    · exact ih _ d hd

/-- An inner vector will not move anything towards the front. -/
def FState.Fwds (x : FState ι β) : Prop := ∀ d ∈ items x.signalVec.src.todo, Fwd d

theorem pollValues_fwd {w : Waker} {x x' : FState ι β} {vs : List β} (hx : x.Fwds)
    (e : x.pollValues w = some (vs, x')) : x'.Fwds := by
  unfold FState.pollValues at e
  obtain ⟨st, ⟨n, out⟩, i', hq⟩ : ∃ st q i', x.signalVec.loop w pollValuesBody (x.len, []) =
    (st, q, i') := ⟨_, _, _, rfl⟩
  obtain ⟨k1, -⟩ := Inp.loop_keeps Fwd (fun _ => True) (fun _ _ _ _ _ _ => trivial)
    (fun _ _ _ _ _ _ _ => trivial) hq hx trivial
  rw [hq] at e
  cases st with
  | panic => cases e
  | ret q => exact q.elim
  | ended => cases e; exact k1
  | pending => cases e; exact k1

theorem pollAllValues_fwd {w : Waker} {ss ss' : List (FState ι β)} {vs : List β}
    (h : ∀ x ∈ ss, x.Fwds) (e : pollAllValues w ss = some (vs, ss')) : ∀ x ∈ ss', x.Fwds := by
  induction ss generalizing vs ss' with
  | nil => cases e; simp
  | cons x ss ih =>
    simp only [pollAllValues] at e
    split at e
    · cases e
    · rename_i vs1 x1 e1
      split at e
      · cases e
      · rename_i vs2 ss2 e2
        cases e
        intro y hy
        rcases List.mem_cons.1 hy with rfl | hy
        · exact pollValues_fwd (h x (by simp)) e1
        · exact ih (fun y hy => h y (by simp [hy])) e2 y hy

theorem pollPending_fwd {w : Waker} {n : Nat} {p p' : List (VecDiff β)} {x x' : FState ι β} {b : Bool}
    (hx : x.Fwds) (hp : ∀ d ∈ p, Fwd d) (e : x.pollPending w n p = some (b, p', x')) :
    x'.Fwds ∧ ∀ d ∈ p', Fwd d := by
  unfold FState.pollPending at e
  obtain ⟨st, ⟨len, out⟩, i', hq⟩ : ∃ st q i', x.signalVec.loop w (pollPendingBody n) (x.len, p) =
    (st, q, i') := ⟨_, _, _, rfl⟩
  obtain ⟨k1, k2⟩ := Inp.loop_keeps Fwd (fun q => ∀ d ∈ q.2, Fwd d) (by
      rintro ⟨len, out⟩ d s' hs hd hb
      simp only [pollPendingBody] at hb
      split at hb
      · cases hb
      · cases d <;> cases hb <;> intro d' hd' <;> simp only [List.mem_append, List.mem_singleton] at hd'
        · rcases hd' with (hd' | hd') | hd'
          · exact hs d' hd'
          · exact removesDesc_fwd _ _ d' hd'
          · exact insertsFrom_fwd _ _ d' hd'
        · rcases hd' with hd' | rfl
          · exact hs d' hd'
          · simp [Fwd]
        · rcases hd' with hd' | rfl
          · exact hs d' hd'
          · simp [Fwd]
        · rcases hd' with hd' | rfl
          · exact hs d' hd'
          · simp [Fwd]
        · rcases hd' with hd' | rfl
          · exact hs d' hd'
          · intro i j hij
            cases hij
            have := hd _ _ rfl
            omega
        · rcases hd' with hd' | rfl
          · exact hs d' hd'
          · simp [Fwd]
        · rcases hd' with hd' | rfl
          · exact hs d' hd'
          · simp [Fwd]
        · rcases hd' with hd' | hd'
          · exact hs d' hd'
          · exact removesDesc_fwd _ _ d' hd')
    (fun _ _ _ r => r.elim) hq hx hp
  rw [hq] at e
  cases st with
  | panic => cases e
  | ret q => exact q.elim
  | ended => cases e; exact ⟨k1, k2⟩
  | pending => cases e; exact ⟨k1, k2⟩

theorem pollAllPending_fwd {w : Waker} {n : Nat} {p p' : List (VecDiff β)} {ss ss' : List (FState ι β)}
    {b : Bool} (h : ∀ x ∈ ss, x.Fwds) (hp : ∀ d ∈ p, Fwd d)
    (e : pollAllPending w n p ss = some (b, p', ss')) : (∀ x ∈ ss', x.Fwds) ∧ ∀ d ∈ p', Fwd d := by
  induction ss generalizing n p b ss' with
  | nil => cases e; exact ⟨by simp, hp⟩
  | cons x ss ih =>
    simp only [pollAllPending] at e
    split at e
    · cases e
    · rename_i b1 p1 x1 e1
      split at e
      · cases e
      · rename_i b2 p2 ss2 e2
        cases e
        obtain ⟨k1, k2⟩ := pollPending_fwd (h x (by simp)) hp e1
        obtain ⟨k3, k4⟩ := ih (fun y hy => h y (by simp [hy])) k2 e2
        refine ⟨fun y hy => ?_, k4⟩
        rcases List.mem_cons.1 hy with rfl | hy
        · exact k1
        · exact k3 y hy

theorem flattenBody_fwd {g : ι → List (Poll (Option (VecDiff β)))} (hg : ∀ q, ∀ d ∈ items (g q), Fwd d)
    {w : Waker} {inner : List (FState ι β)} {d : VecDiff ι} (h : ∀ x ∈ inner, x.Fwds) :
    match flattenBody g w inner d with
    | .cont inner' => ∀ x ∈ inner', x.Fwds
    | .ret inner' d' => (∀ x ∈ inner', x.Fwds) ∧ Fwd d'
    | .panic => True := by
  have hnew : ∀ q, (FState.new g q).Fwds := fun q => hg q
  cases d with
  | replace vs =>
    simp only [flattenBody]
    cases hv : pollAllValues w (vs.map (FState.new g)) with
    | none => trivial
    | some q =>
      refine ⟨pollAllValues_fwd ?_ hv, by simp [Fwd]⟩
      intro x hx
      obtain ⟨t, -, rfl⟩ := List.mem_map.1 hx
      exact hnew t
  | insertAt i t =>
    simp only [flattenBody]
    cases hv : vInsert inner i (FState.new g t) with
    | none => trivial
    | some q =>
      obtain ⟨p, q, rfl, -, rfl⟩ := vInsert_eq_some.1 hv
      intro x hx
      simp only [List.mem_append, List.mem_cons] at hx
      rcases hx with hx | rfl | hx
      · exact h x (by simp [hx])
      · exact hnew t
      · exact h x (by simp [hx])
  | updateAt i t =>
    simp only [flattenBody]
    cases hv : vSet inner i (FState.new g t) with
    | none => trivial
    | some q =>
      obtain ⟨p, b, q, rfl, -, rfl⟩ := vSet_eq_some.1 hv
      intro x hx
      simp only [List.mem_append, List.mem_cons] at hx
      rcases hx with hx | rfl | hx
      · exact h x (by simp [hx])
      · exact hnew t
      · exact h x (by simp [hx])
  | removeAt i =>
    simp only [flattenBody]
    cases hv : vRemove inner i with
    | none => trivial
    | some q =>
      obtain ⟨a, q⟩ := q
      obtain ⟨p, q, rfl, -, rfl⟩ := vRemove_eq_some.1 hv
      intro x hx
      exact h x (by simp at hx ⊢; rcases hx with hx | hx <;> simp [hx])
  | move i j =>
    simp only [flattenBody]
    cases hv : vRemove inner i with
    | none => trivial
    | some q =>
      obtain ⟨a, q⟩ := q
      obtain ⟨p, q, rfl, -, rfl⟩ := vRemove_eq_some.1 hv
      simp only
      cases hv' : vInsert (p ++ q) j a with
      | none => trivial
      | some q' =>
        obtain ⟨p', q', e, -, rfl⟩ := vInsert_eq_some.1 hv'
        intro x hx
        have : x = a ∨ x ∈ p ++ q := by
          rw [e]; simp only [List.mem_append, List.mem_cons] at hx ⊢
          rcases hx with hx | rfl | hx <;> simp [*]
        refine h x ?_
        simp only [List.mem_append, List.mem_cons] at this ⊢
        rcases this with h | h | h <;> simp [h]
  | push t =>
    simp only [flattenBody]
    intro x hx
    simp only [List.mem_append, List.mem_singleton] at hx
    rcases hx with hx | rfl
    · exact h x hx
    · exact hnew t
  | pop =>
    simp only [flattenBody]
    cases hv : vPop inner with
    | mk a q =>
      cases a with
      | none => trivial
      | some a =>
        have := vPop_eq_some.1 hv
        subst this
        intro x hx
        exact h x (by simp at hx ⊢; simp [hx])
  | clear => simp [flattenBody, Fwd]

theorem flatten_fwd {g : ι → List (Poll (Option (VecDiff β)))} (hg : ∀ q, ∀ d ∈ items (g q), Fwd d)
    {script : List (Poll (Option (VecDiff ι)))} {ws : List Waker}
    {outs : List (Poll (Option (VecDiff β)))} {s : VFlatten ι β}
    (h : run (VFlatten.poll g) ws (VFlatten.init script) = some (outs, s)) :
    ∀ d ∈ items outs, Fwd d := by
  refine run_items (fun s => (∀ x ∈ s.inner, x.Fwds) ∧ ∀ d ∈ s.pending, Fwd d) Fwd ?_ h
    ⟨by simp [VFlatten.init], by simp [VFlatten.init]⟩
  rintro w ⟨sig, inner, pend⟩ r s' ⟨h1, h2⟩ hp
  unfold VFlatten.poll at hp
  cases pend with
  | cons c rest =>
    cases hp
    refine ⟨⟨h1, fun d hd => h2 d (by simp only [List.mem_cons]; exact .inr hd)⟩, fun d hd => ?_⟩
    cases hd
    exact h2 _ (by simp)
  | nil =>
    simp only at hp
    obtain ⟨st, inner', i', e⟩ : ∃ st q i', sig.loop w (flattenBody g w) inner =
      (st, q, i') := ⟨_, _, _, rfl⟩
    obtain ⟨-, k2⟩ := Inp.loop_keeps (fun _ => True) (fun inner => ∀ x ∈ inner, x.Fwds)
      (fun s a s' hs _ hb => by
        have := flattenBody_fwd hg (w := w) (d := a) hs
        rw [hb] at this; exact this)
      (fun s a s' r hs _ hb => by
        have := flattenBody_fwd hg (w := w) (d := a) hs
        rw [hb] at this; exact this.1) e (by simp) h1
    rw [e] at hp
    have fin : ∀ b, VFlatten.finish w b i' inner' = some (r, s') →
        ((∀ x ∈ s'.inner, x.Fwds) ∧ ∀ d ∈ s'.pending, Fwd d) ∧
          ∀ d, r = .ready (some d) → Fwd d := by
      intro b hb
      unfold VFlatten.finish at hb
      split at hb
      · cases hb
      · rename_i d rest inner2 hq
        obtain ⟨n1, n2⟩ := pollAllPending_fwd k2 (by simp) hq
        cases hb
        exact ⟨⟨n1, fun d hd => n2 d (by simp only [List.mem_cons]; exact .inr hd)⟩,
          fun d hd => by cases hd; exact n2 _ (by simp)⟩
      · rename_i inner2 hq
        obtain ⟨n1, -⟩ := pollAllPending_fwd k2 (by simp) hq
        split at hb <;> cases hb <;> exact ⟨⟨n1, by simp⟩, by simp⟩
    cases st with
    | panic => cases hp
    | ret q =>
      cases hp
      have hret : Fwd q := Inp.loop_ret Fwd (fun s a s' r hb => by
        cases a <;> simp only [flattenBody] at hb <;> repeat' split at hb
        all_goals first | (cases hb; done) | (cases hb; simp [Fwd])) e
      exact ⟨⟨k2, by simp⟩, fun d hd => by cases hd; exact hret⟩
    | ended => exact fin true hp
    | pending => exact fin false hp

theorem feed_adds {ds : List (VecDiff α)} {xs ys : List α} (h : replay ds xs = some ys)
    (hg : ∀ d ∈ ds, AddsOnly d) : Feed OuterOk ds xs := by
  induction ds generalizing xs with
  | nil => trivial
  | cons d ds ih =>
    simp only [replay] at h
    cases hd : d.apply xs with
    | none => rw [hd] at h; cases h
    | some zs =>
      rw [hd] at h
      refine ⟨?_, zs, hd, ih h fun d hm => hg d (by simp [hm])⟩
      have := hg d (by simp)
      cases d <;> first | trivial | exact this.elim

theorem adds_map (f : α → β) (d : VecDiff α) : AddsOnly (d.map f) ↔ AddsOnly d := by
  cases d <;> rfl

theorem flatten_stage {inst : ι → Nat → Trace β}
    (hi : ∀ b n, (Ty.vec β).Good (inst b n)) {u : Trace (ι × Nat)} (hu : (Ty.vec ι).Good u.bare)
    (hgr : ∀ d ∈ u.bare.diffs, AddsOnly d) {t : Trace β} {s : VFlatten (ι × Nat) β}
    (h1 : run (VFlatten.poll fun q => (inst q.1 q.2).map (·.2)) (t.map (·.1))
      (VFlatten.init (u.map (·.2))) = some (t.map (·.2), s)) (h2 : s.signal.src.hist = u)
    (h3 : ∀ x ∈ s.inner, x.signalVec.src.hist = inst x.tag.1 x.tag.2) :
    (Ty.vec β).Good t ∧ ((∀ b n, (Ty.vec β).Fwds (inst b n)) → (Ty.vec β).Fwds t) ∧
      ∀ o, Rest o t → Rest o u.bare ∧
      (∀ x ∈ s.inner, Rest o (inst x.tag.1 x.tag.2)) ∧
      ∀ P : ι → List β → Prop,
        (∀ x ∈ s.inner, ∃ ys, (Ty.vec β).Shows (inst x.tag.1 x.tag.2) ys ∧ P x.tag.1 ys) →
        ∀ xs, (Ty.vec ι).Shows u.bare xs →
          ∃ yss, (Ty.vec β).Shows t yss.flatten ∧ List.Forall₂ P xs yss := by
  obtain ⟨xs, hx⟩ := hu
  have hx' := hx
  rw [bare_diffs] at hx
  obtain ⟨ls, g1, g2⟩ := replay_lift Prod.fst (xs := []) hx
  have hfeed : Feed OuterOk (items (u.map (·.2))) [] := by
    refine feed_adds g1 fun d hd => ?_
    rw [bare_diffs] at hgr
    exact (adds_map Prod.fst d).1 (hgr _ (List.mem_map.2 ⟨d, hd, rfl⟩))
  have hi' : ∀ q : ι × Nat, ∃ z, replay (items ((inst q.1 q.2).map (·.2))) [] = some z :=
    fun q => hi q.1 q.2
  obtain ⟨outs, s', zs, k1, k2, k3, -, k5⟩ := C14_flatten_partial
    (fun q : ι × Nat => (inst q.1 q.2).map (·.2)) hi' (u.map (·.2)) hfeed (t.map (·.1))
  cases h1.symm.trans k1
  obtain ⟨⟨f1, f2⟩, f3, f4⟩ := C57_flatten _ _ _ _ _ h1
  have htags : s.inner.map (·.tag) = ls := by
    have : s.signal.src.got = u.diffs := by rw [Src.got, h2]; rfl
    rw [this, g1] at k3
    exact (Option.some.inj k3).symm
  refine ⟨⟨zs, k2⟩, fun hF => flatten_fwd (fun q : ι × Nat => (hF q.1 q.2 : _)) h1, fun o hr => ?_⟩
  have hset : (s.signal.src.ended ∨ ∃ w, o = some w ∧ s.signal.src.armed w) ∧
      ∀ y ∈ s.inner, y.signalVec.src.ended ∨ ∃ w, o = some w ∧ y.signalVec.src.armed w := by
    rcases rest_cases hr with ⟨w, ho, c1, c2⟩ | c
    · exact ⟨(f4 w c1 c2).1.imp id fun h => ⟨w, ho, h⟩,
        fun y hy => ((f4 w c1 c2).2.1 y hy).imp id fun h => ⟨w, ho, h⟩⟩
    · exact ⟨.inl (f3 c).2.1, fun y hy => .inl ((f3 c).2.2 y hy)⟩
  refine ⟨(rest_map _ o u).2 (by rw [← h2]; exact Src.rest f1 hset.1), fun x hm => ?_, ?_⟩
  · rw [← h3 x hm]
    exact Src.rest (f2 x hm) (hset.2 x hm)
  · intro P hP xs' hxs
    cases hxs.symm.trans hx'
    obtain ⟨parts, n1, n2⟩ := k5 (by
      rcases rest_cases hr with ⟨w, -, -, c2⟩ | c
      · exact .inl c2
      · exact .inr c)
    subst n2
    refine ⟨parts, k2, ?_⟩
    rw [← g2, ← htags]
    clear htags f2 f3 f4 hset k3 k5 k2 h1
    obtain ⟨l, hl⟩ : ∃ l, l = s.inner := ⟨_, rfl⟩
    rw [← hl] at h3 hP n1 ⊢
    clear hl
    induction l generalizing parts with
    | nil =>
      cases parts with
      | nil => exact .nil
      | cons => simp at n1
    | cons x l ih =>
      cases parts with
      | nil => simp at n1
      | cons z zs =>
        simp only [List.map_cons, List.cons.injEq] at n1
        obtain ⟨y, hy, hp⟩ := hP x (by simp)
        refine .cons ?_ (ih _ n1.2 (fun y hy => hP y (by simp [hy])) fun y hy => h3 y (by simp [hy]))
        have : some y = some z := by
          rw [← n1.1, Src.got, h3 x (by simp)]; exact hy.symm
        cases this
        exact hp

end Verif
