import Verif.ExprStages
import Verif.AsyncStage

/-!
# Proofs about expressions made of combinators of all three kinds: whole expressions
-/

namespace Verif

variable {α β γ ι σ : Type}

/-! ## Whole expressions -/

/-- What is proved about an expression by induction. -/
structure Expr.Sound {τ : Ty} (e : Expr τ) (live : Bool) (t : Tr τ) (W : Waker → Prop) : Prop where
  good : τ.Good t
  fwds : e.Forward → τ.Fwds t
  fresh : live = true → ∀ o, Rest o t → (∃ v, τ.Shows t v ∧ e.Spec v) ∨ ∃ x, o = some x ∧ W x

/-- Stages whose output is a function of one input. -/
theorem Expr.fresh_of {τ τ' : Ty} {e : Expr τ} {e' : Expr τ'} {live : Bool} {u : Tr τ} {t : Tr τ'}
    {W : Waker → Prop} (h : e.Sound live u W) (hr : ∀ o, Rest o t → Rest o u)
    (hv : ∀ o, Rest o t → ∀ v, τ.Shows u v → e.Spec v → ∃ v', τ'.Shows t v' ∧ e'.Spec v') :
    live = true → ∀ o, Rest o t → (∃ v, τ'.Shows t v ∧ e'.Spec v) ∨ ∃ x, o = some x ∧ W x := by
  intro hl o ho
  rcases h.fresh hl o (hr o ho) with ⟨v, h1, h2⟩ | h
  · exact .inl (hv o ho v h1 h2)
  · exact .inr h

theorem Expr.sound {τ : Ty} (e : Expr τ) (hl : e.Lawful) {live : Bool} {t : Tr τ}
    {W : Waker → Prop} (he : e.Exec live t W) : e.Sound live t W := by
  have inst_good : ∀ {X : Type} {τ : Ty} {g : X → Expr τ} {inst : X → Nat → Tr τ}
      (_ : ∀ a {live : Bool} {t : Tr τ} {W : Waker → Prop}, (g a).Exec live t W → (g a).Sound live t W)
      (_ : τ.Good []) (_ : ∀ b n, inst b n = [] ∨ ∃ W', (g b).Exec false (inst b n) W'),
      ∀ b n, τ.Good (inst b n) := by
    intro X τ g inst hg h0 hi b n
    rcases hi b n with h | ⟨W', h⟩
    · rw [h]; exact h0
    · exact (hg b h).good
  induction e generalizing live W with
  | source s =>
    simp only [Expr.Exec] at he
    obtain ⟨k, h1, h2, rfl, rfl⟩ := he
    simp only [Expr.Lawful] at hl
    refine ⟨hl.good k h1, fun hF => ?_, fun hb o ho => ?_⟩
    · simp only [Expr.Forward] at hF; exact hF k h1
    · rcases hl.fresh k h1 (h2 hb) o ho with h | h
      · exact .inl ⟨_, h, by simp only [Expr.Spec]⟩
      · exact .inr h
  | sMap f e ih =>
    simp only [Expr.Exec] at he
    obtain ⟨u, h1, h2⟩ := he
    simp only [Expr.Lawful] at hl
    have hs := ih hl h1
    obtain ⟨k1, k2, k3⟩ := mapped_stage (map_stage h2) hs.good
    refine ⟨k1, fun _ => trivial, Expr.fresh_of hs k3 fun o _ v hv hsp => ⟨f v, ?_, ?_⟩⟩
    · simp only [Ty.Shows] at hv ⊢; rw [k2, hv]; rfl
    · simp only [Expr.Spec]; exact ⟨v, hsp, rfl⟩
  | inspect e ih =>
    simp only [Expr.Exec] at he
    obtain ⟨u, h1, h2⟩ := he
    simp only [Expr.Lawful] at hl
    have hs := ih hl h1
    cases inspect_stage h2
    exact ⟨hs.good, fun _ => trivial, Expr.fresh_of hs (fun _ h => h) fun o _ v hv hsp =>
      ⟨v, hv, by simp only [Expr.Spec]; exact hsp⟩⟩
  | not e ih =>
    simp only [Expr.Exec] at he
    obtain ⟨u, h1, h2⟩ := he
    simp only [Expr.Lawful] at hl
    have hs := ih hl h1
    obtain ⟨k1, k2, k3⟩ := mapped_stage (not_stage h2) hs.good
    refine ⟨k1, fun _ => trivial, Expr.fresh_of hs k3 fun o _ v hv hsp => ⟨!v, ?_, ?_⟩⟩
    · simp only [Ty.Shows] at hv ⊢; rw [k2, hv]; rfl
    · simp only [Expr.Spec]; exact ⟨v, hsp, rfl⟩
  | eq value e ih =>
    simp only [Expr.Exec] at he
    obtain ⟨u, h1, h2⟩ := he
    simp only [Expr.Lawful] at hl
    have hs := ih hl h1
    obtain ⟨k1, k2, k3⟩ := eq_stage h2 hs.good
    refine ⟨k1, fun _ => trivial, Expr.fresh_of hs k3 fun o _ v hv hsp => ⟨v == value, ?_, ?_⟩⟩
    · simp only [Ty.Shows] at hv ⊢; rw [k2, hv]; rfl
    · simp only [Expr.Spec]; exact ⟨v, hsp, rfl⟩
  | neq value e ih =>
    simp only [Expr.Exec] at he
    obtain ⟨u, h1, h2⟩ := he
    simp only [Expr.Lawful] at hl
    have hs := ih hl h1
    obtain ⟨k1, k2, k3⟩ := neq_stage h2 hs.good
    refine ⟨k1, fun _ => trivial, Expr.fresh_of hs k3 fun o _ v hv hsp => ⟨!(v == value), ?_, ?_⟩⟩
    · simp only [Ty.Shows] at hv ⊢; rw [k2, hv]; rfl
    · simp only [Expr.Spec]; exact ⟨v, hsp, rfl⟩
  | dedupe e ih =>
    simp only [Expr.Exec] at he
    obtain ⟨u, h1, h2⟩ := he
    simp only [Expr.Lawful] at hl
    have hs := ih hl h1
    obtain ⟨k1, k2, k3⟩ := dedupe_stage h2 hs.good
    refine ⟨k1, fun _ => trivial, Expr.fresh_of hs k3 fun o _ v hv hsp => ⟨v, ?_, ?_⟩⟩
    · simp only [Ty.Shows] at hv ⊢; rw [k2, hv]; rfl
    · simp only [Expr.Spec]; exact hsp
  | dedupeMap f e ih =>
    simp only [Expr.Exec] at he
    obtain ⟨u, h1, h2⟩ := he
    simp only [Expr.Lawful] at hl
    have hs := ih hl h1
    obtain ⟨k1, k2, k3⟩ := dedupeMap_stage h2 hs.good
    refine ⟨k1, fun _ => trivial, Expr.fresh_of hs k3 fun o _ v hv hsp => ⟨f v, ?_, ?_⟩⟩
    · simp only [Ty.Shows] at hv ⊢; rw [k2, hv]; rfl
    · simp only [Expr.Spec]; exact ⟨v, hsp, rfl⟩
  | stopIf p e ih =>
    simp only [Expr.Exec] at he
    obtain ⟨u, h1, h2⟩ := he
    simp only [Expr.Lawful] at hl
    have hs := ih hl h1
    obtain ⟨k1, k2, k3⟩ := stopIf_stage h2 hs.good
    refine ⟨k1, fun _ => trivial, fun hb o ho => ?_⟩
    rcases k3 o ho with h | ⟨v, hv, hp⟩
    · rcases hs.fresh hb o h with ⟨v, hv, hsp⟩ | h
      · refine .inl ⟨v, k2.trans hv, ?_⟩
        simp only [Expr.Spec]; exact .inl hsp
      · exact .inr h
    · refine .inl ⟨v, hv, ?_⟩
      simp only [Expr.Spec]; exact .inr hp
  | filterMapS f e ih =>
    simp only [Expr.Exec] at he
    obtain ⟨u, h1, h2⟩ := he
    simp only [Expr.Lawful] at hl
    have hs := ih hl h1
    obtain ⟨k1, k2, k3⟩ := filterMapS_stage h2 hs.good
    refine ⟨k1, fun _ => trivial, Expr.fresh_of hs k2 fun o _ v hv hsp => ?_⟩
    obtain ⟨v', m1, m2⟩ := k3 v hv
    refine ⟨v', m1, ?_⟩
    simp only [Expr.Spec]; exact ⟨v, hsp, m2⟩
  | throttle futs e ih =>
    simp only [Expr.Exec] at he
    obtain ⟨u, We, i, h1, s, h2, h3, h4, rfl⟩ := he
    simp only [Expr.Lawful] at hl
    have hs := ih hl.2 h1
    obtain ⟨k1, k2, k3⟩ := throttle_stage hs.good h2 h3
    refine ⟨k1, fun _ => trivial, fun hb o ho => ?_⟩
    rcases k3 o ho with h | ⟨x, w, hx, rfl, ha⟩
    · rcases hs.fresh hb o h with ⟨v, hv, hsp⟩ | ⟨x, hx, h⟩
      · refine .inl ⟨v, k2.trans hv, ?_⟩
        simp only [Expr.Spec]; exact .inl hsp
      · exact .inr ⟨x, hx, .inl h⟩
    · rw [Src.armed, h4 x hx] at ha
      cases hres : (futs i x.tag).result with
      | some a => exact .inr ⟨w, rfl, .inr ⟨x, hx, (hl.1 i x.tag).wakes w a ha hres⟩⟩
      | none =>
        obtain ⟨v, hv⟩ := good_last k1 (rest_ne ho)
        refine .inl ⟨v, hv, ?_⟩
        simp only [Expr.Spec]
        exact .inr ⟨i, x.tag, fun h => by rw [h] at ha; simp at ha, hres⟩
  | mapFuture futs held e ih =>
    simp only [Expr.Exec] at he
    obtain ⟨u, We, h1, s, h2, h3, h4, rfl⟩ := he
    simp only [Expr.Lawful] at hl
    have hs := ih hl.2 h1
    obtain ⟨k1, k2⟩ := mapFuture_stage h2 h3
    refine ⟨k1, fun _ => trivial, fun hlive o ho => ?_⟩
    obtain ⟨m1, m2⟩ := k2 o ho
    rcases hs.fresh hlive o m1 with ⟨a, ha, hsp⟩ | ⟨x, hx, h⟩
    · obtain ⟨x, hx, rfl, h⟩ := m2 a ha
      rcases h with ⟨w, hf, rfl, harm⟩ | ⟨b, w, hw, hlast⟩
      · rw [Src.armed, (h4 x hx).1] at harm
        cases hres : (futs x.tag.1 x.tag.2).result with
        | some b => exact .inr ⟨w, rfl, .inr ⟨x, hf, (hl.1 _ _).wakes w b harm hres⟩⟩
        | none =>
          obtain ⟨v, hv⟩ := good_last k1 (rest_ne ho)
          refine .inl ⟨v, hv, ?_⟩
          simp only [Expr.Spec]
          exact ⟨x.tag.1, x.tag.2, hsp, (h4 x hx).2 hlive, .inl ⟨fun h => by rw [h] at harm; simp at harm, hres⟩⟩
      · refine .inl ⟨some b, hlast, ?_⟩
        simp only [Expr.Spec]
        exact ⟨x.tag.1, x.tag.2, hsp, (h4 x hx).2 hlive, .inr ⟨b, (hl.1 _ _).output w b (by rw [← (h4 x hx).1]; exact hw), rfl⟩⟩
    · exact .inr ⟨x, hx, .inl h⟩
  | delayRemove futs e ih =>
    simp only [Expr.Exec] at he
    obtain ⟨u, v, We, h1, rfl, s, h2, h3, h4, rfl⟩ := he
    simp only [Expr.Lawful] at hl
    have hs := ih hl.2 h1
    obtain ⟨k1, kf, k2⟩ := delay_stage hs.good h2 h3
    refine ⟨k1, fun hF => kf (hs.fwds (by simpa only [Expr.Forward] using hF)), fun hb o ho => ?_⟩
    obtain ⟨m1, m2, m3, m4⟩ := k2 o ho
    rcases hs.fresh hb o m1 with ⟨a, ha, hsp⟩ | ⟨x, hx, h⟩
    · by_cases hw : ∃ x ∈ s.futures, x.isRemoving = true ∧
          ∃ w, o = some w ∧ (futs x.tag.1 x.tag.2).woken w
      · obtain ⟨x, hx, hr, w, rfl, hw⟩ := hw
        exact .inr ⟨w, rfl, .inr ⟨x, hx, hr, hw⟩⟩
      · refine .inl ⟨_, m2, ?_⟩
        have : a = (s.futures.filter (!·.isRemoving)).map (·.tag.1) := by
          simp only [Ty.Shows] at ha m3
          exact Option.some.inj (ha.symm.trans m3)
        simp only [Expr.Spec]
        refine ⟨s.futures.map fun x => (x.tag.1, x.isRemoving), by simp, ?_, fun a hm => ?_⟩
        · rw [List.filter_map, List.map_map]
          rw [this] at hsp
          exact hsp
        · obtain ⟨x, hx, hxa⟩ := List.mem_map.1 hm
          obtain ⟨rfl, hr⟩ := Prod.mk.inj hxa
          obtain ⟨w, rfl, harm⟩ := m4 x hx hr
          rw [Src.armed, h4 x hx] at harm
          refine ⟨x.tag.2, fun h => by rw [h] at harm; simp at harm, ?_⟩
          cases hres : (futs x.tag.1 x.tag.2).result with
          | none => rfl
          | some c => exact absurd ⟨x, hx, hr, w, rfl, (hl.1 _ _).wakes w c harm hres⟩ hw
    · exact .inr ⟨x, hx, .inl h⟩
  | mapRef f es ih =>
    simp only [Expr.Exec] at he
    obtain ⟨us, Ws, h1, rfl, s, h2, h3⟩ := he
    simp only [Expr.Lawful] at hl
    have hs := fun i => ih i (hl.2 i) (h1 i)
    obtain ⟨k1, k2⟩ := mapRef_stage hl.1 (fun i => (hs i).good) h2 h3
    refine ⟨k1, fun _ => trivial, fun hb o ho => ?_⟩
    obtain ⟨m1, m2⟩ := k2 o ho
    by_cases hw : ∃ i x, o = some x ∧ Ws i x
    · obtain ⟨i, x, hx, hw⟩ := hw
      exact .inr ⟨x, hx, i, hw⟩
    · have : ∀ i, ∃ v, (us i).last = some v ∧ (es i).Spec v := by
        intro i
        rcases (hs i).fresh hb o (m1 i) with h | ⟨x, hx, h⟩
        · exact h
        · exact absurd ⟨i, x, hx, h⟩ hw
      choose as has using this
      refine .inl ⟨_, m2 as fun i => (has i).1, ?_⟩
      simp only [Expr.Spec]
      exact ⟨as, fun i => (has i).2, rfl⟩
  | switch g e ihg ih =>
    simp only [Expr.Exec] at he
    obtain ⟨u, inst, We, Wi, h1, h2, s, h3, h4, h5, rfl⟩ := he
    simp only [Expr.Lawful] at hl
    have hs := ih hl.2 h1
    obtain ⟨k1, k2⟩ := switch_stage (inst_good (fun a => ihg a (hl.1 a)) (.inl rfl) h2) hs.good h3 h4
      (fun x hx => (h5 x hx).1)
    refine ⟨k1, fun _ => trivial, fun hb o ho => ?_⟩
    obtain ⟨m1, m2⟩ := k2 o ho
    rcases hs.fresh hb o m1 with ⟨a, ha, hsp⟩ | ⟨x, hx, hw⟩
    · obtain ⟨x, hx, rfl, hr, hl'⟩ := m2 a ha
      rcases (ihg _ (hl.1 _) (h5 x hx).2).fresh hb o hr with ⟨v, hv, hvs⟩ | ⟨y, hy, hw⟩
      · refine .inl ⟨v, ?_, ?_⟩
        · simp only [Ty.Shows] at hv ⊢; rw [hl', hv]
        · simp only [Expr.Spec]; exact ⟨_, hsp, hvs⟩
      · exact .inr ⟨y, hy, .inr ⟨x, hx, hw⟩⟩
    · exact .inr ⟨x, hx, .inl hw⟩
  | sink k e ih =>
    simp only [Expr.Exec] at he
    obtain ⟨u, h1, h2⟩ := he
    simp only [Expr.Lawful] at hl
    have hs := ih hl.2 h1
    obtain ⟨k1, k2⟩ := sink_stage hl.1 h2 hs.good
    refine ⟨k1, fun _ => trivial, Expr.fresh_of hs (fun o ho => (k2 o ho).1)
      fun o ho v hv hsp => ⟨k.value v, (k2 o ho).2 v hv, ?_⟩⟩
    simp only [Expr.Spec]; exact ⟨v, hsp, rfl⟩
  | keyCloned key e ih =>
    simp only [Expr.Exec] at he
    obtain ⟨u, h1, h2⟩ := he
    simp only [Expr.Lawful] at hl
    have hs := ih hl h1
    obtain ⟨k1, k2⟩ := keyCloned_stage h2 hs.good
    refine ⟨k1, fun _ => trivial, Expr.fresh_of hs (fun o ho => (k2 o ho).1)
      fun o ho v hv hsp => ⟨v key, (k2 o ho).2 v hv, ?_⟩⟩
    simp only [Expr.Spec]; exact ⟨v, hsp, rfl⟩
  | pipe p e ih =>
    simp only [Expr.Exec] at he
    obtain ⟨u, h1, h2⟩ := he
    simp only [Expr.Lawful] at hl
    have hs := ih hl.2.2.2 h1
    obtain ⟨xs, hx⟩ := hs.good
    obtain ⟨zs, k1, k2⟩ := straight_track (c := fun _ => xs) hl.1 hl.2.1 h2 (fun _ _ => hx)
      (fun hF _ _ => hs.fwds (hl.2.2.1 hF))
    refine ⟨⟨zs, k1⟩, fun hF => ?_, Expr.fresh_of hs (fun o ho => straight_rest hl.1 h2 ho)
      fun o ho v hv hsp => ⟨zs, k1, ?_⟩⟩
    · simp only [Expr.Forward] at hF
      exact (pipe_fwd hl.2.1 h2 (fun _ _ => ⟨xs, hx⟩) (fun _ _ => hs.fwds hF)).1
    · simp only [Expr.Spec]
      cases hx.symm.trans hv
      exact ⟨xs, hsp, k2 ho.atRest.calm⟩
  | chain e e' ih ih' =>
    simp only [Expr.Exec] at he
    obtain ⟨u, v, W1, W2, h1, h2, rfl, s, h3, h4, h5⟩ := he
    simp only [Expr.Lawful] at hl
    have hs := ih hl.1 h1
    have hs' := ih' hl.2.1 h2
    obtain ⟨k1, k2⟩ := chain_stage hs.good hs'.good (hl.2.2.1 _ _ _ h1) (hl.2.2.2 _ _ _ h2) h3 h4 h5
    refine ⟨k1, fun hF => ?_, fun hb o ho => ?_⟩
    · simp only [Expr.Forward] at hF
      exact chain_fwd h3 (hs.fwds hF.1) (hs'.fwds hF.2)
    obtain ⟨⟨m1, m2⟩, m3⟩ := k2 o ho
    rcases hs.fresh hb o m1 with ⟨a, ha, hsp⟩ | ⟨x, hx, hw⟩
    · rcases hs'.fresh hb o m2 with ⟨b, hb, hsp'⟩ | ⟨x, hx, hw⟩
      · refine .inl ⟨_, m3 a b ha hb, ?_⟩
        simp only [Expr.Spec]; exact ⟨a, b, hsp, hsp', rfl⟩
      · exact .inr ⟨x, hx, .inr hw⟩
    · exact .inr ⟨x, hx, .inl hw⟩
  | mapSignal g e ihg ih =>
    simp only [Expr.Exec] at he
    obtain ⟨u, inst, We, Wi, h1, h2, s, h3, h4, h5, rfl⟩ := he
    simp only [Expr.Lawful] at hl
    have hs := ih hl.2 h1
    obtain ⟨k1, k2⟩ := mapSignal_stage (inst_good (fun a => ihg a (hl.1 a)) (.inl rfl) h2) hs.good h3 h4
      (fun x hx => (h5 x hx).1)
    refine ⟨k1, fun hF => ?_, fun hb o ho => ?_⟩
    · simp only [Expr.Forward] at hF
      exact mapSignal_fwd h3 (bare_fwd.1 (hs.fwds hF))
    · obtain ⟨m1, m2, m3⟩ := k2 o ho
      rcases hs.fresh hb o m1 with ⟨a, ha, hsp⟩ | ⟨x, hx, hw⟩
      · by_cases hw : ∃ x ∈ s.signals, ∃ y, o = some y ∧ Wi x.tag.1 x.tag.2 y
        · obtain ⟨x, hx, y, hy, hw⟩ := hw
          exact .inr ⟨y, hy, .inr ⟨x, hx, hw⟩⟩
        · obtain ⟨zs, n1, n2⟩ := m3 (fun a y => (g a).Spec y) (fun x hx => by
            rcases (ihg _ (hl.1 _) (h5 x hx).2).fresh hb o (m2 x hx) with h | ⟨y, hy, h⟩
            · exact h
            · exact absurd ⟨x, hx, y, hy, h⟩ hw) a ha
          refine .inl ⟨zs, n1, ?_⟩
          simp only [Expr.Spec]
          exact ⟨a, hsp, n2⟩
      · exact .inr ⟨x, hx, .inl hw⟩
  | mapIndexed g e ihg ih =>
    simp only [Expr.Exec] at he
    obtain ⟨u, We, es, E, mine, v, inst, Wi, h1, hE, rfl, hv, h2, s, h3, h4, h5, rfl⟩ := he
    simp only [Expr.Lawful] at hl
    have hs := ih hl.2 h1
    have hwf : ∃ z, replay (items (E.signal.hist.map (·.2))) [] = some z := hs.good
    obtain ⟨ys, p1, p2, p3⟩ := EnumSig.trace_shows hwf hE
    have hidx := fun id => EnumSig.index_ok hwf hE id (mine id)
    obtain ⟨k1, k2⟩ := mapSignal_stage
      (inst_good (g := fun b => g (Source.index E b.1 (mine b.1)) b.2)
        (fun b => ihg _ _ (hl.1 _ _ (hidx b.1))) (.inl rfl) h2) (by rw [hv]; exact ⟨ys, p1⟩) h3 h4
      (fun x hx => (h5 x hx).1)
    refine ⟨k1, fun hF => ?_, fun hb o ho => ?_⟩
    · simp only [Expr.Forward] at hF
      exact mapSignal_fwd h3 (bare_fwd.1 (by rw [hv]; exact EnumSig.trace_fwd hE (hs.fwds hF)))
    · obtain ⟨m1, m2, m3⟩ := k2 o ho
      rw [hv] at m1 m3
      rcases hs.fresh hb o (EnumSig.trace_rest hE m1) with ⟨a, ha, hsp⟩ | ⟨x, hx, hw⟩
      · by_cases hw : ∃ x ∈ s.signals, ∃ y, o = some y ∧ Wi x.tag.1 x.tag.2 y
        · obtain ⟨x, hx, y, hy, hw⟩ := hw
          exact .inr ⟨y, hy, .inr ⟨x, hx, hw⟩⟩
        · obtain ⟨zs, n1, n2⟩ := m3 (fun b y => (g (Source.index E b.1 (mine b.1)) b.2).Spec y) (fun x hx => by
            rcases (ihg _ _ (hl.1 _ _ (hidx _)) (h5 x hx).2).fresh hb o (m2 x hx) with h | ⟨y, hy, h⟩
            · exact h
            · exact absurd ⟨x, hx, y, hy, h⟩ hw) ys p1
          refine .inl ⟨zs, n1, ?_⟩
          simp only [Expr.Spec]
          have hlen := n2.length_eq
          refine ⟨ys.map (·.2), ?_, by simp [hlen], fun i a y hi hy => ?_⟩
          · have : a = ys.map (·.2) := by
              have := ha.symm.trans p2
              exact Option.some.inj this
            rw [← this]; exact hsp
          · simp only [List.getElem?_map, Option.map_eq_some_iff] at hi
            obtain ⟨q, hq, rfl⟩ := hi
            refine ⟨Source.index E q.1 (mine q.1), p3 i q hq, ?_⟩
            obtain ⟨hi1, rfl⟩ := List.getElem?_eq_some_iff.1 hq
            obtain ⟨hi2, rfl⟩ := List.getElem?_eq_some_iff.1 hy
            exact (List.forall₂_iff_get.1 n2).2 i hi1 hi2
      · exact .inr ⟨x, hx, .inl hw⟩
  | filterSignal g e ihg ih =>
    simp only [Expr.Exec] at he
    obtain ⟨u, v, inst, We, Wi, h1, rfl, h2, s, h3, h4, h5, rfl⟩ := he
    simp only [Expr.Lawful] at hl
    have hs := ih hl.2.2 h1
    obtain ⟨k1, k1', k2⟩ := filterSignal_stage
      (inst_good (fun a => ihg a (hl.1 a)) (.inl rfl) h2) hs.good (hs.fwds hl.2.1) h3 h4
      (fun x hx => (h5 x hx).1)
    refine ⟨k1, fun hF => k1', fun hb o ho => ?_⟩
    obtain ⟨m1, m2, m3⟩ := k2 o ho
    rcases hs.fresh hb o m1 with ⟨a, ha, hsp⟩ | ⟨x, hx, hw⟩
    · by_cases hw : ∃ x ∈ s.signals, ∃ y, o = some y ∧ Wi x.value.1 x.value.2 y
      · obtain ⟨x, hx, y, hy, hw⟩ := hw
        exact .inr ⟨y, hy, .inr ⟨x, hx, hw⟩⟩
      · obtain ⟨bs, n1, n2⟩ := m3 (fun a y => (g a).Spec y) (fun x hx => by
          rcases (ihg _ (hl.1 _) (h5 x hx).2).fresh hb o (m2 x hx) with h | ⟨y, hy, h⟩
          · exact h
          · exact absurd ⟨x, hx, y, hy, h⟩ hw) a ha
        refine .inl ⟨_, n2, ?_⟩
        simp only [Expr.Spec]
        exact ⟨a, bs, hsp, n1, rfl⟩
    · exact .inr ⟨x, hx, .inl hw⟩
  | and e e' ih ih' =>
    simp only [Expr.Exec] at he
    obtain ⟨u, u', W1, W2, h1, h2, rfl, s, h3, h4⟩ := he
    simp only [Expr.Lawful] at hl
    have hs := ih hl.1 h1
    have hs' := ih' hl.2 h2
    obtain ⟨k1, k2⟩ := pair_stage hs.good hs'.good h3 h4
    refine ⟨k1, fun _ => trivial, fun hb o ho => ?_⟩
    obtain ⟨⟨m1, m2⟩, m3⟩ := k2 o ho
    rcases hs.fresh hb o m1 with ⟨a, ha, hsp⟩ | ⟨x, hx, hw⟩
    · rcases hs'.fresh hb o m2 with ⟨b, hb, hsp'⟩ | ⟨x, hx, hw⟩
      · refine .inl ⟨_, m3 a b ha hb, ?_⟩
        simp only [Expr.Spec]; exact ⟨a, b, hsp, hsp', rfl⟩
      · exact .inr ⟨x, hx, .inr hw⟩
    · exact .inr ⟨x, hx, .inl hw⟩
  | or e e' ih ih' =>
    simp only [Expr.Exec] at he
    obtain ⟨u, u', W1, W2, h1, h2, rfl, s, h3, h4⟩ := he
    simp only [Expr.Lawful] at hl
    have hs := ih hl.1 h1
    have hs' := ih' hl.2 h2
    obtain ⟨k1, k2⟩ := pair_stage hs.good hs'.good h3 h4
    refine ⟨k1, fun _ => trivial, fun hb o ho => ?_⟩
    obtain ⟨⟨m1, m2⟩, m3⟩ := k2 o ho
    rcases hs.fresh hb o m1 with ⟨a, ha, hsp⟩ | ⟨x, hx, hw⟩
    · rcases hs'.fresh hb o m2 with ⟨b, hb, hsp'⟩ | ⟨x, hx, hw⟩
      · refine .inl ⟨_, m3 a b ha hb, ?_⟩
        simp only [Expr.Spec]; exact ⟨a, b, hsp, hsp', rfl⟩
      · exact .inr ⟨x, hx, .inr hw⟩
    · exact .inr ⟨x, hx, .inl hw⟩
  | option e ih =>
    simp only [Expr.Exec] at he
    obtain ⟨u, h1, s, h2, h3⟩ := he
    simp only [Expr.Lawful] at hl
    have hs := ih hl h1
    obtain ⟨k1, k2, k3⟩ := mapped_stage (maybe_stage h2 h3) hs.good
    refine ⟨k1, fun _ => trivial, Expr.fresh_of hs k3 fun o _ v hv hsp => ⟨some v, ?_, ?_⟩⟩
    · simp only [Ty.Shows] at hv ⊢; rw [k2, hv]; rfl
    · simp only [Expr.Spec]; exact ⟨v, hsp, rfl⟩
  | result e ih =>
    simp only [Expr.Exec] at he
    obtain ⟨u, h1, s, h2, h3⟩ := he
    simp only [Expr.Lawful] at hl
    have hs := ih hl h1
    obtain ⟨k1, k2, k3⟩ := mapped_stage (maybe_stage h2 h3) hs.good
    refine ⟨k1, fun _ => trivial, Expr.fresh_of hs k3 fun o _ v hv hsp => ⟨.ok v, ?_, ?_⟩⟩
    · simp only [Ty.Shows] at hv ⊢; rw [k2, hv]; rfl
    · simp only [Expr.Spec]; exact ⟨v, hsp, rfl⟩
  | broadcast f e ih =>
    simp only [Expr.Exec] at he
    obtain ⟨u, We, F, es, os, m, k, h1, h2, h3, h4, h5, h6, rfl, rfl⟩ := he
    simp only [Expr.Lawful] at hl
    have hs := ih hl h1
    obtain ⟨k1, k2⟩ := broadcast_stage hs.good h2 h3 h4
    refine ⟨k1, fun _ => trivial, fun hb o ho => ?_⟩
    rcases k2 (h6 hb) o ho with h | ⟨m1, m2⟩
    · exact .inr h
    · left
      have fin : (∃ v, (Ty.sig _).Shows u v ∧ e.Spec v) → ∃ v, (Ty.sig _).Shows (Bc.polled k (es.zip os)) v ∧
          (Expr.broadcast f e).Spec v := by
        rintro ⟨v, hv, hsp⟩
        refine ⟨f v, ?_, ?_⟩
        · have hv' : SigTrace.last u = some v := hv
          show SigTrace.last _ = _
          rw [m1, hv']; rfl
        · simp only [Expr.Spec]; exact ⟨v, hsp, rfl⟩
      rcases m2 with ⟨x, y, hx, hy, hd⟩ | ⟨y, hy⟩
      · rcases hs.fresh hb (some y) (.inl ⟨y, rfl, hy⟩) with h | ⟨z, hz, hw⟩
        · exact fin h
        · cases hz
          rw [h5 y hy hw] at hd
          cases hd
      · rcases hs.fresh hb none (.inr ⟨y, hy⟩) with h | ⟨z, hz, _⟩
        · exact fin h
        · cases hz
  | flatten g e ihg ih =>
    simp only [Expr.Exec] at he
    obtain ⟨u, inst, We, Wi, h1, h2, s, h3, h4, h5, rfl⟩ := he
    simp only [Expr.Lawful] at hl
    have hs := ih hl.2.1 h1
    obtain ⟨k1, k1', k2⟩ := flatten_stage (inst_good (fun a => ihg a (hl.1 a)) ⟨[], rfl⟩ h2) hs.good
      (hl.2.2 _ _ _ h1) h3 h4 (fun x hx => (h5 x hx).1)
    refine ⟨k1, fun hF => k1' fun b n => ?_, fun hb o ho => ?_⟩
    · simp only [Expr.Forward] at hF
      rcases h2 b n with h | ⟨W', h⟩
      · rw [h]; simp [Ty.Fwds, Trace.diffs, Trace.answers]
      · exact (ihg b (hl.1 b) h).fwds (hF b)
    · obtain ⟨m1, m2, m3⟩ := k2 o ho
      rcases hs.fresh hb o m1 with ⟨a, ha, hsp⟩ | ⟨x, hx, hw⟩
      · by_cases hw : ∃ x ∈ s.inner, ∃ y, o = some y ∧ Wi x.tag.1 x.tag.2 y
        · obtain ⟨x, hx, y, hy, hw⟩ := hw
          exact .inr ⟨y, hy, .inr ⟨x, hx, hw⟩⟩
        · obtain ⟨yss, n1, n2⟩ := m3 (fun a y => (g a).Spec y) (fun x hx => by
            rcases (ihg _ (hl.1 _) (h5 x hx).2).fresh hb o (m2 x hx) with h | ⟨y, hy, h⟩
            · exact h
            · exact absurd ⟨x, hx, y, hy, h⟩ hw) a ha
          refine .inl ⟨_, n1, ?_⟩
          simp only [Expr.Spec]
          exact ⟨a, yss, hsp, n2, rfl⟩
      · exact .inr ⟨x, hx, .inl hw⟩
  | toVec e ih =>
    simp only [Expr.Exec] at he
    obtain ⟨u, h1, h2⟩ := he
    simp only [Expr.Lawful] at hl
    have hs := ih hl h1
    obtain ⟨k1, k2, k3, k4⟩ := toVec_stage h2
    refine ⟨k1, fun _ => k2, Expr.fresh_of hs k3 fun o ho v hv hsp => ⟨v, k4 v hv, ?_⟩⟩
    simp only [Expr.Spec]; exact hsp
  | switchVec g e ihg ih =>
    simp only [Expr.Exec] at he
    obtain ⟨u, inst, We, Wi, h1, h2, s, h3, h4, h5, rfl⟩ := he
    simp only [Expr.Lawful] at hl
    have hs := ih hl.2.1 h1
    obtain ⟨k1, k1', k2⟩ := switchVec_stage
      (inst_good (fun a => ihg a (hl.1 a)) ⟨[], rfl⟩ h2)
      (fun b n => by
        rcases h2 b n with h | ⟨W', h⟩
        · rw [h]; simp
        · exact hl.2.2 b _ _ h) h3 h4 (fun x hx => (h5 x hx).1)
    refine ⟨k1, fun hF => k1' fun b n => ?_, fun hb o ho => ?_⟩
    · simp only [Expr.Forward] at hF
      rcases h2 b n with h | ⟨W', h⟩
      · rw [h]; simp [Ty.Fwds, Trace.diffs, Trace.answers]
      · exact (ihg b (hl.1 b) h).fwds (hF b)
    · obtain ⟨m1, m2⟩ := k2 o ho
      rcases hs.fresh hb o m1 with ⟨a, ha, hsp⟩ | ⟨x, hx, hw⟩
      · obtain ⟨x, hx, rfl, hr, hl'⟩ := m2 a ha
        rcases (ihg _ (hl.1 _) (h5 x hx).2).fresh hb o hr with ⟨v, hv, hvs⟩ | ⟨y, hy, hw⟩
        · refine .inl ⟨v, hl' v hv, ?_⟩
          simp only [Expr.Spec]; exact ⟨_, hsp, hvs⟩
        · exact .inr ⟨y, hy, .inr ⟨x, hx, hw⟩⟩
      · exact .inr ⟨x, hx, .inl hw⟩
  | keys bs s =>
    simp only [Expr.Exec] at he
    obtain ⟨k, h1, h2, rfl, h3⟩ := he
    simp only [Expr.Lawful] at hl
    obtain ⟨k1, k2, k3, k4⟩ := keys_stage hl.2.1 h3 (hl.1.good k h1) (hl.2.2 k h1)
    refine ⟨k1, fun _ => k2, fun hb o ho => ?_⟩
    rcases hl.1.fresh k h1 (h2 hb) o (k3 o ho) with h | h
    · obtain ⟨ks, n1, n2⟩ := k4 _ h
      refine .inl ⟨ks, n1, ?_⟩
      simp only [Expr.Spec]; exact n2
    · exact .inr h
  | entries bs s =>
    simp only [Expr.Exec] at he
    obtain ⟨k, h1, h2, rfl, h3⟩ := he
    simp only [Expr.Lawful] at hl
    obtain ⟨k1, k2, k3, k4⟩ := entries_stage hl.2.1 h3 (hl.1.good k h1) (hl.2.2 k h1)
    refine ⟨k1, fun _ => k2, fun hb o ho => ?_⟩
    rcases hl.1.fresh k h1 (h2 hb) o (k3 o ho) with h | h
    · obtain ⟨ks, n1, n2⟩ := k4 _ h
      refine .inl ⟨ks, n1, ?_⟩
      simp only [Expr.Spec]; exact n2
    · exact .inr h
  | mapValue f e ih =>
    simp only [Expr.Exec] at he
    obtain ⟨u, h1, h2⟩ := he
    simp only [Expr.Lawful] at hl
    have hs := ih hl h1
    obtain ⟨k1, k2, k3⟩ := mapValue_stage h2 hs.good
    refine ⟨k1, fun _ => trivial, Expr.fresh_of hs k2 fun o ho v hv hsp => ⟨_, k3 v hv, ?_⟩⟩
    simp only [Expr.Spec]; exact ⟨v, hsp, rfl⟩
  | mapValueSignal g e ihg ih =>
    simp only [Expr.Exec] at he
    obtain ⟨u, inst, We, Wi, h1, h2, s, h3, h4, h5, rfl⟩ := he
    simp only [Expr.Lawful] at hl
    have hs := ih hl.2 h1
    obtain ⟨k1, k2⟩ := mapValueSignal_stage (inst_good (fun a => ihg a (hl.1 a)) (.inl rfl) h2)
      hs.good h3 h4 (fun x hx => (h5 x hx).1)
    refine ⟨k1, fun hF => trivial, fun hb o ho => ?_⟩
    obtain ⟨m1, m2, m3⟩ := k2 o ho
    rcases hs.fresh hb o m1 with ⟨a, ha, hsp⟩ | ⟨x, hx, hw⟩
    · by_cases hw : ∃ x ∈ s.signals, ∃ y, o = some y ∧ Wi x.2.tag.1 x.2.tag.2 y
      · obtain ⟨x, hx, y, hy, hw⟩ := hw
        exact .inr ⟨y, hy, .inr ⟨x, hx, hw⟩⟩
      · obtain ⟨zs, n1, n2⟩ := m3 (fun a y => (g a).Spec y) (fun x hx => by
          rcases (ihg _ (hl.1 _) (h5 x hx).2).fresh hb o (m2 x hx) with h | ⟨y, hy, h⟩
          · exact h
          · exact absurd ⟨x, hx, y, hy, h⟩ hw) a ha
        refine .inl ⟨zs, n1, ?_⟩
        simp only [Expr.Spec]
        exact ⟨a, hsp, n2⟩
    · exact .inr ⟨x, hx, .inl hw⟩

/-- A pipeline without `filter`, `filter_map` and `chain` does not send a change without effect unless
it gets one. -/
theorem straight_brisk {p : Pipe α β} (hs : p.Straight) (hl : p.Lawful) (hf : ¬ p.Filters)
    {src : Nat → Trace α} {t : Trace β} (he : p.Exec src t)
    (hsrc : ∀ i, Feed (fun d xs => ¬ Vacuous d xs) (src i).diffs []) :
    Feed (fun d xs => ¬ Vacuous d xs) t.diffs [] := by
  induction p with
  | source i => simp only [Pipe.Exec] at he; subst he; exact hsrc i
  | map f p ih =>
    simp only [Pipe.Exec] at he
    obtain ⟨u, h1, h2⟩ := he
    exact map_lively h2 (ih hs hl hf h1)
  | sort S cmp p ih =>
    simp only [Pipe.Exec] at he
    obtain ⟨u, h1, h2⟩ := he
    exact sort_lively hl.1 hl.2.1 h2 (ih hs hl.2.2 hf h1)
  | enumerate p ih =>
    simp only [Pipe.Exec] at he
    obtain ⟨u, h1, h2⟩ := he
    exact enumerate_lively h2 (ih hs hl hf h1)
  | filterMap f p ih => exact (hf trivial).elim
  | filter f p ih => exact (hf trivial).elim
  | chain p q _ _ => exact hs.elim

theorem feed_lift {f : α → β} {ds : List (VecDiff α)} {xs : List α}
    (h : Feed (fun d xs => ¬ Vacuous d xs) (ds.map (VecDiff.map f)) (xs.map f)) :
    Feed (fun d xs => ¬ Vacuous d xs) ds xs := by
  induction ds generalizing xs with
  | nil => trivial
  | cons d ds ih =>
    obtain ⟨h1, ys, h2, h3⟩ := h
    obtain ⟨zs, g1, g2⟩ := replay_lift f (ds := [d]) (xs := xs) (ys := ys) (by simp [replay, h2])
    cases hd : d.apply xs with
    | none => simp [replay, hd] at g1
    | some zs' =>
      simp only [replay, hd, Option.some.injEq] at g1
      subst g1 g2
      exact ⟨fun hv => h1 ((trivial_map f).2 hv), _, hd, ih h3⟩

theorem feed_map {f : α → β} {ds : List (VecDiff α)} {xs : List α}
    (h : Feed (fun d xs => ¬ Vacuous d xs) ds xs) :
    Feed (fun d xs => ¬ Vacuous d xs) (ds.map (VecDiff.map f)) (xs.map f) := by
  induction ds generalizing xs with
  | nil => trivial
  | cons d ds ih =>
    obtain ⟨h1, ys, h2, h3⟩ := h
    refine ⟨fun hv => h1 ((trivial_map f).1 hv), ys.map f, ?_, ih h3⟩
    have := replay_map f (ds := [d]) (xs := xs) (ys := ys) (by simp [replay, h2])
    simp only [List.map_cons, List.map_nil, replay] at this
    split at this <;> simp_all

theorem Expr.brisk {τ : Ty} (e : Expr τ) (hl : e.Lawful) (hb : e.Brisk) {live : Bool} {t : Tr τ}
    {W : Waker → Prop} (he : e.Exec live t W) : τ.Brisk t := by
  induction e generalizing live W with
  | @source τ s =>
    simp only [Expr.Exec] at he
    obtain ⟨k, h1, -, rfl, -⟩ := he
    simp only [Expr.Brisk] at hb
    exact hb k h1
  | pipe p e ih =>
    have hg := (Expr.sound _ hl he).good
    simp only [Expr.Exec] at he
    obtain ⟨u, h1, h2⟩ := he
    simp only [Expr.Lawful] at hl
    simp only [Expr.Brisk] at hb
    have hu := (Expr.sound _ hl.2.2.2 h1).good
    exact (brisk_feed hg).2 (straight_brisk hl.1 hl.2.1 hb.1 h2
      fun _ => (brisk_feed hu).1 (ih hl.2.2.2 hb.2 h1))
  | chain e e' ih ih' =>
    have hg := (Expr.sound _ hl he).good
    simp only [Expr.Exec] at he
    obtain ⟨u, v, W1, W2, h1, h2, rfl, s, h3, h4, h5⟩ := he
    simp only [Expr.Lawful] at hl
    simp only [Expr.Brisk] at hb
    exact (brisk_feed hg).2 (chain_lively h3
      ((brisk_feed (Expr.sound _ hl.1 h1).good).1 (ih hl.1 hb.1 h1))
      ((brisk_feed (Expr.sound _ hl.2.1 h2).good).1 (ih' hl.2.1 hb.2 h2)))
  | mapSignal g e ihg ih =>
    have hg := (Expr.sound _ hl he).good
    simp only [Expr.Exec] at he
    obtain ⟨u, inst, We, Wi, h1, h2, s, h3, h4, h5, rfl⟩ := he
    simp only [Expr.Lawful] at hl
    simp only [Expr.Brisk] at hb
    have hu := (brisk_feed (Expr.sound _ hl.2 h1).good).1 (ih hl.2 hb h1)
    refine (brisk_feed hg).2 (mapSignal_lively (g := fun q : _ × Nat => (inst q.1 q.2).say) ?_ h3 ?_)
    · intro q
      refine say_eager ?_
      rcases h2 q.1 q.2 with h | ⟨W', h⟩
      · exact .inl h
      · exact (Expr.sound _ (hl.1 _) h).good
    · rw [bare_diffs] at hu
      exact feed_lift (xs := []) hu
  | mapIndexed g e ihg ih =>
    have hg := (Expr.sound _ hl he).good
    simp only [Expr.Exec] at he
    obtain ⟨u, We, es, E, mine, v, inst, Wi, h1, hE, rfl, hv, h2, s, h3, h4, h5, rfl⟩ := he
    simp only [Expr.Lawful] at hl
    simp only [Expr.Brisk] at hb
    have hwf : ∃ z, replay (items (E.signal.hist.map (·.2))) [] = some z := (Expr.sound _ hl.2 h1).good
    obtain ⟨ys, p1, -, -⟩ := EnumSig.trace_shows hwf hE
    have hu := (brisk_feed ⟨ys, p1⟩).1 (EnumSig.trace_brisk hE (ih hl.2 hb h1))
    rw [← hv] at hu
    refine (brisk_feed hg).2 (mapSignal_lively (g := fun q : _ × Nat => (inst q.1 q.2).say) ?_ h3 ?_)
    · intro q
      refine say_eager ?_
      rcases h2 q.1 q.2 with h | ⟨W', h⟩
      · exact .inl h
      · exact (Expr.sound _ (hl.1 _ _ (EnumSig.index_ok hwf hE _ _)) h).good
    · rw [bare_diffs] at hu
      exact feed_lift (xs := []) hu
  | delayRemove futs e ih =>
    have hg := (Expr.sound _ hl he).good
    simp only [Expr.Exec] at he
    obtain ⟨u, v, We, h1, rfl, s, h2, h3, h4, rfl⟩ := he
    simp only [Expr.Lawful] at hl
    simp only [Expr.Brisk] at hb
    have hu := (brisk_feed (Expr.sound _ hl.2 h1).good).1 (ih hl.2 hb h1)
    rw [bare_diffs] at hu
    refine (brisk_feed hg).2 ?_
    rw [bare_diffs]
    exact feed_map (xs := []) (delay_lively h2 (feed_lift (xs := []) hu))
  | _ => exact hb.elim

end Verif
