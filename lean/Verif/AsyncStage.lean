import Verif.ExprStages
import Verif.Props.SignalA2
import Verif.Props.SignalVecDelay

/-!
# Proofs about expressions: `stop_if`, `filter_map`, `throttle`, `map_future`, `delay_remove`
-/

namespace Verif

variable {α β γ ι σ : Type}

theorem good_last {t : SigTrace α} (h : (Ty.sig α).Good t) (hne : t ≠ []) : ∃ v, t.last = some v := by
  rcases h with h | ⟨b, h⟩
  · exact absurd h hne
  · match t with
    | [] => simp at h
    | (w, r) :: t' =>
      simp only [List.head?_cons, Option.map_some, Option.some.injEq] at h
      subst h
      exact ⟨_, by simp only [SigTrace.last, List.map_cons, items]; exact List.getLast?_cons⟩

theorem mem_ended {u : SigTrace α} {s : Src (Option α)} (h : s.hist = u)
    (hm : .ready none ∈ u.map (·.2)) : s.ended := by
  obtain ⟨q, hq, hq2⟩ := List.mem_map.1 hm
  exact ⟨q.1, by rw [h, ← hq2]; exact hq⟩

theorem stopIf_stage {p : α → Bool} {u t : SigTrace α}
    (h : Rel (SStopIf.poll (logging p)) (SStopIf.init []) (·.signal) u t) (hu : (Ty.sig α).Good u) :
    (Ty.sig α).Good t ∧ t.last = u.last ∧
      ∀ o, Rest o t → Rest o u ∨ ∃ v, t.last = some v ∧ p v = true := by
  obtain ⟨s, h1, h2⟩ := h
  obtain ⟨hf, hstop, harm⟩ := C57_stop_if (logging p) [] (u.map (·.2)) _ _ s h1
  obtain ⟨outs, s', g1, g2, g3, g4⟩ := C53_stop_if p (u.map (·.2)) (t.map (·.1))
  cases h1.symm.trans g1
  have hl : t.last = u.last := by
    simp only [SigTrace.last]
    rcases g4 with g4 | ⟨-, g4⟩ <;> simp [g4, h2, items_append, items]
  refine ⟨?_, hl, fun o ho => ?_⟩
  · rcases hu with rfl | ⟨b, hb⟩
    · left
      rcases g4 with g4 | ⟨⟨g, w, a, hh, -, -⟩, -⟩
      · rw [h2] at g4; simpa using g4
      · rw [h2] at hh; simp at hh
    · right
      refine ⟨b, ?_⟩
      rw [← List.head?_map] at hb ⊢
      rcases g4 with g4 | ⟨-, g4⟩ <;> rw [g4, h2]
      · exact hb
      · rw [List.head?_append, hb]; rfl
  · rcases rest_cases ho with ⟨x, ho, c1, c2⟩ | c
    · left
      rw [← h2]
      exact Src.rest hf (.inr ⟨x, ho, harm x c1 c2⟩)
    · rcases g4 with g4 | ⟨⟨g, w, a, hh, hpa, -⟩, g4⟩
      · left
        rw [← h2]
        refine Src.rest hf (.inl (mem_ended h2 ?_))
        rw [g4, h2] at c; exact c
      · right
        refine ⟨a, ?_, hpa⟩
        rw [hl, ← h2, hh]
        simp [SigTrace.last, items_append, items]

theorem filterMapSpec_last {f : α → Option β} {l : List α} {a : α} (h : l.getLast? = some a) :
    ∃ v, (filterMapSpec f l).getLast? = some v ∧ (∀ b, f a = some b → v = some b) ∧
      ∀ b, v = some b → ∃ a', f a' = some b := by
  match l with
  | [] => simp at h
  | x :: l =>
    have hsome : ∀ v, (filterMapSpec f (x :: l)).getLast? = some v → ∀ b, v = some b → ∃ a', f a' = some b := by
      intro v hv b hb
      have := List.mem_of_getLast? hv
      subst hb
      simp only [filterMapSpec, List.mem_cons, List.mem_map, List.mem_filterMap] at this
      rcases this with h | ⟨y, ⟨a', -, h⟩, hy⟩
      · exact ⟨x, h.symm⟩
      · cases hy; exact ⟨a', h⟩
    cases hv : (filterMapSpec f (x :: l)).getLast? with
    | none => simp [filterMapSpec] at hv
    | some v =>
      refine ⟨v, rfl, ?_, hsome v hv⟩
      intro b hb
      rcases List.eq_nil_or_concat l with rfl | ⟨l', y, rfl⟩
      · simp at h; subst h
        simp [filterMapSpec] at hv
        rw [← hv, hb]
      · rw [List.concat_eq_append, ← List.cons_append, List.getLast?_concat] at h
        cases h
        simp only [filterMapSpec, List.concat_eq_append, List.filterMap_append, List.map_append] at hv
        rw [← List.cons_append] at hv
        simp only [List.filterMap_cons, hb, List.filterMap_nil, List.map_cons, List.map_nil,
          List.getLast?_concat, Option.some.injEq] at hv
        exact hv.symm

theorem filterMapS_stage {f : α → Option β} {u : SigTrace α} {t : SigTrace (Option β)}
    (h : Rel (SFilterMap.poll (logging f)) (SFilterMap.init []) (·.signal) u t)
    (hu : (Ty.sig α).Good u) :
    (Ty.sig (Option β)).Good t ∧ (∀ o, Rest o t → Rest o u) ∧
      ∀ a, u.last = some a → ∃ v, t.last = some v ∧ (∀ b, f a = some b → v = some b) ∧
        ∀ b, v = some b → ∃ a', f a' = some b := by
  have hr : ∀ o, Rest o t → Rest o u := fun o => h.rest (C57_signal_filter_map _ _ _)
  obtain ⟨s, h1, h2⟩ := h
  obtain ⟨outs, s', g1, g2, -⟩ := C51_filter_map f (u.map (·.2)) (t.map (·.1))
  cases h1.symm.trans g1
  have hg : s.signal.got = items (u.map (·.2)) := by rw [Src.got, h2]
  rw [hg] at g2
  refine ⟨good_of_first hu (fun o ho => rest_ne (hr o ho)) ?_ ?_, hr, fun a ha => ?_⟩
  · rintro rfl; exact g2
  · rintro w a u' w' r t' rfl rfl
    obtain ⟨s1, hp⟩ := run_head h1
    cases hf : f a with
    | none =>
      simp [SFilterMap.poll, SFilterMap.init, Src.mk', Src.loop, pollLoop, filterMapSBody, logging, hf] at hp
      exact ⟨_, hp.1.symm⟩
    | some b =>
      simp [SFilterMap.poll, SFilterMap.init, Src.mk', Src.loop, pollLoop, filterMapSBody, logging, hf] at hp
      exact ⟨_, hp.1.symm⟩
  · obtain ⟨v, k1, k2⟩ := filterMapSpec_last (f := f) ha
    exact ⟨v, by rw [SigTrace.last, g2]; exact k1, k2⟩

theorem throttle_stage {g : Nat → List (Poll Unit)} {u t : SigTrace α} {s : SThrottle α}
    (hu : (Ty.sig α).Good u)
    (h1 : run (SThrottle.poll g) (t.map (·.1)) (SThrottle.init (u.map (·.2))) = some (t.map (·.2), s))
    (h2 : s.signal.src.hist = u) :
    (Ty.sig α).Good t ∧ t.last = u.last ∧
      ∀ o, Rest o t → Rest o u ∨ ∃ x w, s.future = some x ∧ o = some w ∧ x.src.armed w := by
  obtain ⟨outs, s', g1, g2, g3, -, -, -, g7, g8, g9⟩ := C55_throttle g (u.map (·.2)) (t.map (·.1))
  cases h1.symm.trans g1
  rw [Src.got, h2] at g2
  have hr : ∀ o, Rest o t → Rest o u ∨ ∃ x w, s.future = some x ∧ o = some w ∧ x.src.armed w := by
    intro o ho
    rcases rest_cases ho with ⟨w, ho, c1, c2⟩ | c
    · rcases g9 w c1 c2 with ⟨x, hx, ha⟩ | ⟨-, ha⟩
      · exact .inr ⟨x, w, hx, ho, ha⟩
      · exact .inl (by rw [← h2]; exact Src.rest g7 (.inr ⟨w, ho, ha⟩))
    · exact .inl (by rw [← h2]; exact Src.rest g7 (.inl (g8 c).1))
  refine ⟨good_of_first hu ?_ ?_ ?_, by rw [SigTrace.last, g2]; rfl, hr⟩
  · rintro o ho rfl
    rcases hr o ho with h | ⟨x, w, hx, -, -⟩
    · exact rest_ne h rfl
    · rw [hx, g2] at g3
      simp at g3
  · rintro rfl; exact g2
  · rintro w a u' w' r t' rfl rfl
    obtain ⟨s1, hp⟩ := run_head h1
    refine ⟨a, ?_⟩
    simp only [SThrottle.poll, SThrottle.init, SThrottle.pollSignal, Inp.poll, Inp.mk', Src.mk', Src.poll,
      List.map_cons, Option.some.injEq] at hp
    split at hp
    · rename_i h; simp at h
    · rename_i h; simp at h
    · rename_i h
      rw [if_pos trivial] at h
      simp only [Prod.mk.injEq, Option.some.injEq, Poll.ready.injEq] at h
      rw [h.1]
      split at hp <;> exact (Prod.mk.inj hp).1.symm
    · rename_i h; simp at h

theorem output_mem {s : Src α} {b : α} (h : s.output = some b) : ∃ w, (w, .ready b) ∈ s.hist := by
  obtain ⟨q, hq, h⟩ := List.exists_of_findSome?_eq_some h
  obtain ⟨w, r⟩ := q
  match r with
  | .pending => simp at h
  | .ready a => simp at h; subst h; exact ⟨w, hq⟩

theorem mapFuture_stage {g : α × Nat → List (Poll β)} {u : SigTrace (α × Nat)} {t : SigTrace (Option β)}
    {s : SMapFuture (α × Nat) β}
    (h1 : run (SMapFuture.poll g) (t.map (·.1)) (SMapFuture.init (u.map (·.2))) = some (t.map (·.2), s))
    (h2 : s.signal.src.hist = u) :
    (Ty.sig (Option β)).Good t ∧ ∀ o, Rest o t → Rest o u.bare ∧
      ∀ a, u.bare.last = some a → ∃ x, (s.old ++ s.future.toList).getLast? = some x ∧ x.tag.1 = a ∧
        ((∃ w, s.future = some x ∧ o = some w ∧ x.src.armed w) ∨
          ∃ b w, (w, .ready b) ∈ x.src.hist ∧ t.last = some (some b)) := by
  obtain ⟨outs, s', g1, ⟨lead, hlead, -, hitems⟩, hfirst, htags, -, -, hlast, hfused, hend, hpend⟩ :=
    C54_map_future g (u.map (·.2)) (t.map (·.1))
  cases h1.symm.trans g1
  refine ⟨?_, fun o ho => ⟨(rest_map _ o u).2 ?_, fun a ha => ?_⟩⟩
  · clear h1 g1 hitems hpend hend
    match t with
    | [] => exact .inl rfl
    | (w, r) :: t' =>
      obtain ⟨v, hv⟩ := hfirst r rfl
      exact .inr ⟨v, by simp [hv]⟩
  · rw [← h2]
    refine Src.rest hfused ?_
    rcases rest_cases ho with ⟨w, ho, c1, c2⟩ | c
    · exact (hpend w c1 c2).1.imp id fun h => ⟨w, ho, h⟩
    · exact .inl (hend c).1
  · have hb : u.bare.last = (s.signal.src.got.getLast?).map Prod.fst := by
      rw [SigTrace.bare, SigTrace.last, mapped_last, SigTrace.last, Src.got, h2]
    rw [hb, ← htags, List.getLast?_map, Option.map_map, Option.map_eq_some_iff] at ha
    obtain ⟨x, hx, hxa⟩ := ha
    refine ⟨x, hx, hxa, ?_⟩
    cases hfut : s.future with
    | some y =>
      left
      have : y = x := by rw [hfut] at hx; simpa using hx
      subst this
      rcases rest_cases ho with ⟨w, ho, c1, c2⟩ | c
      · exact ⟨w, rfl, ho, (hpend w c1 c2).2.1 y hfut⟩
      · rw [(hend c).2] at hfut; cases hfut
    | none =>
      right
      rw [hfut] at hx hitems
      simp only [Option.toList_none, List.append_nil] at hx hitems
      obtain ⟨b, hb⟩ := hlast hfut x hx
      obtain ⟨w, hw⟩ := output_mem hb
      refine ⟨b, w, hw, ?_⟩
      obtain ⟨l, hl⟩ : ∃ l, s.old = l ++ [x] := List.getLast?_eq_some_iff.1 hx
      rw [SigTrace.last, hitems, hl]
      simp [List.filterMap_append, hb]

/-! ## `delay_remove` -/

theorem findLive_lt {fs : List (DState β)} {i a : Nat} (h : findLive fs i = some a) : a < fs.length := by
  induction fs generalizing i a with
  | nil => simp [findLive] at h
  | cons s fs ih =>
    simp only [findLive] at h
    split at h
    · obtain ⟨b, hb, rfl⟩ := Option.map_eq_some_iff.1 h
      simpa using ih hb
    · split at h
      · cases h; simp
      · obtain ⟨b, hb, rfl⟩ := Option.map_eq_some_iff.1 h
        simpa using ih hb

/-- An element that is moved towards the end is not moved over elements being removed to the front. -/
theorem findLive_erase {fs : List (DState β)} {i j a b : Nat} (h : findLive fs i = some a) (hij : i ≤ j)
    (hb : findLive (fs.eraseIdx a) j = some b) : a ≤ b := by
  induction fs generalizing i j a b with
  | nil => simp [findLive] at h
  | cons s fs ih =>
    simp only [findLive] at h
    split at h
    · rename_i hs
      obtain ⟨c, hc, rfl⟩ := Option.map_eq_some_iff.1 h
      simp only [List.eraseIdx_cons_succ, findLive, hs, if_true] at hb
      obtain ⟨d, hd, rfl⟩ := Option.map_eq_some_iff.1 hb
      have := ih hc hij hd
      omega
    · rename_i hs
      split at h
      · cases h; omega
      · rename_i k
        obtain ⟨c, hc, rfl⟩ := Option.map_eq_some_iff.1 h
        obtain ⟨l, rfl⟩ : ∃ l, j = l + 1 := ⟨j - 1, by omega⟩
        simp only [List.eraseIdx_cons_succ, findLive, hs] at hb
        obtain ⟨d, hd, rfl⟩ := Option.map_eq_some_iff.1 hb
        have := ih hc (by omega) hd
        omega

/-- What `remove_index` emits. -/
theorem removeIndex_emits {Q : VecDiff β → Prop} (hQ : ∀ d, d.isRemoval = true → Q d) {v v' : DVars β}
    {i : Nat} (h : v.removeIndex i = some v') (hv : ∀ d ∈ v.newPending, Q d) : ∀ d ∈ v'.newPending, Q d := by
  simp only [DVars.removeIndex] at h
  repeat' split at h
  all_goals first
    | (cases h; done)
    | (cases h
       intro d hd
       rcases List.mem_append.1 hd with hd | hd
       · exact hv d hd
       · simp at hd; subst hd; exact hQ _ rfl)

theorem removeAll_emits {Q : VecDiff β → Prop} (hQ : ∀ d, d.isRemoval = true → Q d) {v v' : DVars β}
    {is : List Nat} (h : v.removeAll is = some v') (hv : ∀ d ∈ v.newPending, Q d) :
    ∀ d ∈ v'.newPending, Q d := by
  induction is generalizing v with
  | nil => cases h; exact hv
  | cons i is ih =>
    simp only [DVars.removeAll] at h
    split at h
    · rename_i h1; exact ih h (removeIndex_emits hQ h1 hv)
    · cases h

theorem removeOne_emits {Q : VecDiff β → Prop} (hQ : ∀ d, d.isRemoval = true → Q d) {w : Waker}
    {v v' : DVars β} {i : Nat} (h : v.removeOne w i = some v') (hv : ∀ d ∈ v.newPending, Q d) :
    ∀ d ∈ v'.newPending, Q d := by
  simp only [DVars.removeOne] at h
  repeat' split at h
  · cases h
  · cases h
  · exact removeIndex_emits hQ h hv
  · cases h; exact hv

/-- What the end of a poll of `delay_remove` emits. -/
theorem finish_emits {Q : VecDiff β → Prop} (hQ : ∀ d, d.isRemoval = true → Q d) {w : Waker} {b : Bool}
    {i : Inp (Option (VecDiff β))} {v : DVars β} {r : Poll (Option (VecDiff β))} {s' : VDelay β}
    (h : VDelay.finish w b i v = some (r, s')) (hv : ∀ d ∈ v.newPending, Q d) :
    s'.signal = i ∧ (∀ d ∈ s'.pending, Q d) ∧ ∀ d, r = .ready (some d) → Q d := by
  simp only [VDelay.finish] at h
  split at h
  · cases h
  · rename_i v1 hv1
    have := removeAll_emits hQ hv1 hv
    split at h
    · rename_i first rest hn
      cases h
      rw [hn] at this
      exact ⟨rfl, fun d hd => this d (by simp only [List.mem_cons]; exact .inr hd),
        fun d hd => by cases hd; exact this _ (by simp)⟩
    · split at h <;> cases h <;> exact ⟨rfl, by simp, by simp⟩

theorem removal_fwd (d : VecDiff β) (h : d.isRemoval = true) : Fwd d := by
  rintro i j rfl; cases h

theorem delayBody_fwd {g : β → List (Poll Unit)} {w : Waker} {v v' : DVars β} {d : VecDiff β}
    (hv : ∀ d ∈ v.newPending, Fwd d) (hd : Fwd d) (h : delayBody g w v d = .cont v') :
    ∀ d ∈ v'.newPending, Fwd d := by
  cases d with
  | move i j =>
    simp only [delayBody] at h
    split at h
    · cases h
    · rename_i a ha
      split at h
      · cases h
      · rename_i x fs hr
        split at h
        · cases h
        · cases h
          refine fwd_snoc hv ?_
          intro a' b he
          cases he
          have hfs : fs = v.futures.eraseIdx a := by
            simp only [vRemove] at hr
            split at hr
            · simp only [Option.some.injEq, Prod.mk.injEq] at hr; exact hr.2.symm
            · cases hr
          subst hfs
          cases hf : findLive (v.futures.eraseIdx a) j with
          | some b => exact findLive_erase ha (hd i j rfl) hf
          | none =>
            have := findLive_lt ha
            simp only [Option.getD_none, List.length_eraseIdx]
            split <;> omega
  | replace vs =>
    simp only [delayBody] at h
    split at h
    · cases h; exact fwd_snoc hv (by simp [Fwd])
    · split at h
      · cases h
      · rename_i v1 h1
        cases h
        unfold DVars.removeExisting at h1
        have := removeAll_emits removal_fwd h1 hv
        exact fwd_append this (by simp [Fwd])
  | removeAt i =>
    simp only [delayBody] at h
    split at h
    · cases h
    · cases h1 : v.removeOne w _ with
      | none => rw [h1] at h; cases h
      | some v1 => rw [h1] at h; cases h; exact removeOne_emits removal_fwd h1 hv
  | pop =>
    simp only [delayBody] at h
    split at h
    · cases h
    · cases h1 : v.removeOne w _ with
      | none => rw [h1] at h; cases h
      | some v1 => rw [h1] at h; cases h; exact removeOne_emits removal_fwd h1 hv
  | clear =>
    simp only [delayBody] at h
    cases h1 : v.removeExisting w with
    | none => rw [h1] at h; cases h
    | some v1 =>
      rw [h1] at h
      cases h
      unfold DVars.removeExisting at h1
      exact removeAll_emits removal_fwd h1 hv
  | _ =>
    simp only [delayBody] at h
    repeat' split at h
    all_goals first | (cases h; done) | (cases h; exact fwd_snoc hv (by simp [Fwd]))

theorem delay_fwd {g : β → List (Poll Unit)} {u t : Trace β} {s : VDelay β}
    (h : run (VDelay.poll g) t.wakers (VDelay.init u.answers) = some (t.answers, s))
    (hf : ∀ d ∈ u.diffs, Fwd d) : ∀ d ∈ t.diffs, Fwd d := by
  refine run_items (fun s => (∀ d ∈ items s.signal.src.todo, Fwd d) ∧ ∀ d ∈ s.pending, Fwd d) Fwd ?_ h
    ⟨hf, by simp [VDelay.init]⟩
  rintro w ⟨sig, futures, pend, gone⟩ r s' ⟨h1, h2⟩ hp
  unfold VDelay.poll at hp
  cases pend with
  | cons c rest =>
    cases hp
    refine ⟨⟨h1, fun d hd => h2 d (by simp only [List.mem_cons]; exact .inr hd)⟩, fun d hd => ?_⟩
    cases hd
    exact h2 _ (by simp)
  | nil =>
    simp only at hp
    obtain ⟨st, v, i', e⟩ : ∃ st v i', sig.loop w (delayBody g w) ⟨futures, [], gone⟩ =
      (st, v, i') := ⟨_, _, _, rfl⟩
    obtain ⟨k1, k2⟩ := Inp.loop_keeps Fwd (fun q : DVars β => ∀ e ∈ q.newPending, Fwd e)
      (fun s a s' hs ha hb => delayBody_fwd hs ha hb) (fun _ _ _ r => r.elim) e h1 (by simp)
    rw [e] at hp
    have fin : ∀ b, VDelay.finish w b i' v = some (r, s') →
        ((∀ d ∈ items s'.signal.src.todo, Fwd d) ∧ ∀ d ∈ s'.pending, Fwd d) ∧
          ∀ d, r = .ready (some d) → Fwd d := by
      intro b hb
      obtain ⟨rfl, m1, m2⟩ := finish_emits removal_fwd hb k2
      exact ⟨⟨k1, m1⟩, m2⟩
    cases st with
    | panic => cases hp
    | ret q => exact q.elim
    | ended => exact fin true hp
    | pending => exact fin false hp

/-- Neither `Clear` nor a `Replace` by nothing. -/
def Solid (d : VecDiff β) : Prop := d ≠ .clear ∧ d ≠ .replace []

theorem removal_solid (d : VecDiff β) (h : d.isRemoval = true) : Solid d := by
  constructor <;> (rintro rfl; cases h)

theorem delayBody_solid {g : β → List (Poll Unit)} {w : Waker} {v v' : DVars β} {d : VecDiff β}
    (hv : ∀ d ∈ v.newPending, Solid d) (hd : v.futures = [] → d ≠ .replace [])
    (h : delayBody g w v d = .cont v') : ∀ d ∈ v'.newPending, Solid d := by
  have snoc : ∀ {l : List (VecDiff β)} {e : VecDiff β}, (∀ d ∈ l, Solid d) → Solid e →
      ∀ d ∈ l ++ [e], Solid d := by
    intro l e hl he d hd
    rcases List.mem_append.1 hd with hd | hd
    · exact hl d hd
    · simp at hd; subst hd; exact he
  cases d with
  | replace vs =>
    simp only [delayBody] at h
    split at h
    · rename_i h0
      cases h
      refine snoc hv ⟨by simp, ?_⟩
      exact hd (List.length_eq_zero_iff.1 h0)
    · split at h
      · cases h
      · rename_i v1 h1
        cases h
        unfold DVars.removeExisting at h1
        have := removeAll_emits removal_solid h1 hv
        intro d hd
        rcases List.mem_append.1 hd with hd | hd
        · exact this d hd
        · obtain ⟨a, -, rfl⟩ := List.mem_map.1 hd
          exact ⟨by simp, by simp⟩
  | removeAt i =>
    simp only [delayBody] at h
    split at h
    · cases h
    · cases h1 : v.removeOne w _ with
      | none => rw [h1] at h; cases h
      | some v1 => rw [h1] at h; cases h; exact removeOne_emits removal_solid h1 hv
  | pop =>
    simp only [delayBody] at h
    split at h
    · cases h
    · cases h1 : v.removeOne w _ with
      | none => rw [h1] at h; cases h
      | some v1 => rw [h1] at h; cases h; exact removeOne_emits removal_solid h1 hv
  | clear =>
    simp only [delayBody] at h
    cases h1 : v.removeExisting w with
    | none => rw [h1] at h; cases h
    | some v1 =>
      rw [h1] at h
      cases h
      unfold DVars.removeExisting at h1
      exact removeAll_emits removal_solid h1 hv
  | _ =>
    simp only [delayBody] at h
    repeat' split at h
    all_goals first | (cases h; done) | (cases h; exact snoc hv ⟨by simp, by simp⟩)

theorem delay_lively {g : β → List (Poll Unit)} {u t : Trace β} {s : VDelay β}
    (h : run (VDelay.poll g) t.wakers (VDelay.init u.answers) = some (t.answers, s))
    (hu : Feed (fun d xs => ¬ Vacuous d xs) u.diffs []) :
    Feed (fun d xs => ¬ Vacuous d xs) t.diffs [] := by
  refine run_feed (fun s zs => (∃ xs n, DelayInv (fun d xs => ¬ Vacuous d xs) g s xs zs n) ∧
    ∀ d ∈ s.pending, Solid d) ?_ h
    ⟨⟨[], 0, Inp.ok_mk' _, valid_mk' hu, rfl, rfl, by simp [VDelay.init], by simp [VDelay.init],
      by simp [VDelay.init]⟩, by simp [VDelay.init]⟩
  rintro w s zs ⟨⟨xs, n, hi⟩, hs⟩
  obtain ⟨r, s', g1, g2⟩ := VDelay.step w hi
  have key : (∀ d ∈ s'.pending, Solid d) ∧ ∀ d, r = .ready (some d) → Solid d := by
    obtain ⟨sig, fs, pend, gone⟩ := s
    simp only [VDelay.poll] at g1
    cases pend with
    | cons c rest =>
      cases g1
      exact ⟨fun d hd => hs d (by simp only [List.mem_cons]; exact .inr hd),
        fun d hd => by cases hd; exact hs _ (by simp)⟩
    | nil =>
      obtain ⟨st, v, i', xs', e1, -, -, e4⟩ := Inp.vloop_rule (w := w) (body := delayBody g w)
        (ok := fun d xs => ¬ Vacuous d xs)
        (fun v xs => DInv g v xs zs n ∧ ∀ d ∈ v.newPending, Solid d) (fun (r : Empty) _ _ => r.elim)
        (by
          rintro v xs d ys ⟨hv, hq⟩ hok hd
          obtain ⟨v', e1, e2⟩ := delayBody_spec w hv hd
          rw [e1]
          refine ⟨e2, delayBody_solid hq (fun hf hr => hok ?_) e1⟩
          have := hv.live
          rw [hf] at this
          exact trivial_vacuous ⟨.inl hr, this.symm⟩)
        sig ⟨fs, [], gone⟩ xs hi.inp hi.valid ⟨hi.vars, by simp⟩
      simp only [e1] at g1
      match st with
      | .panic => exact e4.elim
      | .ret r => exact r.elim
      | .ended => exact (finish_emits removal_solid g1 e4.1.2).2
      | .pending => exact (finish_emits removal_solid g1 e4.1.2).2
  refine ⟨r, s', g1, ?_⟩
  match r with
  | .ready (some d) =>
    obtain ⟨xs', zs', g3, g4⟩ := g2
    exact ⟨fun hv => hv.1.elim (key.2 d rfl).2 (key.2 d rfl).1, zs', g3, ⟨xs', _, g4⟩, key.1⟩
  | .ready none => trivial
  | .pending => exact ⟨let ⟨xs', hx⟩ := g2.2.2.2.2; ⟨xs', _, hx⟩, key.1⟩

theorem delay_stage {g : β × Nat → List (Poll Unit)} {u v : Trace (β × Nat)} (hu : (Ty.vec β).Good u.bare)
    {s : VDelay (β × Nat)}
    (h1 : run (VDelay.poll g) (v.map (·.1)) (VDelay.init (u.map (·.2))) = some (v.map (·.2), s))
    (h2 : s.signal.src.hist = u) :
    (Ty.vec β).Good v.bare ∧ ((Ty.vec β).Fwds u.bare → (Ty.vec β).Fwds v.bare) ∧
      ∀ o, Rest o v.bare → Rest o u.bare ∧
      (Ty.vec β).Shows v.bare (s.futures.map (·.tag.1)) ∧
      (Ty.vec β).Shows u.bare ((s.futures.filter (!·.isRemoving)).map (·.tag.1)) ∧
      ∀ x ∈ s.futures, x.isRemoving = true → ∃ w, o = some w ∧ x.future.armed w := by
  obtain ⟨xs, hx⟩ := hu
  have hx' := hx
  rw [bare_diffs] at hx
  obtain ⟨ls, k1, k2⟩ := replay_lift Prod.fst (xs := []) hx
  obtain ⟨outs, s', xs', zs, g1, g2, g3, g4, g5, g6, -, -, g9, g10⟩ :=
    C17_delay_remove g u.answers ⟨ls, k1⟩ (v.map (·.1))
  cases h1.symm.trans g1
  obtain ⟨⟨f1, f2⟩, f3, f4⟩ := C57_delay_remove g u.answers ⟨ls, k1⟩ _ _ s h1
  have hxs : ls = xs' := by
    rw [Src.got, h2] at g2
    exact Option.some.inj (k1.symm.trans g2)
  subst hxs
  have hrep : replay (Trace.bare v).diffs [] = some (zs.map Prod.fst) := by
    rw [bare_diffs]
    exact replay_map Prod.fst (xs := []) g3
  refine ⟨⟨_, hrep⟩, fun hF => bare_fwd.2 (delay_fwd h1 (bare_fwd.1 hF)), fun o ho => ?_⟩
  replace ho : Rest o v := (rest_map _ o v).1 ho
  have hz : zs = s.futures.map (·.tag) := by
    have : s.pending = [] := by
      rcases rest_cases ho with ⟨w, -, -, c2⟩ | c
      · exact (g9 c2).1
      · exact (f3 c).1
    rw [this] at g4
    exact Option.some.inj g4
  refine ⟨(rest_map _ o u).2 ?_, ?_, ?_, ?_⟩
  · rw [← h2]
    refine Src.rest f1 ?_
    rcases rest_cases ho with ⟨w, ho, c1, c2⟩ | c
    · exact (f4 w c1 c2).1.imp id fun h => ⟨w, ho, h⟩
    · exact .inl (f3 c).2.1
  · simp only [Ty.Shows]
    rw [hrep, hz, List.map_map]; rfl
  · simp only [Ty.Shows]
    rw [hx', ← k2, ← g5, List.map_map]; rfl
  · intro x hm hr
    rcases rest_cases ho with ⟨w, ho, c1, c2⟩ | c
    · exact ⟨w, ho, (f4 w c1 c2).2.1 x hm hr⟩
    · rw [(f3 c).2.2 x hm] at hr; cases hr

end Verif
