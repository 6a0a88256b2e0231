import Verif.Props.Same
import Verif.SignalVec1Proofs
import Verif.MapProofs

/-!
# C101, continued: `SignalVec` and `SignalMap`
-/

namespace Verif

variable {α β γ δ κ κ' : Type}

theorem VecDiff.map_id' (d : VecDiff α) : d.map id = d := by cases d <;> simp [VecDiff.map]

theorem VecDiff.map_map' (f : α → β) (g : β → γ) (d : VecDiff α) : (d.map f).map g = d.map (g ∘ f) := by
  cases d <;> simp [VecDiff.map]

/-- What two loop bodies do with an item is alike, up to the function `h` on what they give. -/
inductive Ctl.AlikeBy {σ τ B C : Type} (R : σ → τ → Prop) (h : B → C) : Ctl σ B → Ctl τ C → Prop
  | cont {s s'} (hr : R s s') : Ctl.AlikeBy R h (.cont s) (.cont s')
  | ret {s s'} (b : B) (hr : R s s') : Ctl.AlikeBy R h (.ret s b) (.ret s' (h b))
  | panic : Ctl.AlikeBy R h .panic .panic

theorem filterMapS_natural {f : κ → α → Option β × κ} {f' : κ' → γ → Option δ × κ'} {g : α → γ} {h : β → δ}
    (hf : ∀ k k' a, (f' k' (g a)).1 = (f k a).1.map h) :
    ∀ (l : List α) (k : κ) (k' : κ'), (filterMapS f' k' (l.map g)).1 = (filterMapS f k l).1.map h ∧
      (filterMapS f' k' (l.map g)).2.1 = (filterMapS f k l).2.1
  | [], _, _ => ⟨rfl, rfl⟩
  | a :: l, k, k' => by
    obtain ⟨h1, h2⟩ := filterMapS_natural hf l (f k a).2 (f' k' (g a)).2
    simp only [List.map_cons, filterMapS, h1, h2, hf k k' a, List.map_append, Option.isSome_map]
    cases (f k a).1 <;> simp

/-- The loop of `filter_map` does not look at the values. -/
theorem filterMapBody_natural {f : κ → α → Option β × κ} {f' : κ' → γ → Option δ × κ'} {g : α → γ} {h : β → δ}
    (hf : ∀ k k' a, (f' k' (g a)).1 = (f k a).1.map h) (ix : List Bool) (k : κ) (k' : κ') (d : VecDiff α) :
    Ctl.AlikeBy (fun s s' => s'.1 = s.1) (VecDiff.map h) (filterMapBody f (ix, k) d)
      (filterMapBody f' (ix, k') (d.map g)) := by
  cases d with
  | replace l =>
    obtain ⟨h1, h2⟩ := filterMapS_natural hf l k k'
    simp only [filterMapBody, VecDiff.map, h1, h2]
    exact .ret (VecDiff.replace _) rfl
  | insertAt i a =>
    have := hf k k' a
    simp only [filterMapBody, VecDiff.map]
    rcases h1 : f k a with ⟨_ | b, k1⟩ <;> rcases h2 : f' k' (g a) with ⟨_ | b', k1'⟩ <;> rw [h1, h2] at this <;>
      simp at this
    · dsimp only
      cases vInsert ix i false with
      | none => exact .panic
      | some ix => exact .cont rfl
    · subst this
      dsimp only
      cases vInsert ix i true with
      | none => exact .panic
      | some ix =>
        dsimp only
        cases findIndex ix i with
        | none => exact .panic
        | some j => exact .ret (VecDiff.insertAt j b) rfl
  | updateAt i a =>
    have := hf k k' a
    simp only [filterMapBody, VecDiff.map]
    rcases h1 : f k a with ⟨_ | b, k1⟩ <;> rcases h2 : f' k' (g a) with ⟨_ | b', k1'⟩ <;> rw [h1, h2] at this <;>
      simp at this
    · dsimp only
      rcases ix[i]? with _ | _ | _
      · exact .panic
      · exact .cont rfl
      · dsimp only
        cases findIndex (ix.set i false) i with
        | none => exact .panic
        | some j => exact .ret (VecDiff.removeAt j) rfl
    · subst this
      dsimp only
      rcases ix[i]? with _ | _ | _
      · exact .panic
      · dsimp only
        cases findIndex (ix.set i true) i with
        | none => exact .panic
        | some j => exact .ret (VecDiff.insertAt j b) rfl
      · dsimp only
        cases findIndex ix i with
        | none => exact .panic
        | some j => exact .ret (VecDiff.updateAt j b) rfl
  | push a =>
    have := hf k k' a
    simp only [filterMapBody, VecDiff.map]
    rcases h1 : f k a with ⟨_ | b, k1⟩ <;> rcases h2 : f' k' (g a) with ⟨_ | b', k1'⟩ <;> rw [h1, h2] at this <;>
      simp at this
    · exact .cont rfl
    · subst this
      exact .ret (VecDiff.push b) rfl
  | removeAt i =>
    simp only [filterMapBody, VecDiff.map]
    rcases vRemove ix i with _ | ⟨_ | _, ix⟩
    · exact .panic
    · exact .cont rfl
    · dsimp only
      cases findIndex ix i with
      | none => exact .panic
      | some j => exact .ret (VecDiff.removeAt j) rfl
  | move i j =>
    simp only [filterMapBody, VecDiff.map]
    rcases vRemove ix i with _ | ⟨_ | _, ix⟩
    · exact .panic
    · dsimp only
      cases vInsert ix j false with
      | none => exact .panic
      | some ix => exact .cont rfl
    · dsimp only
      cases vInsert ix j true with
      | none => exact .panic
      | some ix =>
        dsimp only
        cases findIndex ix i with
        | none => exact .panic
        | some i =>
          cases findIndex ix j with
          | none => exact .panic
          | some j => exact .ret (VecDiff.move i j) rfl
  | pop =>
    simp only [filterMapBody, VecDiff.map]
    rcases vPop ix with ⟨_ | _ | _, ix⟩
    · exact .panic
    · exact .cont rfl
    · exact .ret VecDiff.pop rfl
  | clear => exact .ret VecDiff.clear rfl

theorem Ctl.AlikeBy.alike {σ τ B : Type} {R : σ → τ → Prop} {h : B → B} {c : Ctl σ B} {c' : Ctl τ B}
    (hc : Ctl.AlikeBy R h c c') (hh : ∀ b, h b = b) : Ctl.Alike R c c' := by
  cases hc with
  | cont hr => exact .cont hr
  | ret b hr => rw [hh]; exact .ret b hr
  | panic => exact .panic

/-! ## The combinators as loops -/

theorem rel_vMap (f : α → β) (u : Trace α) (t : Trace β) :
    StageRel (VMap.poll (logging f)) (VMap.init []) (·.signal) u t ↔
      Thru (fun (_ : Unit) d => .ret () (VecDiff.map f d)) () u t := by
  refine ((VMap.loops (logging f)).rel (init := VMap.init []) (s0 := []) (fun _ => rfl) u t).trans ?_
  refine Thru.alike (R := fun _ _ => True) ?_ trivial
  intro s s' d _
  rw [VecDiff.mapS_logging]
  exact .ret _ trivial

/-- The closure of `filter_map` without a state. -/
def plainly (f : α → Option β) : Unit → α → Option β × Unit := fun _ a => (f a, ())

theorem rel_vFilterMap (f : α → Option β) (u : Trace α) (t : Trace β) :
    StageRel (VFilterMap.poll (logging f)) (VFilterMap.init []) (·.signal) u t ↔
      Thru (filterMapBody (plainly f)) ([], ()) u t := by
  refine ((VFilterMap.loops (logging f)).rel (init := VFilterMap.init []) (s0 := ([], [])) (fun _ => rfl) u t).trans ?_
  refine Thru.alike (R := fun s s' => s'.1 = s.1) ?_ rfl
  rintro ⟨_, k⟩ ⟨ix, k'⟩ d rfl
  have := filterMapBody_natural (f := logging f) (f' := plainly f) (g := id) (h := id)
    (fun _ _ a => by simp [logging, plainly]) ix k k' d
  rw [VecDiff.map_id'] at this
  exact this.alike VecDiff.map_id'

theorem rel_vFilter (p : α → Bool) (u t : Trace α) :
    StageRel (VFilter.poll (logging p)) (VFilterMap.init []) (·.signal) u t ↔
      Thru (filterMapBody (plainly (keep p))) ([], ()) u t := by
  refine ((VFilterMap.loops _).rel (init := VFilterMap.init []) (s0 := ([], [])) (fun _ => rfl) u t).trans ?_
  refine Thru.alike (R := fun s s' => s'.1 = s.1) ?_ rfl
  rintro ⟨_, k⟩ ⟨ix, k'⟩ d rfl
  have := filterMapBody_natural
    (f := fun k value => let r := logging p k value; (if r.1 then some value else none, r.2))
    (f' := plainly (keep p)) (g := id) (h := id) (fun _ _ a => by cases hp : p a <;> simp [logging, plainly, keep, hp])
    ix k k' d
  rw [VecDiff.map_id'] at this
  exact this.alike VecDiff.map_id'

namespace Pipe

/-- The pipelines cannot be told apart. -/
def Same {α β : Type} (p q : Pipe α β) : Prop := ∀ src t, p.Exec src t ↔ q.Exec src t

/-- **C101** (`map` of a `SignalVec`).  `.map(f).map(g)` is `.map(|x| g(f(x)))`. -/
theorem C101_map_map (f : β → γ) (g : γ → δ) (p : Pipe α β) : Same (map g (map f p)) (map (g ∘ f) p) := by
  intro src t
  simp only [Pipe.Exec, rel_vMap]
  refine Expr.two_loops (fun _ _ => True) trivial ?_
  intro s s' d _
  simp only [Ctl.after, VecDiff.map_map']
  exact .ret _ trivial

/-- **C101** (`filter_map` after `map`).  `.map(g).filter_map(f)` is `.filter_map(|x| f(g(x)))`. -/
theorem C101_filter_map_map (g : β → γ) (f : γ → Option δ) (p : Pipe α β) :
    Same (filterMap f (map g p)) (filterMap (f ∘ g) p) := by
  intro src t
  simp only [Pipe.Exec, rel_vMap, rel_vFilterMap]
  refine Expr.two_loops (fun s s' => s.2 = s') rfl ?_
  rintro ⟨⟨⟩, ix, ⟨⟩⟩ _ d rfl
  have := filterMapBody_natural (f := plainly (f ∘ g)) (f' := plainly f) (g := g) (h := id)
    (fun _ _ a => by simp [plainly]) ix () () d
  simp only [Ctl.after]
  generalize filterMapBody (plainly f) (ix, ()) (VecDiff.map g d) = c at this ⊢
  generalize filterMapBody (plainly (f ∘ g)) (ix, ()) d = c' at this ⊢
  cases this with
  | cont hr => exact .cont (Prod.ext hr rfl)
  | ret b hr => rw [VecDiff.map_id']; exact .ret _ (Prod.ext hr rfl)
  | panic => exact .panic

/-- **C101** (`map` after `filter_map`).  `.filter_map(f).map(h)` is `.filter_map(|x| f(x).map(h))`. -/
theorem C101_map_filter_map (f : β → Option γ) (h : γ → δ) (p : Pipe α β) :
    Same (map h (filterMap f p)) (filterMap (fun x => (f x).map h) p) := by
  intro src t
  simp only [Pipe.Exec, rel_vMap, rel_vFilterMap]
  refine Expr.two_loops (fun s s' => s.1 = s') rfl ?_
  rintro ⟨⟨ix, ⟨⟩⟩, ⟨⟩⟩ _ d rfl
  have := filterMapBody_natural (f := plainly f) (f' := plainly fun x => (f x).map h) (g := id) (h := h)
    (fun _ _ a => by simp [plainly]) ix () () d
  rw [VecDiff.map_id'] at this
  simp only [Ctl.after]
  generalize filterMapBody (plainly f) (ix, ()) d = c at this ⊢
  generalize filterMapBody (plainly fun x => (f x).map h) (ix, ()) d = c' at this ⊢
  cases this with
  | cont hr => exact .cont (Prod.ext hr.symm rfl)
  | ret b hr => exact .ret _ (Prod.ext hr.symm rfl)
  | panic => exact .panic

/-- **C101** (`filter`).  `.filter(q)` is `.filter_map(|x| if q(x) { Some(x) } else { None })`, and `.map(g).filter(q)` is
`.filter(|x| q(g(x))).map(g)`. -/
theorem C101_filter (q : γ → Bool) (g : β → γ) (p : Pipe α β) (p' : Pipe α γ) :
    Same (filter q p') (filterMap (keep q) p') ∧ Same (filter q (map g p)) (map g (filter (q ∘ g) p)) := by
  have h1 : ∀ {β : Type} (q : β → Bool) (p : Pipe α β), Same (filter q p) (filterMap (keep q) p) := by
    intro β q p src t
    simp only [Pipe.Exec, rel_vFilter, rel_vFilterMap]
  refine ⟨h1 q p', fun src t => ?_⟩
  rw [h1 q (map g p) src t, C101_filter_map_map g (keep q) p src t]
  have h2 : (map g (filter (q ∘ g) p)).Exec src t ↔ (map g (filterMap (keep (q ∘ g)) p)).Exec src t := by
    have := h1 (q ∘ g) p
    unfold Same at this
    simp only [Pipe.Exec] at this ⊢
    simp only [this]
  rw [h2, C101_map_filter_map (keep (q ∘ g)) g p src t]
  have h3 : (keep q ∘ g) = fun x => (keep (q ∘ g) x).map g := by
    funext x
    simp only [Function.comp, keep]
    split <;> rfl
  rw [h3]

end Pipe

namespace Expr

/-- **C101** (pipelines in expressions).  Indistinguishable pipelines give indistinguishable expressions, and it does
not matter where an expression is cut into pipelines. -/
theorem C101_pipe (p q : Pipe α β) (hs : Pipe.Same p q) (e : Expr (.vec α)) (f : β → γ) (c : β → Bool)
    (o : β → Option γ) :
    Same (pipe p e) (pipe q e) ∧ Same (pipe (.map f p) e) (pipe (.map f (.source 0)) (pipe p e)) ∧
      Same (pipe (.filter c p) e) (pipe (.filter c (.source 0)) (pipe p e)) ∧
      Same (pipe (.filterMap o p) e) (pipe (.filterMap o (.source 0)) (pipe p e)) := by
  refine ⟨fun l t W => ?_, fun l t W => ?_, fun l t W => ?_, fun l t W => ?_⟩
  · simp only [Expr.Exec]
    exact exists_congr fun u => and_congr_right fun _ => hs _ _
  all_goals
    simp only [Expr.Exec, Pipe.Exec, exists_eq_left']
    constructor
    · rintro ⟨u, hu, v, hv, hs⟩
      exact ⟨v, ⟨u, hu, hv⟩, v, rfl, hs⟩
    · rintro ⟨v, ⟨u, hu, hv⟩, v', hv', hs⟩
      subst hv'
      exact ⟨u, hu, _, hv, hs⟩

/-- **C101** (`map_value`).  `.map_value(f).map_value(g)` is `.map_value(|x| g(f(x)))`. -/
theorem C101_map_value {K : Type} [LinearOrder K] (f : α → β) (g : β → γ) (e : Expr (.map K α)) :
    Same (mapValue g (mapValue f e)) (mapValue (g ∘ f) e) := by
  have rel : ∀ {α β : Type} (f : α → β) (u : List (Waker × Poll (Option (MapDiff K α))))
      (t : List (Waker × Poll (Option (MapDiff K β)))),
      Rel (MMapValue.poll (logging f)) (MMapValue.init []) (·.signal) u t ↔
        Thru (fun (_ : Unit) d => .ret () (MapDiff.map f d)) () u t := by
    intro α β f u t
    refine ((MMapValue.loops (logging f)).rel (init := MMapValue.init []) (s0 := []) (fun _ => rfl) u t).trans ?_
    refine Thru.alike (R := fun _ _ => True) ?_ trivial
    intro s s' d _
    rw [MapDiff.mapS_logging]
    exact .ret _ trivial
  intro l t W
  simp only [Expr.Exec, rel]
  refine two_loops (fun _ _ => True) trivial ?_
  intro s s' d _
  have : MapDiff.map g (MapDiff.map f d) = MapDiff.map (g ∘ f) d := by
    cases d <;> simp [MapDiff.map]
  simp only [Ctl.after, this]
  exact .ret _ trivial

/-- A poll that gives the same with `f` applied to the values. -/
theorem run_mapped {M : Type} {poll : Waker → M → Option (Poll (Option β) × M)}
    {poll' : Waker → M → Option (Poll (Option γ) × M)} {f : β → γ}
    (h : ∀ w m, poll' w m = (poll w m).map fun r => (r.1.mapItem f, r.2)) :
    ∀ (ws : List Waker) (m : M), run poll' ws m = (run poll ws m).map fun r => (r.1.map (Poll.mapItem f), r.2)
  | [], _ => rfl
  | w :: ws, m => by
    simp only [run, h]
    rcases poll w m with _ | ⟨(_ | a) | _, m1⟩
    · rfl
    · rfl
    · simp only [Option.map_some, Poll.mapItem, run_mapped h ws m1]
      cases run poll ws m1 <;> rfl
    · simp only [Option.map_some, Poll.mapItem, run_mapped h ws m1]
      cases run poll ws m1 <;> rfl

/-- A `run` leaves no poll after the end. -/
theorem run_stops {M : Type} {poll : Waker → M → Option (Poll (Option β) × M)} :
    ∀ (ws : List Waker) (m : M) (rs : List (Poll (Option β))) (m' : M), run poll ws m = some (rs, m') →
      ∀ r1 r2, rs = r1 ++ .ready none :: r2 → r2 = []
  | [], _, _, _, h, r1, r2, hr => by
    cases h
    simp at hr
  | w :: ws, m, rs, m', h, r1, r2, hr => by
    simp only [run] at h
    rcases hp : poll w m with _ | ⟨(_ | a) | _, m1⟩ <;> rw [hp] at h
    · cases h
    · cases h
      rcases r1 with _ | ⟨q, r1⟩
      · simpa using hr
      · simp at hr
    all_goals
      simp only at h
      split at h
      · cases h
      · rename_i rs1 m2 hrun
        cases h
        rcases r1 with _ | ⟨q, r1⟩
        · simp at hr
        · exact run_stops ws m1 rs1 _ hrun r1 r2 (List.cons.inj hr).2

theorem thru_map (f : β → γ) (u : List (Waker × Poll (Option β))) (t : List (Waker × Poll (Option γ))) :
    Thru (fun (_ : Unit) a => .ret () (f a)) () u t ↔ t = u.map (fun q => (q.1, q.2.mapItem f)) ∧
      ∀ t1 w t2, u = t1 ++ (w, .ready none) :: t2 → t2 = [] := by
  constructor
  · intro h
    generalize hs : () = s at h
    induction h with
    | nil s => simp
    | pend s w _ ih =>
      obtain ⟨rfl, ih2⟩ := ih hs
      refine ⟨rfl, fun t1 v t2 h => ?_⟩
      cases t1 with
      | nil => simp at h
      | cons q t1 => exact ih2 t1 v t2 (List.cons.inj h).2
    | stop s w =>
      refine ⟨rfl, fun t1 v t2 h => ?_⟩
      cases t1 with
      | nil => exact (by simpa using h : _ ∧ _).2
      | cons q t1 => simp at h
    | keep w hb _ ih =>
      obtain ⟨rfl, ih2⟩ := ih rfl
      cases hb
      refine ⟨rfl, fun t1 v t2 h => ?_⟩
      cases t1 with
      | nil => simp at h
      | cons q t1 => exact ih2 t1 v t2 (List.cons.inj h).2
    | skip hb _ ih => cases hb
  · rintro ⟨rfl, h⟩
    induction u with
    | nil => exact .nil _
    | cons q u ih =>
      have ih := ih fun t1 w t2 hq => h (q :: t1) w t2 (by rw [hq]; rfl)
      rcases q with ⟨w, (_ | a) | _⟩
      · cases h [] w u rfl
        exact .stop _ _
      · exact .keep _ rfl ih
      · exact .pend _ _ ih

/-- **C101** (`to_signal_map`).  `.to_signal_cloned().map(f)` is `.to_signal_map(f)`. -/
theorem C101_to_signal_map (f : List α → β) (e : Expr (.vec α)) :
    Same (sMap f (sink .toSignalCloned e)) (sink (.toSignalMap f) e) := by
  intro l t W
  simp only [Expr.Exec, rel_sMap, Sink.Exec]
  refine two_one fun u => ?_
  have hp : ∀ w (m : VToSignal α), VToSignal.poll f w m = (VToSignal.poll id w m).map fun r => (r.1.mapItem f, r.2) := by
    intro w m
    simp only [VToSignal.poll]
    rcases m.signal.loop w toSignalBody (m.values, false) with ⟨r, ⟨vs, c⟩, s⟩
    cases r with
    | panic => rfl
    | ret b => rfl
    | ended => cases c <;> cases m.first <;> rfl
    | pending => cases c <;> cases m.first <;> rfl
  simp only [SinkRel, run_mapped hp, thru_map]
  constructor
  · rintro ⟨v, ⟨s, hr, hh⟩, rfl, hv⟩
    refine ⟨s, ?_, hh⟩
    simp only [List.map_map, Function.comp_def]
    rw [hr]
    simp [Function.comp_def]
  · rintro ⟨s, hr, hh⟩
    rcases hr' : run (VToSignal.poll id) (t.map (·.1)) (VToSignal.init (Trace.answers u)) with _ | ⟨rs, s'⟩
    · rw [hr'] at hr
      cases hr
    · rw [hr'] at hr
      simp only [Option.map_some, Option.some.injEq, Prod.mk.injEq] at hr
      obtain ⟨hr, rfl⟩ := hr
      have hlen : rs.length = t.length := by simpa using congrArg List.length hr
      have h1 : ((t.map (·.1)).zip rs).map (·.1) = t.map (·.1) := by
        rw [List.map_fst_zip]
        simp [hlen]
      have h2 : ((t.map (·.1)).zip rs).map (·.2) = rs := by
        rw [List.map_snd_zip]
        simp [hlen]
      refine ⟨(t.map (·.1)).zip rs, ⟨s', ?_, hh⟩, ?_, ?_⟩
      · rw [h1, h2]
        exact hr'
      · apply List.ext_getElem?
        intro i
        have h3 := congrArg (·[i]?) hr
        simp only [List.getElem?_map, List.getElem?_zip_eq_some] at h3 ⊢
        rcases h4 : rs[i]? with _ | r
        · rw [h4] at h3
          rcases h5 : t[i]? with _ | q
          · simp [List.zip, List.getElem?_zipWith, h4, h5]
          · rw [h5] at h3
            cases h3
        · rw [h4] at h3
          rcases h5 : t[i]? with _ | q
          · rw [h5] at h3
            cases h3
          · rw [h5] at h3
            simp only [Option.map_some, Option.some.injEq] at h3
            simp [List.zip, List.getElem?_zipWith, h4, h5, h3]
      · intro t1 w t2 ht
        have h3 := congrArg (List.map (·.2)) ht
        rw [h2] at h3
        simp only [List.map_append, List.map_cons] at h3
        exact List.map_eq_nil_iff.1 (run_stops _ _ _ _ hr' _ _ h3)

end Expr

end Verif
