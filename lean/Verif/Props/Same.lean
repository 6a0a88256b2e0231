import Verif.ThruSignal

/-!
# C101: ways of writing an expression that cannot be told apart
-/

namespace Verif

namespace Expr

theorem Same.exec {τ : Ty} {e e' : Expr τ} (h : Same e e') : e.Exec = e'.Exec :=
  funext fun l => funext fun t => funext fun W => propext (h l t W)

theorem Same.of_exec {τ : Ty} {e e' : Expr τ} (h : e.Exec = e'.Exec) : Same e e' := by
  intro l t W
  rw [h]

/-- **C101** (everywhere).  Replacing parts of an expression, however deep inside of it and also in its closures, by
indistinguishable ones gives an indistinguishable expression. -/
theorem C101_anywhere {τ : Ty} {e e' : Expr τ} (h : Swaps e e') : Same e e' := by
  apply Same.of_exec
  induction h with
  | here h => exact h.exec
  | trans _ _ ih ih' => exact ih.trans ih'
  | _ =>
    funext l t W
    simp only [Expr.Exec, *]

variable {α β γ : Type}

/-! ## The combinators as loops -/

theorem rel_sMap (f : α → β) (u : SigTrace α) (t : SigTrace β) :
    Rel (SMap.poll (logging f)) (SMap.init []) (·.signal) u t ↔ Thru (fun (_ : Unit) a => .ret () (f a)) () u t := by
  refine ((SMap.loops (logging f)).rel (init := SMap.init []) (s0 := []) (fun _ => rfl) u t).trans ?_
  refine Thru.alike (R := fun _ _ => True) ?_ trivial
  intro s s' a _
  exact .ret _ trivial

theorem rel_inspect (u t : SigTrace α) :
    Rel (SInspect.poll observing) (SMap.init []) (·.signal) u t ↔ Thru (fun (_ : Unit) (a : α) => .ret () a) () u t := by
  refine ((SInspect.loops observing).rel (init := SMap.init []) (s0 := []) (fun _ => rfl) u t).trans ?_
  refine Thru.alike (R := fun _ _ => True) ?_ trivial
  intro s s' a _
  exact .ret _ trivial

theorem rel_not (u t : SigTrace Bool) :
    Rel SNot.poll (SMap.init ()) (·.signal) u t ↔ Thru (fun (_ : Unit) a => .ret () (!a)) () u t :=
  (SMap.loops fun (_ : Unit) x => (!x, ())).rel (s0 := ()) (fun _ => rfl) u t

theorem rel_eq [BEq α] (v : α) (u : SigTrace α) (t : SigTrace Bool) :
    Rel SEq.poll (SEq.init v) (·.signal) u t ↔ Thru (eqBody v) none u t :=
  (SEq.loops v).rel (fun _ => rfl) u t

theorem rel_neq [BEq α] (v : α) (u : SigTrace α) (t : SigTrace Bool) :
    Rel SNeq.poll (SEq.init v) (·.signal) u t ↔ Thru (neqBody v) none u t :=
  (SNeq.loops v).rel (fun _ => rfl) u t

/-- What `dedupe_map` does with a new value, given the last one that differed. -/
def fresh [BEq α] (f : α → β) (s : Option α) (a : α) : Ctl (Option α) β :=
  if s == some a then .cont s else .ret (some a) (f a)

theorem rel_dedupeMap [BEq α] [LawfulBEq α] (f : α → β) (u : SigTrace α) (t : SigTrace β) :
    Rel (SDedupeMap.poll (logging fun a => (f a, a))) (SDedupe.init []) (·.signal) u t ↔ Thru (fresh f) none u t := by
  refine ((SDedupeMap.loops _).rel (init := SDedupe.init []) (s0 := (none, [])) (fun _ => rfl) u t).trans ?_
  refine Thru.alike (R := fun s s' => s.1 = s') ?_ rfl
  rintro ⟨s, log⟩ _ a rfl
  cases s with
  | none => exact .ret _ rfl
  | some b =>
    by_cases h : b = a
    · simp [dedupeBody, fresh, h, Ctl.Alike.cont]
    · simp [dedupeBody, fresh, h, logging, Ctl.Alike.ret]

theorem rel_dedupe [BEq α] [LawfulBEq α] (u t : SigTrace α) :
    Rel SDedupe.poll (SDedupe.init ()) (·.signal) u t ↔ Thru (fresh id) none u t := by
  show Rel (SDedupeMap.poll fun _ value => ((value, value), ())) (SDedupe.init ()) (·.signal) u t ↔ _
  refine ((SDedupeMap.loops _).rel (init := SDedupe.init ()) (s0 := (none, ())) (fun _ => rfl) u t).trans ?_
  refine Thru.alike (R := fun s s' => s.1 = s') ?_ rfl
  rintro ⟨s, log⟩ _ a rfl
  cases s with
  | none => exact .ret _ rfl
  | some b =>
    by_cases h : b = a
    · simp [dedupeBody, fresh, h, Ctl.Alike.cont]
    · simp [dedupeBody, fresh, h, Ctl.Alike.ret]

/-- What `filter_map` of a `Signal` does with a new value. -/
def sift (f : α → Option β) (first : Bool) (a : α) : Ctl Bool (Option β) :=
  if (f a).isSome || first then .ret false (f a) else .cont first

theorem rel_filterMapS (f : α → Option β) (u : SigTrace α) (t : SigTrace (Option β)) :
    Rel (SFilterMap.poll (logging f)) (SFilterMap.init []) (·.signal) u t ↔ Thru (sift f) true u t := by
  refine ((SFilterMap.loops _).rel (init := SFilterMap.init []) (s0 := ([], true)) (fun _ => rfl) u t).trans ?_
  refine Thru.alike (R := fun s s' => s.2 = s') ?_ rfl
  rintro ⟨log, s⟩ _ a rfl
  cases h : f a <;> cases s <;> simp [filterMapSBody, sift, logging, h, Ctl.Alike.ret, Ctl.Alike.cont]

/-! ## Signals -/

theorem two_one {U V T : Type} {E : U → Prop} {T1 : U → V → Prop} {T2 : V → T → Prop} {T3 : U → T → Prop} {t : T}
    (h : ∀ u, (∃ v, T1 u v ∧ T2 v t) ↔ T3 u t) :
    (∃ v, (∃ u, E u ∧ T1 u v) ∧ T2 v t) ↔ ∃ u, E u ∧ T3 u t := by
  constructor
  · rintro ⟨v, ⟨u, hu, h1⟩, h2⟩
    exact ⟨u, hu, (h u).1 ⟨v, h1, h2⟩⟩
  · rintro ⟨u, hu, h3⟩
    obtain ⟨v, h1, h2⟩ := (h u).2 h3
    exact ⟨v, ⟨u, hu, h1⟩, h2⟩

/-- Two combinators are one, if their loop bodies are. -/
theorem two_loops {A B C σ τ κ : Type} {b1 : σ → A → Ctl σ B} {b2 : τ → B → Ctl τ C} {b3 : κ → A → Ctl κ C}
    {s1 : σ} {s2 : τ} {s3 : κ} (R : σ × τ → κ → Prop) (h0 : R (s1, s2) s3)
    (hR : ∀ s s' a, R s s' → Ctl.Alike R (Ctl.after b1 b2 s a) (b3 s' a))
    {E : List (Waker × Poll (Option A)) → Prop} {t : List (Waker × Poll (Option C))} :
    (∃ v, (∃ u, E u ∧ Thru b1 s1 u v) ∧ Thru b2 s2 v t) ↔ ∃ u, E u ∧ Thru b3 s3 u t :=
  two_one fun u => (thru_after b1 b2 s1 s2 u t).trans (Thru.alike hR h0)

/-- **C101** (`map`).  `.map(f).map(g)` is `.map(|x| g(f(x)))`. -/
theorem C101_map_map (f : α → β) (g : β → γ) (e : Expr (.sig α)) : Same (sMap g (sMap f e)) (sMap (g ∘ f) e) := by
  intro l t W
  simp only [Expr.Exec, rel_sMap]
  exact two_loops (fun _ _ => True) trivial fun _ _ _ _ => .ret _ trivial

/-- **C101** (`map` with the identity, `inspect`).  Both leave an expression as it is, if it is not polled after its
end. -/
theorem C101_map_id (e : Expr (.sig α)) (he : e.Fused) : Same (sMap id e) e ∧ Same (inspect e) e := by
  have key : ∀ l (t : SigTrace α) W,
      (∃ u, e.Exec l u W ∧ Thru (fun (_ : Unit) (a : α) => .ret () a) () u t) ↔ e.Exec l t W := by
    intro l t W
    simp only [thru_id]
    constructor
    · rintro ⟨u, hu, rfl, -⟩
      exact hu
    · intro h
      exact ⟨t, h, rfl, he l t W h⟩
  constructor
  · intro l t W
    simp only [Expr.Exec, rel_sMap]
    exact key l t W
  · intro l t W
    simp only [Expr.Exec, rel_inspect]
    exact key l t W

/-- **C101** (`not`).  `not` is `map` with the negation, and the negation of the negation of an expression is the
expression, if it is not polled after its end. -/
theorem C101_not (e : Expr (.sig Bool)) : Same (not e) (sMap (!·) e) ∧ (e.Fused → Same (not (not e)) e) := by
  have h1 : ∀ e : Expr (.sig Bool), Same (not e) (sMap (!·) e) := by
    intro e l t W
    simp only [Expr.Exec, rel_not, rel_sMap]
  refine ⟨h1 e, fun he => ?_⟩
  intro l t W
  have h2 := C101_map_map (!·) (!·) e l t W
  have h3 : ((!·) ∘ (!·) : Bool → Bool) = id := by funext b; simp
  rw [h3] at h2
  rw [h1 _ l t W, ← (C101_map_id e he).1 l t W, ← h2]
  exact C101_anywhere (.sMap _ (.here (h1 e))) l t W

/-- **C101** (`option`, `result`).  `option(Some(signal))` is `signal.map(Some)`, `result(Ok(signal))` is
`signal.map(Ok)`. -/
theorem C101_option (ε : Type) (e : Expr (.sig α)) :
    Same (option e) (sMap some e) ∧ Same (result (ε := ε) e) (sMap .ok e) := by
  constructor
  · intro l t W
    simp only [Expr.Exec, rel_sMap]
    exact exists_congr fun u => and_congr_right fun _ => SMaybe.loops _ _ u t
  · intro l t W
    simp only [Expr.Exec, rel_sMap]
    exact exists_congr fun u => and_congr_right fun _ => SMaybe.loops _ _ u t

/-- **C101** (`eq`, `neq`).  `.eq(v)` is `.map(|x| x == v).dedupe()`, and `.neq(v)` is `not(.eq(v))`. -/
theorem C101_eq [BEq α] (v : α) (e : Expr (.sig α)) :
    Same (eq v e) (dedupe (sMap (· == v) e)) ∧ Same (neq v e) (not (eq v e)) := by
  constructor
  · intro l t W
    simp only [Expr.Exec, rel_sMap, rel_eq, rel_dedupe]
    refine (two_loops (fun s s' => s.2 = s') rfl ?_).symm
    rintro ⟨⟨⟩, s⟩ _ a rfl
    simp only [Ctl.after, fresh, eqBody]
    by_cases h : s = some (a == v)
    · simp [h, Ctl.Alike.cont]
    · simp [h, Ctl.Alike.ret]
  · intro l t W
    simp only [Expr.Exec, rel_eq, rel_neq, rel_not]
    refine (two_loops (fun s s' => s.1.map (!·) = s') rfl ?_).symm
    rintro ⟨s, ⟨⟩⟩ _ a rfl
    simp only [Ctl.after, neqBody, eqBody, bne]
    by_cases h : s = some (a == v)
    · simp [h, Ctl.Alike.cont]
    · have h' : s.map (!·) ≠ some (!(a == v)) := by
        rcases s with _ | b
        · simp
        · simpa using h
      simp [h, h', Ctl.Alike.ret]

/-- **C101** (`dedupe`).  A second `dedupe` does nothing, and `.dedupe_map(f)` is `.dedupe().map(f)`. -/
theorem C101_dedupe [BEq α] [LawfulBEq α] (f : α → β) (e : Expr (.sig α)) :
    Same (dedupe (dedupe e)) (dedupe e) ∧ Same (dedupeMap f e) (sMap f (dedupe e)) := by
  constructor
  · intro l t W
    simp only [Expr.Exec, rel_dedupe]
    refine two_loops (fun s s' => s.1 = s' ∧ s.2 = s') ⟨rfl, rfl⟩ ?_
    rintro ⟨s, s1⟩ s2 a ⟨h1, h2⟩
    dsimp only at h1 h2
    subst h1 h2
    simp only [Ctl.after, fresh]
    by_cases h : s1 = some a
    · simp [h, Ctl.Alike.cont]
    · simp [h, Ctl.Alike.ret]
  · intro l t W
    simp only [Expr.Exec, rel_dedupe, rel_dedupeMap, rel_sMap]
    refine (two_loops (fun s s' => s.1 = s') rfl ?_).symm
    rintro ⟨s, ⟨⟩⟩ _ a rfl
    simp only [Ctl.after, fresh]
    by_cases h : s = some a
    · simp [h, Ctl.Alike.cont]
    · simp [h, Ctl.Alike.ret]

/-- **C101** (`dedupe` and `map`).  `.map(f).dedupe()` is `.dedupe().map(f).dedupe()`, and if `f` is injective then it
is `.dedupe().map(f)`. -/
theorem C101_dedupe_map [BEq α] [LawfulBEq α] [BEq β] [LawfulBEq β] (f : α → β) (e : Expr (.sig α)) :
    Same (dedupe (sMap f e)) (dedupe (sMap f (dedupe e))) ∧
      ((∀ a b, f a = f b → a = b) → Same (dedupe (sMap f e)) (sMap f (dedupe e))) := by
  have h1 : ∀ l (t : SigTrace β) W, (dedupe (sMap f e)).Exec l t W ↔
      ∃ u, e.Exec l u W ∧ Thru (Ctl.after (fun (_ : Unit) a => .ret () (f a)) (fresh id)) ((), none) u t := by
    intro l t W
    simp only [Expr.Exec, rel_dedupe, rel_sMap]
    exact two_one fun u => thru_after _ _ _ _ u t
  have h2 : ∀ l (t : SigTrace β) W, (sMap f (dedupe e)).Exec l t W ↔
      ∃ u, e.Exec l u W ∧ Thru (fresh f) none u t := by
    intro l t W
    exact ((C101_dedupe f e).2 l t W).symm.trans (by simp only [Expr.Exec, rel_dedupeMap])
  constructor
  · intro l t W
    rw [h1]
    simp only [Expr.Exec, rel_dedupe]
    simp only [Expr.Exec, rel_dedupe] at h2
    simp only [h2]
    refine (two_loops (fun s s' => s.1.map f = s.2 ∧ s'.2 = s.2) ⟨rfl, rfl⟩ ?_).symm
    rintro ⟨s1, s2⟩ ⟨⟨⟩, s3⟩ a ⟨g1, g2⟩
    dsimp only at g1 g2
    subst g1 g2
    simp only [Ctl.after, fresh]
    by_cases h : s1 = some a
    · simp [h, Ctl.Alike.cont]
    · by_cases h' : s1.map f = some (f a)
      · simp [h, h', Ctl.Alike.cont]
      · simp [h, h', Ctl.Alike.ret]
  · intro hf l t W
    rw [h1, h2]
    refine exists_congr fun u => and_congr_right fun _ => Thru.alike (R := fun s s' => s.2 = s'.map f) ?_ rfl
    rintro ⟨⟨⟩, s2⟩ s a rfl
    simp only [Ctl.after, fresh]
    by_cases h : s = some a
    · simp [h, Ctl.Alike.cont]
    · have h' : s.map f ≠ some (f a) := by
        rcases s with _ | b
        · simp
        · intro hs
          exact h (congrArg some (hf _ _ (Option.some.inj hs)))
      simp [h, h', Ctl.Alike.ret]

/-- **C101** (`filter_map`).  `.map(g).filter_map(f)` is `.filter_map(|x| f(g(x)))`, and `.filter_map(f).map(|o| o.map(h))`
is `.filter_map(|x| f(x).map(h))`. -/
theorem C101_filter_map {δ : Type} (g : α → β) (f : β → Option γ) (h : γ → δ) (e : Expr (.sig α))
    (e' : Expr (.sig β)) :
    Same (filterMapS f (sMap g e)) (filterMapS (f ∘ g) e) ∧
      Same (sMap (Option.map h) (filterMapS f e')) (filterMapS (fun x => (f x).map h) e') := by
  constructor
  · intro l t W
    simp only [Expr.Exec, rel_sMap, rel_filterMapS]
    refine two_loops (fun s s' => s.2 = s') rfl ?_
    rintro ⟨⟨⟩, s⟩ _ a rfl
    simp only [Ctl.after, sift, Function.comp]
    by_cases hc : ((f (g a)).isSome || s) = true
    · simp [hc, Ctl.Alike.ret]
    · simp [hc, Ctl.Alike.cont]
  · intro l t W
    simp only [Expr.Exec, rel_sMap, rel_filterMapS]
    refine two_loops (fun s s' => s.1 = s') rfl ?_
    rintro ⟨s, ⟨⟩⟩ _ a rfl
    simp only [Ctl.after, sift, Option.isSome_map]
    by_cases hc : ((f a).isSome || s) = true
    · simp [hc, Ctl.Alike.ret]
    · simp [hc, Ctl.Alike.cont]

end Expr

end Verif
