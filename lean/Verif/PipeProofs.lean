import Verif.Pipe
import Verif.Props.Polite1
import Verif.Props.SignalVecMap
import Verif.Props.SignalVecFold
import Verif.Props.SignalVecChain
import Verif.Props.SignalVecSort

/-!
# Proofs about pipelines
-/

namespace Verif

variable {α β σ ρ : Type}

/-- `Replace` or `Clear`. -/
def Whole : VecDiff α → Prop
  | .replace _ => True
  | .clear => True
  | _ => False

/-- `Pending`, the end, `Replace` or `Clear`. -/
def CalmAns : Poll (Option (VecDiff α)) → Prop
  | .pending => True
  | .ready none => True
  | .ready (some d) => Whole d

/-- The last answer of the trace is calm. -/
def Calm (t : Trace α) : Prop := ∀ w r, t.getLast? = some (w, r) → CalmAns r

theorem AtRest.calm {t : Trace α} (h : AtRest t) : Calm t := by
  obtain ⟨w, r, h1, h2⟩ := h
  intro w' r' h3
  rw [h1] at h3
  cases h3
  rcases h2 with rfl | rfl <;> trivial

theorem Trace.answers_last (t : Trace α) : t.answers.getLast? = t.getLast?.map (·.2) := by
  simp [Trace.answers, List.getLast?_map]

theorem Trace.wakers_last (t : Trace α) : t.wakers.getLast? = t.getLast?.map (·.1) := by
  simp [Trace.wakers, List.getLast?_map]

/-! ## Forward moves -/

theorem feed_fwd {f : α → Option β} {ds : List (VecDiff α)} {xs : List α}
    (h : ∃ ys, replay ds xs = some ys) (hf : ∀ d ∈ ds, Fwd d) : Feed (MoveOk f) ds xs := by
  rw [← feed_any] at h
  induction ds generalizing xs with
  | nil => trivial
  | cons d ds ih =>
    obtain ⟨-, ys, h1, h2⟩ := h
    refine ⟨?_, ys, h1, ih h2 fun d hd => hf d (by simp [hd])⟩
    have := hf d (by simp)
    cases d with
    | move i j =>
      intro hlt
      have := this i j rfl
      omega
    | _ => trivial

theorem feed_both {ok ok' : VecDiff α → List α → Prop} {ds : List (VecDiff α)} {xs : List α}
    (h : Feed ok ds xs) (hf : ∀ d ∈ ds, ∀ l, ok' d l) : Feed (fun d l => ok d l ∧ ok' d l) ds xs := by
  induction ds generalizing xs with
  | nil => trivial
  | cons d ds ih =>
    obtain ⟨h0, ys, h1, h2⟩ := h
    exact ⟨⟨h0, hf d (by simp) xs⟩, ys, h1, ih h2 fun d hd => hf d (by simp [hd])⟩

/-- An invariant for the items of a run. -/
theorem run_items {γ : Type} {poll : Waker → σ → Option (Poll (Option γ) × σ)} (I : σ → Prop)
    (P : γ → Prop)
    (hstep : ∀ w s r s', I s → poll w s = some (r, s') → I s' ∧ ∀ d, r = .ready (some d) → P d)
    {ws : List Waker} {s0 : σ} {outs : List (Poll (Option γ))} {s : σ}
    (h : run poll ws s0 = some (outs, s)) (h0 : I s0) : ∀ d ∈ items outs, P d := by
  induction ws generalizing s0 outs with
  | nil => cases h; simp
  | cons w ws ih =>
    simp only [run] at h
    split at h
    · cases h
    · cases h; simp
    · rename_i r s1 hr hp
      have := hstep w s0 _ _ h0 hp
      split at h
      · cases h
      · rename_i rest s2 hrun
        cases h
        have ih := ih hrun this.1
        intro d hd
        match r with
        | .pending => exact ih d hd
        | .ready none => exact ih d hd
        | .ready (some x) =>
          rcases List.mem_cons.1 hd with rfl | hd
          · exact this.2 d rfl
          · exact ih d hd

/-- What a loop does to its input and result, when all items satisfy a predicate. -/
theorem pollLoop_items {w : Waker} {body : σ → α → Ctl σ ρ} (P : α → Prop) (Q : ρ → Prop)
    (hb : ∀ s a s' r, P a → body s a = .ret s' r → Q r)
    (todo : List (Poll (Option α))) (hist : List (Waker × Poll (Option α))) (s : σ) {st : Stop ρ}
    {s' : σ} {src' : Src (Option α)} (e : pollLoop w body todo hist s = (st, s', src'))
    (h : ∀ a ∈ items todo, P a) :
    (∀ a ∈ items src'.todo, P a) ∧ ∀ r, st = .ret r → Q r := by
  induction todo generalizing hist s with
  | nil => simp only [pollLoop] at e; cases e; simp
  | cons y todo ih =>
    match y with
    | .pending => simp only [pollLoop] at e; cases e; exact ⟨h, by simp⟩
    | .ready none => simp only [pollLoop] at e; cases e; exact ⟨h, by simp⟩
    | .ready (some a) =>
      simp only [pollLoop] at e
      have ha := h a (by simp)
      have ht : ∀ b ∈ items todo, P b := fun b hb => h b (by simp [hb])
      cases hbd : body s a with
      | cont s1 => rw [hbd] at e; exact ih _ _ e ht
      | ret s1 r =>
        rw [hbd] at e; cases e
        exact ⟨ht, fun r' hr => by cases hr; exact hb _ _ _ _ ha hbd⟩
      | panic => rw [hbd] at e; cases e; exact ⟨ht, by simp⟩

theorem Src.poll_items {w : Waker} {src src' : Src (Option α)} {r : Poll (Option α)}
    (P : α → Prop) (e : src.poll w = (r, src')) (h : ∀ a ∈ items src.todo, P a) :
    (∀ a ∈ items src'.todo, P a) ∧ ∀ a, r = .ready (some a) → P a := by
  obtain ⟨todo, hist⟩ := src
  match todo with
  | [] => cases e; simp
  | .pending :: todo => cases e; exact ⟨h, by simp⟩
  | .ready none :: todo => cases e; exact ⟨h, by simp⟩
  | .ready (some a) :: todo =>
      cases e
      exact ⟨fun b hb => h b (by simp [hb]), fun b hb => by cases hb; exact h a (by simp)⟩

/-! ## The last poll -/

/-- How the last answer of a loop's input relates to the way the loop stopped. -/
def LastOk (body : σ → α → Ctl σ ρ) (s' : σ) (r : Poll (Option α)) : Stop ρ → Prop
  | .pending => r = .pending
  | .ended => r = .ready none
  | .ret q => ∃ s1 a, r = .ready (some a) ∧ body s1 a = .ret s' q
  | .panic => True

theorem pollLoop_last {w : Waker} {body : σ → α → Ctl σ ρ}
    (todo : List (Poll (Option α))) (hist : List (Waker × Poll (Option α))) (s : σ) {st : Stop ρ}
    {s' : σ} {src' : Src (Option α)} (e : pollLoop w body todo hist s = (st, s', src')) :
    ∃ r, src'.hist.getLast? = some (w, r) ∧ LastOk body s' r st := by
  induction todo generalizing hist s with
  | nil => simp only [pollLoop] at e; cases e; simp [LastOk]
  | cons y todo ih =>
    match y with
    | .pending => simp only [pollLoop] at e; cases e; simp [LastOk]
    | .ready none => simp only [pollLoop] at e; cases e; simp [LastOk]
    | .ready (some a) =>
      simp only [pollLoop] at e
      cases hbd : body s a with
      | cont s1 => rw [hbd] at e; exact ih _ _ e
      | ret s1 r => rw [hbd] at e; cases e; exact ⟨_, by simp, _, _, rfl, hbd⟩
      | panic => rw [hbd] at e; cases e; exact ⟨.ready (some a), by simp, trivial⟩

theorem Src.poll_last {w : Waker} {src src' : Src (Option α)} {r : Poll (Option α)}
    (e : src.poll w = (r, src')) : src'.hist.getLast? = some (w, r) := by
  obtain ⟨todo, hist⟩ := src
  unfold Src.poll at e
  match todo with
  | [] => cases e; simp
  | y :: todo => cases e; simp

section

variable {poll : Waker → σ → Option (Poll (Option (VecDiff β)) × σ)}
  {init : List (Poll (Option (VecDiff α))) → σ} {input : σ → Src (Option (VecDiff α))}
  {u : Trace α} {t : Trace β}

/-- If each poll with a calm answer ends with a calm answer of the input, then a calm output means
a calm input. -/
theorem StageRel.calm (Live : σ → Prop) (h : StageRel poll init input u t)
    (hlive : ∀ w s r s', Live s → poll w s = some (r, s') → Live s') (h0 : ∀ x, Live (init x))
    (hinit : ∀ x, (input (init x)).hist = [])
    (hlast : ∀ w s r s', Live s → poll w s = some (r, s') → CalmAns r →
      ∀ w' r', (input s').hist.getLast? = some (w', r') → CalmAns r')
    (hc : Calm t) : Calm u := by
  obtain ⟨s, h1, h2⟩ := h
  rcases run_last Live (fun w s r s' hl hp _ => hlive w s r s' hl hp) h1 (h0 _) with
    ⟨-, h3⟩ | ⟨w, s1, r, g1, g2, g3, -, -⟩
  · rw [← h2, h3, hinit]
    simp [Calm]
  · intro w' r' hl
    refine hlast w s1 r s g1 g2 ?_ w' r' (by rw [h2]; exact hl)
    rw [Trace.answers_last] at g3
    obtain ⟨⟨x, y⟩, hx, rfl⟩ := Option.map_eq_some_iff.1 g3
    exact hc x y hx

theorem StageRel.armed (h : StageRel poll init input u t) (hp : ∀ x, Polite poll input (init x))
    {w : Waker} (hl : t.getLast? = some (w, .pending)) : u.getLast? = some (w, .pending) := by
  obtain ⟨s, h1, h2⟩ := h
  have := (hp _ _ _ _ h1).2.2 w (by simp [Trace.wakers_last, hl]) (by simp [Trace.answers_last, hl])
  rw [← h2]
  exact this

theorem last_of_fused {src : Src (Option (VecDiff α))} (hf : src.fused) (he : src.ended) :
    ∃ w, src.hist.getLast? = some (w, .ready none) := by
  obtain ⟨w, hm⟩ := he
  obtain ⟨pre, post, heq⟩ := List.append_of_mem hm
  have := hf pre w post heq
  subst this
  exact ⟨w, by simp [heq]⟩

theorem StageRel.settled (h : StageRel poll init input u t) (hp : ∀ x, Polite poll input (init x))
    (hs : AtRest t) : AtRest u := by
  obtain ⟨w, r, h1, rfl | rfl⟩ := hs
  · exact ⟨w, _, h.armed hp h1, .inl rfl⟩
  · obtain ⟨s, g1, g2⟩ := h
    have hm : .ready none ∈ t.answers :=
      List.mem_of_getLast? (by rw [Trace.answers_last, h1]; rfl)
    have := hp _ _ _ _ g1
    obtain ⟨w', hw'⟩ := last_of_fused this.1 (this.2.1 hm)
    exact ⟨w', _, by rw [← g2]; exact hw', .inr rfl⟩

end

/-! ## The stages -/

theorem mapS_whole {κ : Type} {f : κ → α → β × κ} {k : κ} {d : VecDiff α} :
    Whole (d.mapS f k).1 ↔ Whole d := by cases d <;> simp [VecDiff.mapS, Whole]

theorem map_calm {f : α → β} {u : Trace α} {t : Trace β}
    (h : StageRel (VMap.poll (logging f)) (VMap.init []) (·.signal) u t) (hc : Calm t) : Calm u := by
  refine h.calm (fun _ => True) (fun _ _ _ _ _ _ => trivial) (fun _ => trivial) (fun _ => rfl) ?_ hc
  rintro w s r s' - hp hr w' r' hl
  obtain ⟨q, src', e⟩ : ∃ q src', s.signal.poll w = (q, src') := ⟨_, _, rfl⟩
  have hq := Src.poll_last e
  simp only [VMap.poll, e] at hp
  match q with
  | .pending => cases hp; rw [hq] at hl; cases hl; trivial
  | .ready none => cases hp; rw [hq] at hl; cases hl; trivial
  | .ready (some d) =>
    cases hp
    rw [hq] at hl
    cases hl
    exact mapS_whole.1 hr

theorem map_fwd {f : α → β} {u : Trace α} {t : Trace β}
    (h : StageRel (VMap.poll (logging f)) (VMap.init []) (·.signal) u t) (hf : ∀ d ∈ u.diffs, Fwd d) :
    ∀ d ∈ t.diffs, Fwd d := by
  obtain ⟨s, h1, -⟩ := h
  refine run_items (fun s => ∀ d ∈ items s.signal.todo, Fwd d) Fwd ?_ h1 hf
  intro w s r s' hi hp
  obtain ⟨q, src', e⟩ : ∃ q src', s.signal.poll w = (q, src') := ⟨_, _, rfl⟩
  obtain ⟨g1, g2⟩ := Src.poll_items Fwd e hi
  simp only [VMap.poll, e] at hp
  match q with
  | .pending => cases hp; exact ⟨g1, by simp⟩
  | .ready none => cases hp; exact ⟨g1, by simp⟩
  | .ready (some d) =>
    cases hp
    refine ⟨g1, fun d' hd' => ?_⟩
    cases hd'
    have := g2 d rfl
    intro i j he
    cases d <;> simp [VecDiff.mapS] at he
    obtain ⟨rfl, rfl⟩ := he
    exact this _ _ rfl

theorem map_track {f : α → β} {u : Trace α} {t : Trace β}
    (h : StageRel (VMap.poll (logging f)) (VMap.init []) (·.signal) u t) {xs : List α}
    (hx : replay u.diffs [] = some xs) : replay t.diffs [] = some (xs.map f) := by
  obtain ⟨s, h1, h2⟩ := h
  obtain ⟨outs, s', xs', g1, g2, g3, -⟩ := C08_map f u.answers ⟨xs, hx⟩ t.wakers
  rw [h1] at g1
  cases g1
  have : s.signal.got = u.diffs := by rw [Src.got, h2]; rfl
  rw [this, hx] at g2
  cases g2
  exact g3

theorem findIndex_mono {ix : List Bool} {i j a b : Nat} (h : i ≤ j) (h1 : findIndex ix i = some a)
    (h2 : findIndex ix j = some b) : a ≤ b := by
  unfold findIndex at h1 h2
  split at h1 <;> simp at h1
  split at h2 <;> simp at h2
  subst h1 h2
  have : ix.take i = (ix.take j).take i := by rw [List.take_take]; congr 1; omega
  rw [this]
  exact ((List.take_sublist _ _).filter _).length_le

theorem filterMapBody_ret {κ : Type} {f : κ → α → Option β × κ} {s s' : List Bool × κ}
    {d : VecDiff α} {e : VecDiff β} (h : filterMapBody f s d = .ret s' e) :
    (Whole e → Whole d) ∧ (Fwd d → Fwd e) := by
  obtain ⟨ix, k⟩ := s
  cases d with
  | replace vs => exact ⟨fun _ => trivial, fun _ => by simp [filterMapBody] at h; simp [← h.2, Fwd]⟩
  | clear => exact ⟨fun _ => trivial, fun _ => by simp [filterMapBody] at h; simp [← h.2, Fwd]⟩
  | move i j =>
    simp only [filterMapBody] at h
    repeat' split at h
    all_goals try cases h
    refine ⟨by simp [Whole], fun hf a b he => ?_⟩
    cases he
    exact findIndex_mono (hf i j rfl) (by assumption) (by assumption)
  | _ =>
    simp only [filterMapBody] at h
    repeat' split at h
    all_goals first | (cases h; done) | (cases h; simp [Whole, Fwd])

theorem filterMap_calm {f : α → Option β} {u : Trace α} {t : Trace β}
    (h : StageRel (VFilterMap.poll (logging f)) (VFilterMap.init []) (·.signal) u t) (hc : Calm t) :
    Calm u := by
  refine h.calm (fun _ => True) (fun _ _ _ _ _ _ => trivial) (fun _ => trivial) (fun _ => rfl) ?_ hc
  rintro w s r s' - hp hr w' r' hl
  obtain ⟨st, x, src', e⟩ : ∃ st x src',
    s.signal.loop w (filterMapBody (logging f)) (s.indexes, s.st) = (st, x, src') := ⟨_, _, _, rfl⟩
  obtain ⟨q, hq, hq'⟩ := pollLoop_last _ _ _ e
  simp only [VFilterMap.poll, e] at hp
  cases st with
  | panic => cases hp
  | pending => cases hp; rw [hq] at hl; cases hl; cases hq'; trivial
  | ended => cases hp; rw [hq] at hl; cases hl; cases hq'; trivial
  | ret d =>
    cases hp
    rw [hq] at hl
    cases hl
    obtain ⟨s1, a, rfl, hb⟩ := hq'
    exact (filterMapBody_ret hb).1 hr

theorem filterMap_fwd {f : α → Option β} {u : Trace α} {t : Trace β}
    (h : StageRel (VFilterMap.poll (logging f)) (VFilterMap.init []) (·.signal) u t)
    (hf : ∀ d ∈ u.diffs, Fwd d) : ∀ d ∈ t.diffs, Fwd d := by
  obtain ⟨s, h1, -⟩ := h
  refine run_items (fun s => ∀ d ∈ items s.signal.todo, Fwd d) Fwd ?_ h1 hf
  intro w s r s' hi hp
  obtain ⟨st, x, src', e⟩ : ∃ st x src',
    s.signal.loop w (filterMapBody (logging f)) (s.indexes, s.st) = (st, x, src') := ⟨_, _, _, rfl⟩
  obtain ⟨g1, g2⟩ := pollLoop_items Fwd Fwd (fun s a s' r ha hb => (filterMapBody_ret hb).2 ha)
    _ _ _ e hi
  simp only [VFilterMap.poll, e] at hp
  cases st with
  | panic => cases hp
  | pending => cases hp; exact ⟨g1, by simp⟩
  | ended => cases hp; exact ⟨g1, by simp⟩
  | ret d => cases hp; exact ⟨g1, fun d' hd' => by cases hd'; exact g2 d rfl⟩

theorem filterMap_track {f : α → Option β} {u : Trace α} {t : Trace β}
    (h : StageRel (VFilterMap.poll (logging f)) (VFilterMap.init []) (·.signal) u t) {xs : List α}
    (hx : replay u.diffs [] = some xs) (hf : ∀ d ∈ u.diffs, Fwd d) :
    replay t.diffs [] = some (xs.filterMap f) := by
  obtain ⟨s, h1, h2⟩ := h
  obtain ⟨outs, s', xs', g1, g2, g3, -⟩ :=
    C11_filter_map_partial f u.answers (feed_fwd ⟨xs, hx⟩ hf) t.wakers
  rw [h1] at g1
  cases g1
  have : s.signal.got = u.diffs := by rw [Src.got, h2]; rfl
  rw [this, hx] at g2
  cases g2
  exact g3

/-- `filter` as a `filter_map`. -/
theorem filter_link {f : α → Bool} {u t : Trace α}
    (h : StageRel (VFilter.poll (logging f)) (VFilterMap.init []) (·.signal) u t) :
    StageRel (VFilterMap.poll (logging (keep f))) (VFilterMap.init []) (·.signal) u t := h

theorem filterMap_keep (f : α → Bool) (xs : List α) : xs.filterMap (keep f) = xs.filter f := by
  induction xs with
  | nil => rfl
  | cons a xs ih =>
    by_cases h : f a <;> simp [keep, h, List.filterMap_cons, List.filter_cons] at ih ⊢ <;> exact ih

theorem enumChange_ret {m m' : List Nat} {c c' : Cells} {d : VecDiff α} {e : VecDiff (Nat × α)}
    (h : enumChange m c d = some (e, m', c')) : (Whole e → Whole d) ∧ (Fwd d → Fwd e) := by
  cases d with
  | move i j =>
    simp only [enumChange] at h
    repeat' split at h
    all_goals try cases h
    all_goals
      refine ⟨by simp [Whole], fun hf a b he => ?_⟩
      cases he
      exact hf i j rfl
  | replace vs => simp only [enumChange] at h; cases h; simp [Whole, Fwd]
  | clear => simp only [enumChange] at h; cases h; simp [Whole, Fwd]
  | _ =>
    simp only [enumChange] at h
    repeat' split at h
    all_goals first | (cases h; done) | (cases h; simp [Whole, Fwd])

theorem enumerate_calm {u : Trace α} {t : Trace (Nat × α)}
    (h : StageRel VEnumerate.poll VEnumerate.init (·.signal) u t) (hc : Calm t) : Calm u := by
  refine h.calm (fun _ => True) (fun _ _ _ _ _ _ => trivial) (fun _ => trivial) (fun _ => rfl) ?_ hc
  rintro w s r s' - hp hr w' r' hl
  obtain ⟨q, src', e⟩ : ∃ q src', s.signal.poll w = (q, src') := ⟨_, _, rfl⟩
  have hq := Src.poll_last e
  simp only [VEnumerate.poll, e] at hp
  match q with
  | .pending => cases hp; rw [hq] at hl; cases hl; trivial
  | .ready none => cases hp; rw [hq] at hl; cases hl; trivial
  | .ready (some d) =>
    simp only at hp
    split at hp
    · cases hp
    · rename_i heq
      cases hp
      rw [hq] at hl
      cases hl
      exact (enumChange_ret heq).1 hr

theorem enumerate_fwd {u : Trace α} {t : Trace (Nat × α)}
    (h : StageRel VEnumerate.poll VEnumerate.init (·.signal) u t) (hf : ∀ d ∈ u.diffs, Fwd d) :
    ∀ d ∈ t.diffs, Fwd d := by
  obtain ⟨s, h1, -⟩ := h
  refine run_items (fun s => ∀ d ∈ items s.signal.todo, Fwd d) Fwd ?_ h1 hf
  intro w s r s' hi hp
  obtain ⟨q, src', e⟩ : ∃ q src', s.signal.poll w = (q, src') := ⟨_, _, rfl⟩
  obtain ⟨g1, g2⟩ := Src.poll_items Fwd e hi
  simp only [VEnumerate.poll, e] at hp
  match q with
  | .pending => cases hp; exact ⟨g1, by simp⟩
  | .ready none => cases hp; exact ⟨g1, by simp⟩
  | .ready (some d) =>
    simp only at hp
    split at hp
    · cases hp
    · rename_i heq
      cases hp
      exact ⟨g1, fun d' hd' => by cases hd'; exact (enumChange_ret heq).2 (g2 d rfl)⟩

theorem enumerate_track {u : Trace α} {t : Trace (Nat × α)}
    (h : StageRel VEnumerate.poll VEnumerate.init (·.signal) u t) {xs : List α}
    (hx : replay u.diffs [] = some xs) :
    ∃ ys, replay t.diffs [] = some ys ∧ ys.map (·.2) = xs ∧ (ys.map (·.1)).Nodup := by
  obtain ⟨s, h1, h2⟩ := h
  obtain ⟨outs, s', ys, g1, g2, g3, g4, -⟩ := C16_enumerate u.answers ⟨xs, hx⟩ t.wakers
  rw [h1] at g1
  cases g1
  have : s.signal.got = u.diffs := by rw [Src.got, h2]; rfl
  rw [this, hx] at g3
  cases g3
  refine ⟨ys, g2, rfl, ?_⟩
  rw [List.Nodup, List.pairwise_iff_getElem]
  intro i j hi hj hij he
  simp only [List.length_map] at hi hj
  simp only [List.getElem_map] at he
  have a := g4 i ys[i] (by simp [hi])
  have b := g4 j ys[j] (by simp [hj])
  rw [he, b] at a
  simp at a
  omega

/-! ## `sort_by_cloned` -/

theorem sortInsertAt_ret {ix ix' : List Nat} {i j : Nat} {v : α} {d : VecDiff α}
    (h : sortInsertAt ix i j v = some (ix', d)) : ¬ Whole d ∧ Fwd d := by
  unfold sortInsertAt at h
  repeat' split at h
  all_goals first | (cases h; done) | (cases h; simp [Whole, Fwd])

theorem sortRemoveAt_ret {ix ix' : List Nat} {i : Nat} {d : VecDiff α}
    (h : sortRemoveAt ix i = some (ix', d)) : ¬ Whole d ∧ Fwd d := by
  unfold sortRemoveAt at h
  repeat' split at h
  all_goals first | (cases h; done) | (cases h; simp [Whole, Fwd])

theorem sortBody_ret {S : SliceFns} {cmp : α → α → Ordering} {s s' : List α × List Nat}
    {d e : VecDiff α} {p : Option (VecDiff α)} (h : sortBody S cmp s d = .ret s' (e, p)) :
    (Whole e → Whole d ∧ p = none) ∧ (∀ x ∈ p, ¬ Whole x ∧ Fwd x) ∧
      ((∀ i j, d ≠ .move i j) → Fwd e) := by
  obtain ⟨values, indexes⟩ := s
  cases d with
  | move i j =>
    simp only [sortBody] at h
    repeat' split at h
    all_goals try cases h
    exact ⟨by simp [Whole], by simp, fun hh => absurd rfl (hh _ _)⟩
  | replace vs =>
    simp only [sortBody] at h
    split at h
    · cases h
    · cases h; simp [Whole, Fwd]
  | clear => simp only [sortBody] at h; cases h; simp [Whole, Fwd]
  | updateAt i v =>
    simp only [sortBody] at h
    split at h
    · cases h
    split at h
    · cases h
    rename_i hr
    have hr := sortRemoveAt_ret hr
    split at h
    · cases h
    split at h
    · cases h
    split at h
    · split at h
      · cases h
      · cases h; simp [Whole, Fwd]
    · split at h
      · cases h
      · rename_i hi
        have hi := sortInsertAt_ret hi
        cases h
        exact ⟨fun hw => absurd hw hr.1, fun x hx => by cases hx; exact hi, fun _ => hr.2⟩
  | insertAt i v =>
    simp only [sortBody] at h
    repeat' split at h
    all_goals try cases h
    rename_i hi
    have hi := sortInsertAt_ret hi
    exact ⟨fun hw => absurd hw hi.1, by simp, fun _ => hi.2⟩
  | push v =>
    simp only [sortBody] at h
    repeat' split at h
    all_goals try cases h
    rename_i hi
    have hi := sortInsertAt_ret hi
    exact ⟨fun hw => absurd hw hi.1, by simp, fun _ => hi.2⟩
  | removeAt i =>
    simp only [sortBody] at h
    repeat' split at h
    all_goals try cases h
    rename_i hi
    have hi := sortRemoveAt_ret hi
    exact ⟨fun hw => absurd hw hi.1, by simp, fun _ => hi.2⟩
  | pop =>
    simp only [sortBody] at h
    repeat' split at h
    all_goals try cases h
    rename_i hi
    have hi := sortRemoveAt_ret hi
    exact ⟨fun hw => absurd hw hi.1, by simp, fun _ => hi.2⟩

/-- Moving an element towards the back of the input does not move it towards the front of the
sorted output. -/
theorem sortBody_move_fwd {S : SliceFns} {cmp : α → α → Ordering} (hS : S.Lawful)
    (h : TotalPreorder cmp) {p q p' q' : List α}
    {a : α} {is : List Nat} (hi : SInv cmp (p ++ a :: q) is)
    (hpq : p ++ q = p' ++ q') (hle : p.length ≤ p'.length) {s' : List α × List Nat} {e : VecDiff α}
    {pend : Option (VecDiff α)}
    (hb : sortBody S cmp (p ++ a :: q, is) (.move p.length p'.length) = .ret s' (e, pend)) :
    Fwd e := by
  obtain ⟨ls, gs, rfl, e2, e3⟩ := searchRemove_spec hS h (index := p.length) hi (by simp)
  have hdec := e3.dec
  rw [hpq] at hdec
  have hl : ∀ x, (decIndexes x p.length).length = x.length := by simp [decIndexes]
  have hrem : vRemove (decIndexes (ls ++ p.length :: gs) p.length) ls.length =
      some (p.length, decIndexes (ls ++ gs) p.length) := by
    rw [decIndexes_append, ← hl ls, vRemove_append]
    simp [decIndexes]
  obtain ⟨ls', gs', e4, e5, e6⟩ := searchInsert_spec hS h (hdec.inc a) (by simp)
  simp only [sortBody, e2, vRemove_append, hrem, hpq, vInsert_append, e5] at hb
  simp only [e4, vInsert_append] at hb
  by_cases heq : ls.length = ls'.length
  · simp [heq] at hb
  · simp only [heq, if_false] at hb
    cases hb
    intro i j hij
    cases hij
    -- `ls` are the positions of the elements before the moved one; all of them stay before it
    refine Decidable.byContradiction fun hlt => ?_
    have hlt : ls'.length < ls.length := by omega
    have hsplit : incIndexes (decIndexes ls p.length) p'.length ++
        incIndexes (decIndexes gs p.length) p'.length = ls' ++ gs' := by
      rw [← e4]; simp [incIndexes, decIndexes]
    have hg : ∃ g ∈ gs', g ∈ incIndexes (decIndexes ls p.length) p'.length := by
      have hk : ls'.length < (incIndexes (decIndexes ls p.length) p'.length).length := by
        simpa [incIndexes, decIndexes] using hlt
      refine ⟨(incIndexes (decIndexes ls p.length) p'.length)[ls'.length], ?_, List.getElem_mem _⟩
      have h1 : (incIndexes (decIndexes ls p.length) p'.length ++
          incIndexes (decIndexes gs p.length) p'.length)[ls'.length]? =
          some (incIndexes (decIndexes ls p.length) p'.length)[ls'.length] := by
        rw [List.getElem?_append_left hk]; simp
      rw [hsplit, List.getElem?_append_right (by omega)] at h1
      exact List.mem_of_getElem? h1
    obtain ⟨g, hg1, hg2⟩ := hg
    simp only [incIndexes, decIndexes, List.map_map, List.mem_map, Function.comp_apply] at hg2
    obtain ⟨x, hx, rfl⟩ := hg2
    have hs := hi.sorted
    rw [List.pairwise_append, List.pairwise_cons] at hs
    have c1 : sortCmp cmp (p ++ a :: q) x p.length = .lt := hs.2.2 x hx _ (by simp)
    have hs' := e6.sorted
    rw [List.pairwise_append, List.pairwise_cons] at hs'
    have c2 := hs'.2.1.1 _ hg1
    have hxne : x ≠ p.length := ((e3.mem x).1 (by simp [hx])).2
    have hxlt : x < (p ++ a :: q).length := (hi.mem x).1 (by simp [hx])
    obtain ⟨b, hbx⟩ := get_of_lt hxlt
    have v1 : (p' ++ a :: q')[if (if x > p.length then x - 1 else x) ≥ p'.length then
        (if x > p.length then x - 1 else x) + 1 else (if x > p.length then x - 1 else x)]? =
        some b := by
      rw [get_inc, ← hpq, get_dec p q a x hxne, hbx]
    rw [sortCmp_of hbx (show (p ++ a :: q)[p.length]? = some a by simp), then_eq_lt] at c1
    rw [sortCmp_of (show (p' ++ a :: q')[p'.length]? = some a by simp) v1, then_eq_lt] at c2
    rcases c1 with c1 | ⟨c1, d1⟩
    · rw [h.swap b a, c1] at c2
      simp [Ordering.swap] at c2
    · rw [h.swap b a, c1] at c2
      simp only [Ordering.swap, reduceCtorEq, true_and, false_or] at c2
      split at c2 <;> split at c2 <;> omega

theorem sortBody_fwd {S : SliceFns} {cmp : α → α → Ordering} (hS : S.Lawful)
    (h : TotalPreorder cmp) {values ys : List α} {is : List Nat} (hi : SInv cmp values is)
    {d : VecDiff α} (hd : d.apply values = some ys) (hf : Fwd d) {s' : List α × List Nat}
    {e : VecDiff α} {pend : Option (VecDiff α)}
    (hb : sortBody S cmp (values, is) d = .ret s' (e, pend)) : Fwd e := by
  cases apply_eq_some.1 hd with
  | moveFwd p a m q =>
    exact sortBody_move_fwd hS h (p := p) (q := m ++ q) (p' := p ++ m) (q' := q) hi (by simp)
      (by simp) (by simpa using hb)
  | moveBack p m a q =>
    have hm : m = [] := by
      have := hf _ _ rfl
      exact List.length_eq_zero_iff.1 (by omega)
    subst hm
    exact sortBody_move_fwd hS h (p := p) (q := q) (p' := p) (q' := q) (by simpa using hi) rfl
      (Nat.le_refl _) (by simpa using hb)
  | _ => exact (sortBody_ret hb).2.2 (by simp)

theorem sort_calm {S : SliceFns} {cmp : α → α → Ordering} {u t : Trace α}
    (h : StageRel (VSort.poll S cmp) VSort.init (·.signal) u t) (hc : Calm t) : Calm u := by
  refine h.calm (fun s => ∀ x ∈ s.pending, ¬ Whole x ∧ Fwd x) ?_ (fun _ => by simp [VSort.init])
    (fun _ => rfl) ?_ hc
  · rintro w ⟨pend, values, indexes, src⟩ r s' hl hp
    cases pend with
    | some d => cases hp; simp
    | none =>
      obtain ⟨st, x, src', e⟩ : ∃ st x src',
        src.loop w (sortBody S cmp) (values, indexes) = (st, x, src') := ⟨_, _, _, rfl⟩
      obtain ⟨q, hq, hq'⟩ := pollLoop_last _ _ _ e
      simp only [VSort.poll, e] at hp
      cases st with
      | panic => cases hp
      | pending => cases hp; simp
      | ended => cases hp; simp
      | ret d =>
        obtain ⟨d, p⟩ := d
        obtain ⟨s1, a, rfl, hb⟩ := hq'
        cases hp
        exact (sortBody_ret hb).2.1
  · rintro w ⟨pend, values, indexes, src⟩ r s' hl hp hr w' r' hlast
    cases pend with
    | some d => cases hp; exact absurd hr (hl d rfl).1
    | none =>
      obtain ⟨st, x, src', e⟩ : ∃ st x src',
        src.loop w (sortBody S cmp) (values, indexes) = (st, x, src') := ⟨_, _, _, rfl⟩
      obtain ⟨q, hq, hq'⟩ := pollLoop_last _ _ _ e
      simp only [VSort.poll, e] at hp
      cases st with
      | panic => cases hp
      | pending => cases hp; rw [hq] at hlast; cases hlast; cases hq'; trivial
      | ended => cases hp; rw [hq] at hlast; cases hlast; cases hq'; trivial
      | ret d =>
        obtain ⟨d, p⟩ := d
        obtain ⟨s1, a, rfl, hb⟩ := hq'
        cases hp
        rw [hq] at hlast
        cases hlast
        exact ((sortBody_ret hb).1 hr).1

theorem sort_track {S : SliceFns} {cmp : α → α → Ordering} (hS : S.Lawful)
    (hc : TotalPreorder cmp) {u t : Trace α}
    (h : StageRel (VSort.poll S cmp) VSort.init (·.signal) u t) {xs : List α}
    (hx : replay u.diffs [] = some xs) :
    ∃ zs, replay t.diffs [] = some zs ∧ (Calm t → zs = sortedBy cmp xs) := by
  obtain ⟨s, h1, h2⟩ := h
  obtain ⟨outs, s', xs', zs, g1, g2, g3, g4, g5, -⟩ :=
    C15_sort_by_cloned S hS cmp hc u.answers ⟨xs, hx⟩ t.wakers
  rw [h1] at g1
  cases g1
  have : s.signal.got = u.diffs := by rw [Src.got, h2]; rfl
  rw [this, hx] at g2
  cases g2
  refine ⟨zs, g3, fun hcalm => ?_⟩
  have hp : s.pending = none := by
    rcases run_last (fun s => ∀ x ∈ s.pending, ¬ Whole x ∧ Fwd x) (by
      rintro w ⟨pend, values, indexes, src⟩ r s' hl hp -
      cases pend with
      | some d => cases hp; simp
      | none =>
        obtain ⟨st, x, src', e⟩ : ∃ st x src',
          src.loop w (sortBody S cmp) (values, indexes) = (st, x, src') := ⟨_, _, _, rfl⟩
        obtain ⟨q, hq, hq'⟩ := pollLoop_last _ _ _ e
        simp only [VSort.poll, e] at hp
        cases st with
        | panic => cases hp
        | pending => cases hp; simp
        | ended => cases hp; simp
        | ret d =>
          obtain ⟨d, p⟩ := d
          obtain ⟨s1, a, rfl, hb⟩ := hq'
          cases hp
          exact (sortBody_ret hb).2.1) h1 (by simp [VSort.init]) with
      ⟨-, h3⟩ | ⟨w, s1, r, k1, k2, k3, -, -⟩
    · rw [h3]; rfl
    · rw [Trace.answers_last] at k3
      obtain ⟨⟨x, y⟩, hxy, rfl⟩ := Option.map_eq_some_iff.1 k3
      have hr := hcalm x y hxy
      obtain ⟨pend, values, indexes, src⟩ := s1
      cases pend with
      | some d => cases k2; rfl
      | none =>
        obtain ⟨st, x, src', e⟩ : ∃ st x src',
          src.loop w (sortBody S cmp) (values, indexes) = (st, x, src') := ⟨_, _, _, rfl⟩
        obtain ⟨q, hq, hq'⟩ := pollLoop_last _ _ _ e
        simp only [VSort.poll, e] at k2
        cases st with
        | panic => cases k2
        | pending => injection k2 with k2; injection k2 with k2 k3; rw [← k3]
        | ended => injection k2 with k2; injection k2 with k2 k3; rw [← k3]
        | ret d =>
          obtain ⟨d, p⟩ := d
          obtain ⟨s2, a, rfl, hb⟩ := hq'
          injection k2 with k2
          injection k2 with k2 k3
          rw [← k2] at hr
          rw [← k3]
          exact ((sortBody_ret hb).1 hr).2
  rw [hp] at g5
  simpa [replay] using g5

theorem sort_fwd {S : SliceFns} {cmp : α → α → Ordering} (hS : S.Lawful)
    (hc : TotalPreorder cmp) {u t : Trace α}
    (h : StageRel (VSort.poll S cmp) VSort.init (·.signal) u t)
    (hx : ∃ xs, replay u.diffs [] = some xs) (hf : ∀ d ∈ u.diffs, Fwd d) : ∀ d ∈ t.diffs, Fwd d := by
  obtain ⟨s, h1, -⟩ := h
  have hfeed : Feed (fun d _ => Fwd d) u.diffs [] := by
    have := feed_both (ok' := fun d _ => Fwd d) (feed_any.2 hx) (fun d hd _ => hf d hd)
    have mono : ∀ (ds : List (VecDiff α)) l, Feed (fun d l => anyDiff d l ∧ Fwd d) ds l →
        Feed (fun d _ => Fwd d) ds l := by
      intro ds
      induction ds with
      | nil => intros; trivial
      | cons d ds ih =>
        rintro l ⟨a, ys, b, c⟩
        exact ⟨a.2, ys, b, ih _ c⟩
    exact mono _ _ this
  obtain ⟨outs, s', g1, g2, g3⟩ := sig_run (poll := VSort.poll S cmp)
    (fun outs s => (∀ d ∈ items outs, Fwd d) ∧ ¬ s.signal.ended ∧
      Valid (fun d _ => Fwd d) s.signal s.values ∧ SInv cmp s.values s.indexes ∧
      ∀ x ∈ s.pending, Fwd x)
    (fun outs s => ∀ d ∈ items outs, Fwd d)
    (by
      rintro w outs ⟨pend, values, indexes, src⟩ ⟨k1, k2, k3, k4, k5⟩
      simp only at k2 k3 k4 k5
      cases pend with
      | some d =>
        refine ⟨.ready (some d), _, rfl, ?_, k2, k3, k4, by simp⟩
        intro x hx
        rw [items_append] at hx
        rcases List.mem_append.1 hx with hx | hx
        · exact k1 x hx
        · simp at hx; subst hx; exact k5 x rfl
      | none =>
        obtain ⟨st, ⟨vs, is⟩, src', xs', g1, g2, g3, g4⟩ := Src.vloop_rule (w := w)
          (body := sortBody S cmp) (ok := fun d _ => Fwd d)
          (fun s xs => s.1 = xs ∧ SInv cmp s.1 s.2)
          (fun r s xs => s.1 = xs ∧ SInv cmp s.1 s.2 ∧ Fwd r.1 ∧ ∀ x ∈ r.2, Fwd x)
          (by
            rintro ⟨vs, is⟩ xs d ys ⟨e, hi⟩ hfd hd
            simp only at e hi
            subst e
            obtain ⟨zs, -, ho⟩ := out_replace (values := vs) fun i h => (hi.mem i).1 h
            rcases sortBody_spec hS hc hi ho hd with ⟨is', e1, e2, e3⟩ |
              ⟨is', e, pend, zs1, zs', e1, e2, e3, e4, e5, e6⟩
            · rw [e1]; exact ⟨rfl, e2⟩
            · rw [e1]
              exact ⟨rfl, e2, sortBody_fwd hS hc hi hd hfd e1,
                fun x hx => ((sortBody_ret e1).2.1 x hx).2⟩)
          src (values, indexes) values k2 k3 ⟨rfl, k4⟩
        match st with
        | .panic => exact g4.elim
        | .ret (d, p) =>
          obtain ⟨⟨a1, a2, a3, a4⟩, a7⟩ := g4
          simp only at a1 a2
          subst a1
          refine ⟨.ready (some d), ⟨p, vs, is, src'⟩, by simp [VSort.poll, g1], ?_, a7, g3, a2, a4⟩
          intro x hx
          rw [items_append] at hx
          rcases List.mem_append.1 hx with hx | hx
          · exact k1 x hx
          · simp at hx; subst hx; exact a3
        | .ended =>
          exact ⟨.ready none, ⟨none, vs, is, src'⟩, by simp [VSort.poll, g1],
            by simpa [items_append] using k1⟩
        | .pending =>
          obtain ⟨⟨a1, a2⟩, a4, -⟩ := g4
          simp only at a1 a2
          subst a1
          exact ⟨.pending, ⟨none, vs, is, src'⟩, by simp [VSort.poll, g1],
            by simpa [items_append] using k1, a4, g3, a2, by simp⟩)
    t.wakers (VSort.init u.answers)
    ⟨by simp, not_ended_mk' _, valid_mk' hfeed, ⟨by simp [VSort.init], List.Pairwise.nil⟩,
      by simp [VSort.init]⟩
  rw [h1] at g1
  cases g1
  by_cases he : .ready none ∈ t.answers
  · exact g3 he
  · exact (g2 he).1

/-! ## `chain` -/

/-- The last answer of an optional input is calm. -/
def InpCalm (i : Inp (Option (VecDiff α))) : Prop :=
  i.alive = false ∨ ∃ w r, i.src.hist.getLast? = some (w, r) ∧ CalmAns r

theorem Inp.poll_last {w : Waker} {i i' : Inp (Option α)} {c : Option (Poll (Option α))}
    (e : i.poll w = (c, i')) :
    (c = none ∧ i' = i ∧ i.alive = false) ∨
      ∃ r, c = some r ∧ i'.src.hist.getLast? = some (w, r) ∧ i.alive = true := by
  unfold Inp.poll at e
  by_cases ha : i.alive = true
  · simp only [ha, ↓reduceIte] at e
    obtain ⟨q, src', hq⟩ : ∃ q src', i.src.poll w = (q, src') := ⟨_, _, rfl⟩
    have := Src.poll_last hq
    rw [hq] at e
    right
    match q with
    | .ready none => cases e; exact ⟨_, rfl, this, ha⟩
    | .ready (some a) => cases e; exact ⟨_, rfl, this, ha⟩
    | .pending => cases e; exact ⟨_, rfl, this, ha⟩
  · have ha' : i.alive = false := by simpa using ha
    simp only [ha', Bool.false_eq_true, ↓reduceIte] at e
    cases e
    exact .inl ⟨rfl, rfl, ha'⟩

/-- At the last answer of the left input without an output, it is calm. -/
theorem processLeft_none {w : Waker} {s s' : VChain α}
    (h : s.processLeft w = some (none, s')) : InpCalm s'.left := by
  obtain ⟨c, l, e⟩ : ∃ c l, s.left.poll w = (c, l) := ⟨_, _, rfl⟩
  have hl := Inp.poll_last e
  simp only [VChain.processLeft, e] at h
  rcases hl with ⟨rfl, rfl, ha⟩ | ⟨r, rfl, hl, -⟩
  · cases h; exact .inl ha
  · match r with
    | .pending => cases h; exact .inr ⟨_, _, hl, trivial⟩
    | .ready none => cases h; exact .inr ⟨_, _, hl, trivial⟩
    | .ready (some d) =>
      have hleft : ∀ {c} {s s' : VChain α} {o}, s.processRightChange c = some (o, s') →
          s'.left = s.left := by
        intro c s s' o h
        match c with
        | none => cases h; rfl
        | some .pending => cases h; rfl
        | some (.ready none) => cases h; rfl
        | some (.ready (some d)) =>
          cases d <;> simp only [VChain.processRightChange] at h
          all_goals repeat' split at h
          all_goals first | (cases h; done) | (cases h; rfl)
      cases d with
      | replace vs =>
        refine .inr ⟨w, .ready (some (.replace vs)), ?_, trivial⟩
        · simp only [VChain.processLeftChange, VChain.processReplace] at h
          split at h
          · cases h
          · by_cases h0 : s.rightLen = 0 <;> simp only [h0, ↓reduceIte] at h <;> split at h
            all_goals first | (cases h; done) | skip
            all_goals
              rename_i hp
              cases h
              simp only [hleft hp]
              exact hl
      | clear =>
        refine .inr ⟨w, .ready (some .clear), ?_, trivial⟩
        · simp only [VChain.processLeftChange, VChain.processClear] at h
          split at h
          · cases h
          · by_cases h0 : s.rightLen = 0 <;> simp only [h0, ↓reduceIte] at h <;> split at h
            all_goals first | (cases h; done) | skip
            all_goals
              rename_i hp
              cases h
              simp only [hleft hp]
              exact hl
      | _ =>
        simp only [VChain.processLeftChange] at h
        repeat' split at h
        all_goals cases h

theorem processRight_none {w : Waker} {s s' : VChain α}
    (h : s.processRight w = some (none, s')) : InpCalm s'.right ∧ s'.left = s.left := by
  obtain ⟨c, r, e⟩ : ∃ c r, s.right.poll w = (c, r) := ⟨_, _, rfl⟩
  have hl := Inp.poll_last e
  simp only [VChain.processRight, e] at h
  rcases hl with ⟨rfl, rfl, ha⟩ | ⟨r, rfl, hl, -⟩
  · cases h; exact ⟨.inl ha, rfl⟩
  · match r with
    | .pending => cases h; exact ⟨.inr ⟨_, _, hl, trivial⟩, rfl⟩
    | .ready none => cases h; exact ⟨.inr ⟨_, _, hl, trivial⟩, rfl⟩
    | .ready (some d) =>
      cases d with
      | replace vs =>
        simp only [VChain.processRightChange] at h
        split at h <;> cases h
        exact ⟨.inr ⟨_, _, hl, trivial⟩, rfl⟩
      | clear =>
        simp only [VChain.processRightChange] at h
        split at h <;> cases h
        exact ⟨.inr ⟨_, _, hl, trivial⟩, rfl⟩
      | _ =>
        simp only [VChain.processRightChange] at h
        repeat' split at h
        all_goals cases h

theorem chain_pending {w : Waker} {s s' : VChain α} (h : s.poll w = some (.pending, s')) :
    InpCalm s'.left ∧ InpCalm s'.right := by
  unfold VChain.poll at h
  split at h
  · cases h
  split at h
  · cases h
  · cases h
  rename_i h1
  split at h
  · cases h
  split at h
  · cases h
  · cases h
  rename_i h2
  split at h
  · cases h
  split at h
  · cases h
  cases h
  have a := processLeft_none h1
  have b := processRight_none h2
  exact ⟨by unfold InpCalm; rw [b.2]; exact a, b.1⟩

theorem calm_of_ok {i : Inp (Option (VecDiff α))} (h : i.Ok) (hc : InpCalm i) :
    Calm i.src.hist := by
  rcases hc with hd | ⟨w, r, h1, h2⟩
  · obtain ⟨w, hw⟩ := last_of_fused h.fused (h.dead.2 hd)
    intro w' r' h'
    rw [hw] at h'
    cases h'
    trivial
  · intro w' r' h'
    rw [h1] at h'
    cases h'
    exact h2

/-- `chain` at a `Pending` or the end: both inputs are calm, and the output is their
concatenation. -/
theorem chain_track {u v t : Trace α} {s : VChain α}
    (h : run VChain.poll t.wakers (VChain.init u.answers v.answers) = some (t.answers, s))
    (hu : s.left.src.hist = u) (hv : s.right.src.hist = v) {xs ys : List α}
    (hx : replay u.diffs [] = some xs) (hy : replay v.diffs [] = some ys) :
    ∃ zs, replay t.diffs [] = some zs ∧ (AtRest t → Calm u ∧ Calm v ∧ zs = xs ++ ys) := by
  obtain ⟨outs, s', zs, xs', ys', g1, g2, g3, g4, g5⟩ :=
    chain_run u.answers v.answers (feed_any.2 ⟨xs, hx⟩) (feed_any.2 ⟨ys, hy⟩) t.wakers
  rw [h] at g1
  cases g1
  have e1 := g3.vleft.now
  have e2 := g3.vright.now
  have d1 : s.left.src.got = u.diffs := by rw [Src.got, hu]; rfl
  have d2 : s.right.src.got = v.diffs := by rw [Src.got, hv]; rfl
  rw [d1, hx] at e1
  rw [d2, hy] at e2
  cases e1
  cases e2
  refine ⟨zs, g2, ?_⟩
  rintro ⟨w, r, l1, l2⟩
  have l1' : t.answers.getLast? = some r := by rw [Trace.answers_last, l1]; rfl
  have hq := g3.queue
  rcases l2 with rfl | rfl
  · obtain ⟨k1, -⟩ := g4 w (by rw [Trace.wakers_last, l1]; rfl) l1'
    rw [k1] at hq
    rcases run_last (fun _ => True) (fun _ _ _ _ _ _ _ => trivial) h trivial with
      ⟨h3, -⟩ | ⟨w, s1, r, -, m2, m3, -, -⟩
    · rw [h3] at l1'; cases l1'
    · rw [l1'] at m3
      cases m3
      obtain ⟨c1, c2⟩ := chain_pending m2
      exact ⟨hu ▸ calm_of_ok g3.left c1, hv ▸ calm_of_ok g3.right c2, by simpa [replay] using hq⟩
  · obtain ⟨k1, k2, k3⟩ := g5 (List.mem_of_getLast? l1')
    rw [k1] at hq
    exact ⟨hu ▸ calm_of_ok g3.left (.inl k2), hv ▸ calm_of_ok g3.right (.inl k3),
      by simpa [replay] using hq⟩

/-- All changes a chain holds or will receive move forwards. -/
structure FwdSt (s : VChain α) : Prop where
  left : ∀ d ∈ items s.left.src.todo, Fwd d
  right : ∀ d ∈ items s.right.src.todo, Fwd d
  pending : ∀ d ∈ s.pending, Fwd d

theorem fwd_removesDesc (o n : Nat) : ∀ d ∈ removesDesc (α := α) o n, Fwd d := by
  induction n with
  | zero => simp [removesDesc]
  | succ n ih => simp [removesDesc, Fwd] at ih ⊢; exact ih

theorem fwd_insertsFrom (o : Nat) (vs : List α) : ∀ d ∈ insertsFrom o vs, Fwd d := by
  induction vs generalizing o with
  | nil => simp [insertsFrom]
  | cons v vs ih => simp [insertsFrom, Fwd] at ih ⊢; exact ih _

theorem fwd_append {a b : List (VecDiff α)} (ha : ∀ d ∈ a, Fwd d) (hb : ∀ d ∈ b, Fwd d) :
    ∀ d ∈ a ++ b, Fwd d := fun d hd => (List.mem_append.1 hd).elim (ha d) (hb d)

theorem fwd_pops (n : Nat) : ∀ d ∈ List.replicate n (VecDiff.pop (α := α)), Fwd d := by
  intro d hd; rw [List.eq_of_mem_replicate hd]; simp [Fwd]

theorem fwd_pushes (vs : List α) : ∀ d ∈ vs.map VecDiff.push, Fwd d := by
  intro d hd; obtain ⟨v, -, rfl⟩ := List.mem_map.1 hd; simp [Fwd]

theorem Inp.poll_items {w : Waker} {i i' : Inp (Option α)} {c : Option (Poll (Option α))}
    (P : α → Prop) (e : i.poll w = (c, i')) (h : ∀ a ∈ items i.src.todo, P a) :
    (∀ a ∈ items i'.src.todo, P a) ∧ ∀ a, c = some (.ready (some a)) → P a := by
  unfold Inp.poll at e
  split at e
  · obtain ⟨q, src', hq⟩ : ∃ q src', i.src.poll w = (q, src') := ⟨_, _, rfl⟩
    have := Src.poll_items P hq h
    rw [hq] at e
    match q with
    | .ready none => cases e; exact ⟨this.1, by simp⟩
    | .ready (some a) => cases e; exact ⟨this.1, fun b hb => by cases hb; exact this.2 a rfl⟩
    | .pending => cases e; exact ⟨this.1, by simp⟩
  · cases e; exact ⟨h, by simp⟩

theorem processRightChange_fwd {c : Option (Poll (Option (VecDiff α)))} {s s' : VChain α}
    {o : Option (VecDiff α)} (hs : FwdSt s) (hc : ∀ d, c = some (.ready (some d)) → Fwd d)
    (h : s.processRightChange c = some (o, s')) : FwdSt s' ∧ ∀ d ∈ o, Fwd d := by
  obtain ⟨k1, k2, k3⟩ := hs
  match c with
  | none => cases h; exact ⟨⟨k1, k2, k3⟩, by simp⟩
  | some .pending => cases h; exact ⟨⟨k1, k2, k3⟩, by simp⟩
  | some (.ready none) => cases h; exact ⟨⟨k1, k2, k3⟩, by simp⟩
  | some (.ready (some d)) =>
    have hd := hc d rfl
    cases d with
    | move i j =>
      cases h
      refine ⟨⟨k1, k2, k3⟩, ?_⟩
      have := hd i j rfl
      intro d hd a b hab
      cases hd
      cases hab
      omega
    | _ =>
      simp only [VChain.processRightChange] at h
      repeat' split at h
      all_goals first
        | (cases h; done)
        | (cases h; exact ⟨⟨k1, k2, k3⟩, by simp [Fwd]⟩)
        | (cases h; exact ⟨⟨k1, k2, fwd_append (fwd_append k3 (fwd_pops _)) (fwd_pushes _)⟩, by simp⟩)
        | (cases h; exact ⟨⟨k1, k2, fwd_append k3 (fwd_pops _)⟩, by simp⟩)

theorem processLeft_fwd {w : Waker} {s s' : VChain α} {o : Option (VecDiff α)} (hs : FwdSt s)
    (h : s.processLeft w = some (o, s')) : FwdSt s' ∧ ∀ d ∈ o, Fwd d := by
  obtain ⟨k1, k2, k3⟩ := hs
  obtain ⟨c, l, e⟩ : ∃ c l, s.left.poll w = (c, l) := ⟨_, _, rfl⟩
  obtain ⟨m1, m2⟩ := Inp.poll_items Fwd e k1
  simp only [VChain.processLeft, e] at h
  match c with
  | none => cases h; exact ⟨⟨m1, k2, k3⟩, by simp⟩
  | some .pending => cases h; exact ⟨⟨m1, k2, k3⟩, by simp⟩
  | some (.ready none) => cases h; exact ⟨⟨m1, k2, k3⟩, by simp⟩
  | some (.ready (some d)) =>
    have hd := m2 d rfl
    obtain ⟨c', r, e'⟩ : ∃ c' r, s.right.poll w = (c', r) := ⟨_, _, rfl⟩
    obtain ⟨n1, n2⟩ := Inp.poll_items Fwd e' k2
    cases d with
    | replace vs =>
      simp only [VChain.processLeftChange, VChain.processReplace, e'] at h
      split at h
      · cases h; exact ⟨⟨m1, n1, k3⟩, by simp [Fwd]⟩
      · have hq := fwd_append (fwd_append k3 (fwd_removesDesc 0 s.leftLen)) (fwd_insertsFrom 0 vs)
        by_cases h0 : s.rightLen = 0
        · simp only [h0, ↓reduceIte] at h
          split at h
          · cases h
          · rename_i hp
            cases h
            obtain ⟨⟨q1, q2, q3⟩, q4⟩ := processRightChange_fwd (by exact ⟨m1, n1, k3⟩) n2 hp
            exact ⟨⟨q1, q2, fwd_append q3 (by simpa using q4 _ rfl)⟩, by simp [Fwd]⟩
          · rename_i hp
            cases h
            exact ⟨(processRightChange_fwd (by exact ⟨m1, n1, k3⟩) n2 hp).1, by simp [Fwd]⟩
        · simp only [h0, ↓reduceIte] at h
          split at h
          · cases h
          · rename_i hp
            cases h
            obtain ⟨⟨q1, q2, q3⟩, q4⟩ := processRightChange_fwd (by exact ⟨m1, n1, hq⟩) n2 hp
            exact ⟨⟨q1, q2, fwd_append q3 (by simpa using q4 _ rfl)⟩, by simp⟩
          · rename_i hp
            cases h
            exact ⟨(processRightChange_fwd (by exact ⟨m1, n1, hq⟩) n2 hp).1, by simp⟩
    | clear =>
      simp only [VChain.processLeftChange, VChain.processClear, e'] at h
      split at h
      · cases h; exact ⟨⟨m1, n1, k3⟩, by simp [Fwd]⟩
      · have hq := fwd_append k3 (fwd_removesDesc 0 s.leftLen)
        by_cases h0 : s.rightLen = 0
        · simp only [h0, ↓reduceIte] at h
          split at h
          · cases h
          · rename_i hp
            cases h
            obtain ⟨⟨q1, q2, q3⟩, q4⟩ := processRightChange_fwd (by exact ⟨m1, n1, k3⟩) n2 hp
            exact ⟨⟨q1, q2, fwd_append q3 (by simpa using q4 _ rfl)⟩, by simp [Fwd]⟩
          · rename_i hp
            cases h
            exact ⟨(processRightChange_fwd (by exact ⟨m1, n1, k3⟩) n2 hp).1, by simp [Fwd]⟩
        · simp only [h0, ↓reduceIte] at h
          split at h
          · cases h
          · rename_i hp
            cases h
            obtain ⟨⟨q1, q2, q3⟩, q4⟩ := processRightChange_fwd (by exact ⟨m1, n1, hq⟩) n2 hp
            exact ⟨⟨q1, q2, fwd_append q3 (by simpa using q4 _ rfl)⟩, by simp⟩
          · rename_i hp
            cases h
            exact ⟨(processRightChange_fwd (by exact ⟨m1, n1, hq⟩) n2 hp).1, by simp⟩
    | move i j =>
      cases h
      exact ⟨⟨m1, k2, k3⟩, fun d hd' => by cases hd'; exact hd⟩
    | _ =>
      simp only [VChain.processLeftChange] at h
      repeat' split at h
      all_goals first
        | (cases h; done)
        | (cases h; exact ⟨⟨m1, k2, k3⟩, by simp [Fwd]⟩)

theorem chain_fwd {u v t : Trace α} {s : VChain α}
    (h : run VChain.poll t.wakers (VChain.init u.answers v.answers) = some (t.answers, s))
    (hu : ∀ d ∈ u.diffs, Fwd d) (hv : ∀ d ∈ v.diffs, Fwd d) : ∀ d ∈ t.diffs, Fwd d := by
  refine run_items FwdSt Fwd ?_ h ⟨hu, hv, by simp [VChain.init]⟩
  intro w s r s' hs h
  unfold VChain.poll at h
  split at h
  · rename_i hp
    cases h
    exact ⟨⟨hs.left, hs.right, fun d hd => hs.pending d (by rw [hp]; simp [hd])⟩,
      fun d hd => by cases hd; exact hs.pending _ (by rw [hp]; simp)⟩
  split at h
  · cases h
  · rename_i hl
    cases h
    obtain ⟨a, b⟩ := processLeft_fwd hs hl
    exact ⟨a, fun d hd => by cases hd; exact b _ rfl⟩
  rename_i hl
  obtain ⟨hs1, -⟩ := processLeft_fwd hs hl
  split at h
  · rename_i hp
    cases h
    exact ⟨⟨hs1.left, hs1.right, fun d hd => hs1.pending d (by rw [hp]; simp [hd])⟩,
      fun d hd => by cases hd; exact hs1.pending _ (by rw [hp]; simp)⟩
  have key : ∀ {s s' : VChain α} {o}, FwdSt s → s.processRight w = some (o, s') →
      FwdSt s' ∧ ∀ d ∈ o, Fwd d := by
    intro s s' o hs h
    obtain ⟨c, r, e⟩ : ∃ c r, s.right.poll w = (c, r) := ⟨_, _, rfl⟩
    obtain ⟨n1, n2⟩ := Inp.poll_items Fwd e hs.right
    simp only [VChain.processRight, e] at h
    exact processRightChange_fwd (by exact ⟨hs.left, n1, hs.pending⟩) n2 h
  split at h
  · cases h
  · rename_i hr
    cases h
    obtain ⟨a, b⟩ := key hs1 hr
    exact ⟨a, fun d hd => by cases hd; exact b _ rfl⟩
  rename_i hr
  obtain ⟨hs2, -⟩ := key hs1 hr
  split at h
  · rename_i hp
    cases h
    exact ⟨⟨hs2.left, hs2.right, fun d hd => hs2.pending d (by rw [hp]; simp [hd])⟩,
      fun d hd => by cases hd; exact hs2.pending _ (by rw [hp]; simp)⟩
  split at h <;> cases h <;> exact ⟨hs2, by simp⟩

end Verif
