import Verif.Flow
import Verif.PipeMut
import Verif.SinkProofs
import Verif.SourceProofs
import Verif.Props.SignalVecSignal
import Verif.Props.Mutable

/-!
# Proofs about pipelines whose elements have signals of their own
-/

namespace Verif

variable {α β γ ν σ ρ : Type}

/-! ## Traces -/

theorem items_mapItem (f : α → β) (l : List (Poll (Option α))) :
    items (l.map (Poll.mapItem f)) = (items l).map f := by
  induction l with
  | nil => rfl
  | cons r l ih =>
    match r with
    | .ready (some a) => simp [Poll.mapItem, ih]
    | .ready none => simp [Poll.mapItem, ih]
    | .pending => simp [Poll.mapItem, ih]

theorem mapItem_pending {f : α → β} {r : Poll (Option α)} :
    r.mapItem f = .pending ↔ r = .pending := by
  match r with
  | .ready (some a) => simp [Poll.mapItem]
  | .ready none => simp [Poll.mapItem]
  | .pending => simp [Poll.mapItem]

theorem mapItem_none {f : α → β} {r : Poll (Option α)} :
    r.mapItem f = .ready none ↔ r = .ready none := by
  match r with
  | .ready (some a) => simp [Poll.mapItem]
  | .ready none => simp [Poll.mapItem]
  | .pending => simp [Poll.mapItem]

theorem rest_map (f : α → β) (x : Option Waker) (t : List (Waker × Poll (Option α))) :
    Rest x (t.map fun q => (q.1, q.2.mapItem f)) ↔ Rest x t := by
  simp only [Rest, List.getLast?_map]
  cases t.getLast? with
  | none => simp
  | some q =>
    obtain ⟨w, r⟩ := q
    simp only [Option.map_some, Option.some.injEq, Prod.mk.injEq, mapItem_pending, mapItem_none]

theorem bare_diffs (u : Trace (β × Nat)) : (Trace.bare u).diffs = u.diffs.map (VecDiff.map Prod.fst) := by
  have : (Trace.bare u).answers = u.answers.map (Poll.mapItem (VecDiff.map Prod.fst)) := by
    simp [Trace.bare, Trace.answers, Function.comp_def]
  rw [Trace.diffs, this, items_mapItem]
  rfl

theorem replay_lift (f : α → β) {ds : List (VecDiff α)} {xs : List α} {ys : List β}
    (h : replay (ds.map (VecDiff.map f)) (xs.map f) = some ys) :
    ∃ zs, replay ds xs = some zs ∧ zs.map f = ys := by
  induction ds generalizing xs with
  | nil => cases h; exact ⟨xs, rfl, rfl⟩
  | cons d ds ih =>
    simp only [List.map_cons, replay] at h
    cases hd : (d.map f).apply (xs.map f) with
    | none => simp [hd] at h
    | some ts =>
      obtain ⟨xs', g1, rfl⟩ := lift_apply f hd
      simp only [hd] at h
      obtain ⟨zs, g2, g3⟩ := ih h
      exact ⟨zs, by simp [replay, g1, g2], g3⟩

theorem replay_map (f : α → β) {ds : List (VecDiff α)} {xs ys : List α}
    (h : replay ds xs = some ys) : replay (ds.map (VecDiff.map f)) (xs.map f) = some (ys.map f) := by
  induction ds generalizing xs with
  | nil => cases h; rfl
  | cons d ds ih =>
    simp only [replay] at h
    cases hd : d.apply xs with
    | none => simp [hd] at h
    | some ts =>
      simp only [hd] at h
      simp only [List.map_cons, replay, map_apply f hd]
      exact ih h

theorem fwd_map {f : α → β} {d : VecDiff α} : Fwd (d.map f) ↔ Fwd d := by
  cases d <;> simp [Fwd, VecDiff.map]

theorem bare_fwd {u : Trace (β × Nat)} : (∀ d ∈ (Trace.bare u).diffs, Fwd d) ↔ ∀ d ∈ u.diffs, Fwd d := by
  rw [bare_diffs]
  simp [fwd_map]

theorem script_eager [Inhabited ν] {h : ν → γ} {t : SigTrace ν}
    (ht : t = [] ∨ ∃ b, t.head?.map (·.2) = some (.ready (some b))) :
    ∃ b rest, t.script h = .ready (some b) :: rest := by
  match t with
  | [] => exact ⟨_, _, rfl⟩
  | (w, r) :: t =>
    rcases ht with ht | ⟨b, ht⟩
    · cases ht
    · simp only [List.head?_cons, Option.map_some, Option.some.injEq] at ht
      subst ht
      exact ⟨h b, _, rfl⟩

theorem mapped_last (h : ν → γ) (t : SigTrace ν) :
    (items ((t.mapped h).map (·.2))).getLast? = t.last.map h := by
  have : (t.mapped h).map (·.2) = (t.map (·.2)).map (Poll.mapItem h) := by
    simp [SigTrace.mapped, Function.comp_def]
  rw [this, items_mapItem, List.getLast?_map]
  rfl

/-- An input of a stage is at rest. -/
theorem Src.rest {γ : Type} {src : Src (Option γ)} (hf : src.fused) {o : Option Waker}
    (h : src.ended ∨ ∃ x, o = some x ∧ src.armed x) : Rest o src.hist := by
  rcases h with h | h
  · obtain ⟨w, hm⟩ := h
    obtain ⟨pre, post, heq⟩ := List.append_of_mem hm
    have := hf pre w post heq
    subst this
    exact .inr ⟨w, by simp [heq]⟩
  · exact .inl h

/-! ## Forward moves -/

theorem pollLoop_keeps {w : Waker} {body : σ → α → Ctl σ ρ} (P : α → Prop) (J : σ → Prop)
    (hb : ∀ s a s', J s → P a → body s a = .cont s' → J s')
    (hr : ∀ s a s' r, J s → P a → body s a = .ret s' r → J s')
    (todo : List (Poll (Option α))) (hist : List (Waker × Poll (Option α))) (s : σ) {st : Stop ρ}
    {s' : σ} {src' : Src (Option α)} (e : pollLoop w body todo hist s = (st, s', src'))
    (h : ∀ a ∈ items todo, P a) (hJ : J s) :
    (∀ a ∈ items src'.todo, P a) ∧ J s' := by
  induction todo generalizing hist s with
  | nil => simp only [pollLoop] at e; cases e; exact ⟨by simp, hJ⟩
  | cons y todo ih =>
    match y with
    | .pending => simp only [pollLoop] at e; cases e; exact ⟨h, hJ⟩
    | .ready none => simp only [pollLoop] at e; cases e; exact ⟨h, hJ⟩
    | .ready (some a) =>
      simp only [pollLoop] at e
      have ha := h a (by simp)
      have ht : ∀ b ∈ items todo, P b := fun b hb => h b (by simp [hb])
      cases hbd : body s a with
      | cont s1 => rw [hbd] at e; exact ih _ _ e ht (hb _ _ _ hJ ha hbd)
      | ret s1 r => rw [hbd] at e; cases e; exact ⟨ht, hr _ _ _ _ hJ ha hbd⟩
      | panic => rw [hbd] at e; cases e; exact ⟨ht, hJ⟩

theorem Inp.loop_keeps {w : Waker} {body : σ → α → Ctl σ ρ} (P : α → Prop) (J : σ → Prop)
    (hb : ∀ s a s', J s → P a → body s a = .cont s' → J s')
    (hr : ∀ s a s' r, J s → P a → body s a = .ret s' r → J s')
    {i i' : Inp (Option α)} {s s' : σ} {st : Stop ρ}
    (e : i.loop w body s = (st, s', i')) (h : ∀ a ∈ items i.src.todo, P a) (hJ : J s) :
    (∀ a ∈ items i'.src.todo, P a) ∧ J s' := by
  unfold Inp.loop at e
  by_cases ha : i.alive = true
  · simp only [ha, ↓reduceIte] at e
    obtain ⟨q, s1, src', hq⟩ : ∃ q s1 src', i.src.loop w body s = (q, s1, src') := ⟨_, _, _, rfl⟩
    have := pollLoop_keeps P J hb hr _ _ _ hq h hJ
    rw [hq] at e
    cases q <;> cases e <;> exact this
  · simp only [ha] at e
    cases e
    exact ⟨h, hJ⟩

theorem fwd_snoc {a : List (VecDiff α)} (ha : ∀ d ∈ a, Fwd d) {e : VecDiff α} (he : Fwd e) :
    ∀ d ∈ a ++ [e], Fwd d := fwd_append ha (by simpa using he)

theorem mapSignalBody_fwd {g : α → List (Poll (Option β))} {w : Waker}
    {s s' : List (MState α β) × List (VecDiff β)} {d : VecDiff α} (hs : ∀ e ∈ s.2, Fwd e)
    (hd : Fwd d) (h : mapSignalBody g w s d = .cont s') : ∀ e ∈ s'.2, Fwd e := by
  obtain ⟨signals, np⟩ := s
  simp only at hs
  cases d with
  | move i j =>
    simp only [mapSignalBody] at h
    repeat' split at h
    all_goals first | (cases h; done) | skip
    cases h
    exact fwd_snoc hs (by simpa [Fwd] using hd)
  | _ =>
    simp only [mapSignalBody] at h
    repeat' split at h
    all_goals first | (cases h; done) | (cases h; exact fwd_snoc hs (by simp [Fwd]))

theorem pollSignals_fwd {w : Waker} {n : Nat} {np np' : List (VecDiff β)}
    {ss ss' : List (MState α β)} {b : Bool} (hn : ∀ e ∈ np, Fwd e)
    (h : pollSignals w n np ss = (b, np', ss')) : ∀ e ∈ np', Fwd e := by
  induction ss generalizing n np b ss' with
  | nil => cases h; exact hn
  | cons s ss ih =>
    simp only [pollSignals] at h
    split at h
    · cases h; exact ih (fwd_snoc hn (by simp [Fwd])) rfl
    · cases h; exact ih hn rfl
    · cases h; exact ih hn rfl
    · cases h; exact ih hn rfl

theorem mapSignal_fwd {g : α → List (Poll (Option β))} {u : Trace α} {t : Trace β}
    {s : VMapSignal α β}
    (h : run (VMapSignal.poll g) t.wakers (VMapSignal.init u.answers) = some (t.answers, s))
    (hf : ∀ d ∈ u.diffs, Fwd d) : ∀ d ∈ t.diffs, Fwd d := by
  refine run_items (fun s => (∀ d ∈ items s.signal.src.todo, Fwd d) ∧ ∀ d ∈ s.pending, Fwd d) Fwd ?_ h
    ⟨hf, by simp [VMapSignal.init]⟩
  rintro w ⟨sig, signals, pend⟩ r s' ⟨h1, h2⟩ hp
  unfold VMapSignal.poll at hp
  cases pend with
  | cons c rest =>
    cases hp
    refine ⟨⟨h1, fun d hd => h2 d (by simp only [List.mem_cons]; exact .inr hd)⟩, fun d hd => ?_⟩
    cases hd
    exact h2 _ (by simp)
  | nil =>
    simp only at hp
    obtain ⟨st, ⟨sg, np⟩, i', e⟩ : ∃ st q i', sig.loop w (mapSignalBody g w) (signals, []) =
      (st, q, i') := ⟨_, _, _, rfl⟩
    obtain ⟨k1, k2⟩ := Inp.loop_keeps Fwd (fun q => ∀ e ∈ q.2, Fwd e)
      (fun s a s' hs ha hb => mapSignalBody_fwd hs ha hb) (fun _ _ _ r => r.elim) e h1 (by simp)
    rw [e] at hp
    have fin : ∀ b, VMapSignal.finish w b i' sg np = (r, s') →
        ((∀ d ∈ items s'.signal.src.todo, Fwd d) ∧ ∀ d ∈ s'.pending, Fwd d) ∧
          ∀ d, r = .ready (some d) → Fwd d := by
      intro b hb
      obtain ⟨c, np', ss, hq⟩ : ∃ c np' ss, pollSignals w 0 np sg = (c, np', ss) := ⟨_, _, _, rfl⟩
      have := pollSignals_fwd k2 hq
      unfold VMapSignal.finish at hb
      rw [hq] at hb
      cases np' with
      | cons d rest =>
        cases hb
        exact ⟨⟨k1, fun d hd => this d (by simp only [List.mem_cons]; exact .inr hd)⟩,
          fun d hd => by cases hd; exact this _ (by simp)⟩
      | nil =>
        simp only at hb
        split at hb <;> cases hb <;> exact ⟨⟨k1, by simp⟩, by simp⟩
    cases st with
    | panic => cases hp
    | ret q => exact q.elim
    | ended => exact fin true (Option.some.inj hp)
    | pending => exact fin false (Option.some.inj hp)

theorem fcFindIndex_mono {ss : List (FCState α)} {i j a b : Nat} (h : i ≤ j)
    (h1 : fcFindIndex ss i = some a) (h2 : fcFindIndex ss j = some b) : a ≤ b := by
  unfold fcFindIndex at h1 h2
  split at h1 <;> simp at h1
  split at h2 <;> simp at h2
  subst h1 h2
  have : ss.take i = (ss.take j).take i := by rw [List.take_take]; congr 1; omega
  rw [this]
  exact ((List.take_sublist _ _).filter _).length_le

theorem filterSignalBody_fwd {g : α → List (Poll (Option Bool))} {w : Waker}
    {s s' : List (FCState α) × List (VecDiff α)} {d : VecDiff α} (hs : ∀ e ∈ s.2, Fwd e)
    (hd : Fwd d) (h : filterSignalBody g w s d = .cont s') : ∀ e ∈ s'.2, Fwd e := by
  obtain ⟨signals, np⟩ := s
  simp only at hs
  cases d with
  | move i j =>
    simp only [filterSignalBody] at h
    repeat' split at h
    all_goals first | (cases h; done) | skip
    · rename_i e1 e2
      cases h
      refine fwd_snoc hs ?_
      intro a b he
      cases he
      exact fcFindIndex_mono (hd i j rfl) e1 e2
    · cases h; exact hs
  | _ =>
    simp only [filterSignalBody] at h
    repeat' split at h
    all_goals first
      | (cases h; done)
      | (cases h; exact hs)
      | (cases h; exact fwd_snoc hs (by simp [Fwd]))

theorem drainSignals_fwd {w : Waker} {n : Nat} {np np' : List (VecDiff α)}
    {ss ss' : List (FCState α)} {b : Bool} (hn : ∀ e ∈ np, Fwd e)
    (h : drainSignals w n np ss = (b, np', ss')) : ∀ e ∈ np', Fwd e := by
  induction ss generalizing n np b ss' with
  | nil => cases h; exact hn
  | cons s ss ih =>
    simp only [drainSignals] at h
    cases h
    refine ih ?_ rfl
    repeat' split
    · exact fwd_snoc hn (by simp [Fwd])
    · exact fwd_snoc hn (by simp [Fwd])
    · exact hn

theorem filterSignal_fwd {g : α → List (Poll (Option Bool))} {u t : Trace α}
    {s : VFilterSignal α}
    (h : run (VFilterSignal.poll g) t.wakers (VFilterSignal.init u.answers) = some (t.answers, s))
    (hf : ∀ d ∈ u.diffs, Fwd d) : ∀ d ∈ t.diffs, Fwd d := by
  refine run_items (fun s => (∀ d ∈ items s.signal.src.todo, Fwd d) ∧ ∀ d ∈ s.pending, Fwd d) Fwd ?_ h
    ⟨hf, by simp [VFilterSignal.init]⟩
  rintro w ⟨sig, signals, pend⟩ r s' ⟨h1, h2⟩ hp
  unfold VFilterSignal.poll at hp
  cases pend with
  | cons c rest =>
    cases hp
    refine ⟨⟨h1, fun d hd => h2 d (by simp only [List.mem_cons]; exact .inr hd)⟩, fun d hd => ?_⟩
    cases hd
    exact h2 _ (by simp)
  | nil =>
    simp only at hp
    obtain ⟨st, ⟨sg, np⟩, i', e⟩ : ∃ st q i', sig.loop w (filterSignalBody g w) (signals, []) =
      (st, q, i') := ⟨_, _, _, rfl⟩
    obtain ⟨k1, k2⟩ := Inp.loop_keeps Fwd (fun q => ∀ e ∈ q.2, Fwd e)
      (fun s a s' hs ha hb => filterSignalBody_fwd hs ha hb) (fun _ _ _ r => r.elim) e h1 (by simp)
    rw [e] at hp
    have fin : ∀ b, VFilterSignal.finish w b i' sg np = (r, s') →
        ((∀ d ∈ items s'.signal.src.todo, Fwd d) ∧ ∀ d ∈ s'.pending, Fwd d) ∧
          ∀ d, r = .ready (some d) → Fwd d := by
      intro b hb
      obtain ⟨c, np', ss, hq⟩ : ∃ c np' ss, drainSignals w 0 np sg = (c, np', ss) := ⟨_, _, _, rfl⟩
      have := drainSignals_fwd k2 hq
      unfold VFilterSignal.finish at hb
      rw [hq] at hb
      cases np' with
      | cons d rest =>
        cases hb
        exact ⟨⟨k1, fun d hd => this d (by simp only [List.mem_cons]; exact .inr hd)⟩,
          fun d hd => by cases hd; exact this _ (by simp)⟩
      | nil =>
        simp only at hb
        split at hb <;> cases hb <;> exact ⟨⟨k1, by simp⟩, by simp⟩
    cases st with
    | panic => cases hp
    | ret q => exact q.elim
    | ended => exact fin true (Option.some.inj hp)
    | pending => exact fin false (Option.some.inj hp)

/-! ## The two stages -/

/-- What is known about the signals of the elements: each starts with a value, and at rest the last
value of a held signal is the present one. -/
structure Inner.Good (inn : Inner ν) (x : Option Waker) (cur : Nat → ν) : Prop where
  rest : ∀ n k, inn.held n k → Rest x (inn.trace n k) → (inn.trace n k).last = some (cur n)

/-- The signals of the elements start with a value. -/
def Inner.Starts (inn : Inner ν) : Prop :=
  ∀ n k, inn.trace n k = [] ∨ ∃ b, (inn.trace n k).head?.map (·.2) = some (.ready (some b))

theorem Rest.cases {o : Option Waker} {t : Trace α} (h : Rest o t) :
    (∃ x, o = some x ∧ t.wakers.getLast? = some x ∧ t.answers.getLast? = some .pending) ∨
    .ready none ∈ t.answers := by
  rcases h with ⟨x, ho, h⟩ | ⟨y, h⟩
  · exact .inl ⟨x, ho, by simp [Trace.wakers_last, h], by simp [Trace.answers_last, h]⟩
  · exact .inr (List.mem_of_getLast? (by rw [Trace.answers_last, h]; rfl))

theorem mapSignal_track [Inhabited ν] {name : β → Nat} {h : ν → γ} {inn : Inner ν}
    (hi : inn.Starts) {u : Trace (β × Nat)} {t : Trace γ} {s : VMapSignal (β × Nat) γ}
    (h1 : run (VMapSignal.poll fun q => (inn.trace (name q.1) q.2).script h) t.wakers
      (VMapSignal.init u.answers) = some (t.answers, s))
    (h2 : s.signal.src.hist = u)
    (h3 : ∀ x ∈ s.signals, x.sig.src.hist = (inn.trace (name x.tag.1) x.tag.2).mapped h ∧
      inn.held (name x.tag.1) x.tag.2)
    {xs : List β} (hx : replay (Trace.bare u).diffs [] = some xs) :
    ∃ zs, replay t.diffs [] = some zs ∧ ∀ x, Rest x t → Rest x (Trace.bare u) ∧
      ∀ cur, inn.Good x cur → zs = xs.map fun a => h (cur (name a)) := by
  rw [bare_diffs] at hx
  obtain ⟨ls, g1, g2⟩ := replay_lift Prod.fst (xs := []) hx
  obtain ⟨outs, s', zs, k1, k2, k3, -, k5⟩ := C12_map_signal
    (fun q : β × Nat => (inn.trace (name q.1) q.2).script h)
    (fun q => script_eager (hi (name q.1) q.2)) u.answers ⟨ls, g1⟩ t.wakers
  rw [h1] at k1
  cases k1
  obtain ⟨⟨f1, f2⟩, f3, f4⟩ := C57_map_signal _ _ _ _ _ h1
  have htags : s.signals.map (·.tag) = ls := by
    have : s.signal.src.got = u.diffs := by rw [Src.got, h2]; rfl
    rw [this, g1] at k3
    exact (Option.some.inj k3).symm
  refine ⟨zs, k2, fun x hr => ?_⟩
  have hset : (s.signal.src.ended ∨ ∃ w, x = some w ∧ s.signal.src.armed w) ∧
      ∀ y ∈ s.signals, y.sig.src.ended ∨ ∃ w, x = some w ∧ y.sig.src.armed w := by
    rcases hr.cases with ⟨w, ho, c1, c2⟩ | c
    · exact ⟨(f4 w c1 c2).1.imp id fun h => ⟨w, ho, h⟩,
        fun y hy => ((f4 w c1 c2).2.1 y hy).imp id fun h => ⟨w, ho, h⟩⟩
    · exact ⟨.inl (f3 c).2.1, fun y hy => .inl ((f3 c).2.2 y hy)⟩
  refine ⟨(rest_map _ x u).2 (by rw [← h2]; exact Src.rest f1 hset.1), fun cur hg => ?_⟩
  have hz := k5 (by
    rcases hr.cases with ⟨w, -, -, c2⟩ | c
    · exact .inl c2
    · exact .inr c)
  have : zs.map some = (xs.map fun a => h (cur (name a))).map some := by
    rw [← hz, ← g2, ← htags]
    simp only [List.map_map]
    refine List.map_congr_left fun y hy => ?_
    obtain ⟨q1, q2⟩ := h3 y hy
    have hr' : Rest x (inn.trace (name y.tag.1) y.tag.2) := by
      rw [← rest_map h]
      have := Src.rest (f2 y hy) (hset.2 y hy)
      rw [q1] at this
      exact this
    simp only [Function.comp_apply]
    rw [Src.got, q1, mapped_last, hg.rest _ _ q2 hr']
    rfl
  exact (List.map_inj_right fun _ _ e => Option.some.inj e).1 this

theorem filterSignal_track [Inhabited ν] {name : β → Nat} {h : ν → Bool} {inn : Inner ν}
    (hi : inn.Starts) {u v : Trace (β × Nat)} {s : VFilterSignal (β × Nat)}
    (h1 : run (VFilterSignal.poll fun q => (inn.trace (name q.1) q.2).script h) v.wakers
      (VFilterSignal.init u.answers) = some (v.answers, s))
    (h2 : s.signal.src.hist = u)
    (h3 : ∀ x ∈ s.signals, x.signal.src.hist = (inn.trace (name x.value.1) x.value.2).mapped h ∧
      inn.held (name x.value.1) x.value.2)
    {xs : List β} (hx : replay (Trace.bare u).diffs [] = some xs)
    (hf : ∀ d ∈ (Trace.bare u).diffs, Fwd d) :
    ∃ zs, replay (Trace.bare v).diffs [] = some zs ∧ ∀ x, Rest x (Trace.bare v) →
      Rest x (Trace.bare u) ∧ ∀ cur, inn.Good x cur → zs = xs.filter fun a => h (cur (name a)) := by
  rw [bare_diffs] at hx
  obtain ⟨ls, g1, g2⟩ := replay_lift Prod.fst (xs := []) hx
  obtain ⟨outs, s', zs, k1, k2, k3, -, k5⟩ := C13_filter_signal_forward_partial
    (fun q : β × Nat => (inn.trace (name q.1) q.2).script h)
    (fun q => script_eager (hi (name q.1) q.2)) u.answers ⟨ls, g1⟩
    (fun i j hm => bare_fwd.1 hf _ hm i j rfl) v.wakers
  rw [h1] at k1
  cases k1
  obtain ⟨⟨f1, f2⟩, f3, f4⟩ := C57_filter_signal _ _ _ _ _ h1
  have htags : s.signals.map (·.value) = ls := by
    have : s.signal.src.got = u.diffs := by rw [Src.got, h2]; rfl
    rw [this, g1] at k3
    exact (Option.some.inj k3).symm
  refine ⟨zs.map Prod.fst, ?_, fun x hr => ?_⟩
  · rw [bare_diffs]
    exact replay_map Prod.fst (xs := []) k2
  replace hr : Rest x v := (rest_map _ x v).1 hr
  have hset : (s.signal.src.ended ∨ ∃ w, x = some w ∧ s.signal.src.armed w) ∧
      ∀ y ∈ s.signals, y.signal.src.ended ∨ ∃ w, x = some w ∧ y.signal.src.armed w := by
    rcases hr.cases with ⟨w, ho, c1, c2⟩ | c
    · exact ⟨(f4 w c1 c2).1.imp id fun h => ⟨w, ho, h⟩,
        fun y hy => ((f4 w c1 c2).2.1 y hy).imp id fun h => ⟨w, ho, h⟩⟩
    · exact ⟨.inl (f3 c).2.1, fun y hy => .inl ((f3 c).2.2 y hy)⟩
  refine ⟨(rest_map _ x u).2 (by rw [← h2]; exact Src.rest f1 hset.1), fun cur hg => ?_⟩
  have hz := k5 (by
    rcases hr.cases with ⟨w, -, -, c2⟩ | c
    · exact .inl c2
    · exact .inr c)
  have hb : ∀ y ∈ s.signals,
      (y.signal.src.got.getLast? == some true) = h (cur (name y.value.1)) := by
    intro y hy
    obtain ⟨q1, q2⟩ := h3 y hy
    have hr' : Rest x (inn.trace (name y.value.1) y.value.2) := by
      rw [← rest_map h]
      have := Src.rest (f2 y hy) (hset.2 y hy)
      rw [q1] at this
      exact this
    rw [Src.got, q1, mapped_last, hg.rest _ _ q2 hr', Option.map_some]
    cases h (cur (name y.value.1)) <;> rfl
  rw [hz, List.filter_congr hb, ← g2, ← htags]
  simp only [List.map_map, List.filter_map]
  rfl

/-! ## The whole pipeline -/

theorem straight_rest {p : Pipe α β} {u : Trace α} {t : Trace β} (hs : p.Straight)
    (he : p.Exec (fun _ => u) t) {o : Option Waker} (h : Rest o t) : Rest o u :=
  h.imp (fun ⟨x, ho, h⟩ => ⟨x, ho, (pipe_last hs he).1 x h⟩) (pipe_last hs he).2

theorem Rest.atRest {o : Option Waker} {t : Trace α} (h : Rest o t) : AtRest t := by
  rcases h with ⟨x, -, h⟩ | ⟨y, h⟩
  · exact ⟨x, _, h, .inl rfl⟩
  · exact ⟨y, _, h, .inr rfl⟩

theorem flow_track [Inhabited ν] {src : Trace α} {inn : Inner ν} (hi : inn.Starts)
    {xs : List α} (hx : replay src.diffs [] = some xs) (f : Flow ν α β) (hl : f.Lawful)
    (hf : f.Filters → ∀ d ∈ src.diffs, Fwd d) {t : Trace β} (he : f.Exec src inn t) :
    ∃ zs, replay t.diffs [] = some zs ∧ ((∀ d ∈ src.diffs, Fwd d) → ∀ d ∈ t.diffs, Fwd d) ∧
      ∀ x, Rest x t → Rest x src ∧ ∀ cur, inn.Good x cur → f.Spec xs cur zs := by
  induction f with
  | source => cases he; exact ⟨xs, hx, fun h => h, fun x h => ⟨h, fun _ _ => rfl⟩⟩
  | pipe p f ih =>
    obtain ⟨u, h1, h2⟩ := he
    obtain ⟨ys, g1, g2, g3⟩ := ih hl.2.2 (fun h => hf (.inr h)) h1
    obtain ⟨zs, k1, k2⟩ := straight_track (c := fun _ => ys) hl.1 hl.2.1 h2 (fun _ _ => g1)
      (fun hF _ _ => g2 (hf (.inl hF)))
    refine ⟨zs, k1, fun hF => (pipe_fwd hl.2.1 h2 (fun _ _ => ⟨ys, g1⟩) (fun _ _ => g2 hF)).1,
      fun x hr => ?_⟩
    obtain ⟨m1, m2⟩ := g3 x (straight_rest hl.1 h2 hr)
    exact ⟨m1, fun cur hg => ⟨ys, m2 cur hg, k2 hr.atRest.calm⟩⟩
  | mapSignal name h f ih =>
    obtain ⟨u, h1, s, h2, h3, h4⟩ := he
    obtain ⟨ys, g1, g2, g3⟩ := ih hl hf h1
    obtain ⟨zs, k1, k2⟩ := mapSignal_track hi h2 h3 h4 g1
    refine ⟨zs, k1, fun hF => mapSignal_fwd h2 (bare_fwd.1 (g2 hF)), fun x hr => ?_⟩
    obtain ⟨m1, m2⟩ := k2 x hr
    obtain ⟨n1, n2⟩ := g3 x m1
    exact ⟨n1, fun cur hg => ⟨ys, n2 cur hg, m2 cur hg⟩⟩
  | filterSignal name h f ih =>
    obtain ⟨u, v, h1, rfl, s, h2, h3, h4⟩ := he
    have hF := hf trivial
    obtain ⟨ys, g1, g2, g3⟩ := ih hl (fun _ => hF) h1
    obtain ⟨zs, k1, k2⟩ := filterSignal_track hi h2 h3 h4 g1 (g2 hF)
    refine ⟨zs, k1, fun _ => bare_fwd.2 (filterSignal_fwd h2 (bare_fwd.1 (g2 hF))), fun x hr => ?_⟩
    obtain ⟨m1, m2⟩ := k2 x hr
    obtain ⟨n1, n2⟩ := g3 x m1
    exact ⟨n1, fun cur hg => ⟨ys, n2 cur hg, m2 cur hg⟩⟩

end Verif

/-! ## Signals of a `Mutable` -/

namespace Verif.Mut

variable {α : Type}

theorem runs_length {m m' : World α} {es : List (Ev α)} {os : List (Obs α)}
    (h : m.runs es = some (os, m')) : os.length = es.length := by
  induction es generalizing m os with
  | nil => cases h; rfl
  | cons e es ih =>
    simp only [World.runs] at h
    cases hs : m.step e with
    | none => simp [hs] at h
    | some q =>
      obtain ⟨o, m1⟩ := q
      simp only [hs] at h
      cases hr : m1.runs es with
      | none => simp [hr] at h
      | some q => simp only [hr] at h; cases h; simp [ih hr]

theorem polled_append (i : Nat) {es es' : List (Ev α)} {os os' : List (Obs α)}
    (h : os.length = es.length) : polled i (es ++ es') (os ++ os') = polled i es os ++ polled i es' os' := by
  induction es generalizing os with
  | nil => cases os with
    | nil => rfl
    | cons => simp at h
  | cons e es ih =>
    cases os with
    | nil => simp at h
    | cons o os =>
      have := ih (os := os) (by simpa using h)
      cases e with
      | poll j w =>
        cases o with
        | poll r => simp only [List.cons_append, polled, this]; split <;> rfl
        | unit => simpa [polled] using this
        | value a => simpa [polled] using this
      | _ => simpa [polled] using this

theorem polled_none (i : Nat) {es : List (Ev α)} {os : List (Obs α)} (h : ∀ w, .poll i w ∉ es) :
    polled i es os = [] := by
  induction es generalizing os with
  | nil => unfold polled; rfl
  | cons e es ih =>
    have h' : ∀ w, .poll i w ∉ es := fun w hw => h w (by simp [hw])
    cases os with
    | nil => cases e <;> simp [polled]
    | cons o os =>
      cases e with
      | poll j w =>
        cases o with
        | poll r =>
          have : j ≠ i := fun hj => h w (by simp [hj])
          simp [polled, this, ih h']
        | unit => simpa [polled] using ih h'
        | value a => simpa [polled] using ih h'
      | _ => simpa [polled] using ih h'

theorem not_notifies_value {e : Ev α} {a : α} (h : e.notifies a = false) : e.newValue a = a := by
  cases e with
  | setIf b f => simp only [Ev.notifies] at h; simp [Ev.newValue, h]
  | lockMut us => exact usesValue_of_not_mut us h a
  | _ => first | rfl | (simp [Ev.notifies] at h)

/-- The first poll of a signal gives a value; if there was no notifying write since the last poll,
the value last produced is the present one. -/
theorem polled_value {a : α} {es : List (Ev α)} {os : List (Obs α)} {m : World α} (i : Nat)
    (h : (World.new a).runs es = some (os, m)) :
    (polled i es os = [] ∨ ∃ b, (polled i es os).head?.map (·.2) = some (.ready (some b))) ∧
    (¬ Unread a i es → (polled i es os).last = some (valueAfter a es)) := by
  induction es using snocRec generalizing os m with
  | nil =>
    cases h
    exact ⟨.inl rfl, fun hu => absurd (.inl fun _ => by simp) hu⟩
  | snoc es e ih =>
    obtain ⟨os1, o, m1, h1, h2, rfl⟩ := runs_snoc h
    have hlen := runs_length h1
    obtain ⟨g1, g2⟩ := ih h1
    rw [polled_append i hlen]
    have other : (∀ w, e ≠ .poll i w) → polled i [e] [o] = [] := fun hn =>
      polled_none i fun w hw => hn w (by simpa [eq_comm] using hw)
    by_cases hp : ∃ w, e = .poll i w
    · obtain ⟨w, rfl⟩ := hp
      obtain ⟨r, k1, k2, k3, k4⟩ := C31_C32_C33_poll a es i w _ m h
      have ho : o = .poll r := by simpa using k1
      subst ho
      have hv : valueAfter a (es ++ [.poll i w]) = valueAfter a es := by
        simp [valueAfter, Ev.newValue]
      have hone : polled i [Ev.poll (α := α) i w] [.poll r] = [(w, r)] := by simp [polled]
      rw [hone, hv]
      by_cases hu : Unread a i es
      · rw [k2 hu]
        refine ⟨.inr ?_, fun _ => by simp [SigTrace.last, items_append]⟩
        rcases g1 with g1 | ⟨b, g1⟩
        · exact ⟨_, by rw [g1]; rfl⟩
        · refine ⟨b, ?_⟩
          cases hq : polled i es os1 with
          | nil => rw [hq] at g1; simp at g1
          | cons q l => rw [hq] at g1; exact g1
      · have hr : items [r] = [] := by
          by_cases h0 : handlesAfter 1 es = 0
          · rw [k3 hu h0]; rfl
          · rw [k4 hu h0]; rfl
        have hl := g2 hu
        refine ⟨.inr ?_, fun _ => ?_⟩
        · rcases g1 with g1 | ⟨b, g1⟩
          · rw [g1] at hl; simp [SigTrace.last] at hl
          · refine ⟨b, ?_⟩
            cases hq : polled i es os1 with
            | nil => rw [hq] at g1; simp at g1
            | cons q l => rw [hq] at g1; exact g1
        · simp only [SigTrace.last, List.map_append, items_append, List.map_cons, List.map_nil, hr,
            List.append_nil]
          exact hl
    · have hn : ∀ w, e ≠ .poll i w := fun w hw => hp ⟨w, hw⟩
      rw [other hn, List.append_nil]
      refine ⟨g1, fun hu => ?_⟩
      rw [unread_snoc] at hu
      have h3 : e.notifies (valueAfter a es) = false := by
        cases hb : e.notifies (valueAfter a es) with
        | false => rfl
        | true => exact absurd ⟨hn, .inl hb⟩ hu
      have h4 : ¬ Unread a i es := fun h5 => hu ⟨hn, .inr h5⟩
      rw [g2 h4]
      have : valueAfter a (es ++ [e]) = e.newValue (valueAfter a es) := by simp [valueAfter]
      rw [this, not_notifies_value h3]

/-- The last poll of a signal splits the history. -/
theorem polled_split {m m' : World α} {es : List (Ev α)} {os : List (Obs α)} {i : Nat}
    (h : m.runs es = some (os, m')) {x : Waker} {r : Poll (Option α)}
    (hl : (polled i es os).getLast? = some (x, r)) :
    ∃ es1 es2 os1 os2 m1, es = es1 ++ [.poll i x] ++ es2 ∧ os = os1 ++ os2 ∧
      m.runs (es1 ++ [.poll i x]) = some (os1, m1) ∧ os1.getLast? = some (.poll r) ∧
      m1.runs es2 = some (os2, m') ∧ ∀ w, .poll i w ∉ es2 := by
  induction es using snocRec generalizing os m' with
  | nil => cases h; simp [polled] at hl
  | snoc es e ih =>
    obtain ⟨os1, o, m1, h1, h2, rfl⟩ := runs_snoc h
    have hlen := runs_length h1
    rw [polled_append i hlen] at hl
    by_cases hp : ∃ w, e = .poll i w
    · obtain ⟨w, rfl⟩ := hp
      have ho : ∃ q, o = .poll q := by
        simp only [World.step] at h2
        split at h2
        · cases h2; exact ⟨_, rfl⟩
        · cases h2
      obtain ⟨q, rfl⟩ := ho
      have hone : polled i [Ev.poll (α := α) i w] [.poll q] = [(w, q)] := by simp [polled]
      rw [hone] at hl
      simp at hl
      obtain ⟨rfl, rfl⟩ := hl
      exact ⟨es, [], _, [], m', by simp, by simp, h, by simp, rfl, by simp⟩
    · have hn : ∀ w, e ≠ .poll i w := fun w hw => hp ⟨w, hw⟩
      have : polled i [e] [o] = [] := polled_none i fun w hw => hn w (by simpa [eq_comm] using hw)
      rw [this, List.append_nil] at hl
      obtain ⟨a1, a2, b1, b2, m2, rfl, rfl, k1, k2, k3, k4⟩ := ih h1 hl
      refine ⟨a1, a2 ++ [e], b1, b2 ++ [o], m2, by simp, by simp, k1, k2,
        runs_append_of k3 (by simp [World.runs, h2]), ?_⟩
      intro w hw
      rcases List.mem_append.1 hw with hw | hw
      · exact k4 w hw
      · exact hn w (by simpa [eq_comm] using hw)

theorem handles_dead {m m' : World α} {es : List (Ev α)} {os : List (Obs α)}
    (h : m.runs es = some (os, m')) (h0 : m.handles = 0) (e : Ev α) (he : e ∈ es) (a : α) :
    e.notifies a = false := by
  induction es generalizing m os with
  | nil => simp at he
  | cons e1 es ih =>
    simp only [World.runs] at h
    cases hs : m.step e1 with
    | none => simp [hs] at h
    | some q =>
      obtain ⟨o, m1⟩ := q
      simp only [hs] at h
      have h1 : m1.handles = 0 ∧ e1.notifies a = false := by
        cases e1 with
        | get => cases hs; exact ⟨h0, rfl⟩
        | signal =>
          cases hs
          refine ⟨?_, rfl⟩
          unfold World.signalState
          split <;> exact h0
        | poll i w =>
          simp only [World.step] at hs
          split at hs
          · cases hs
            refine ⟨?_, rfl⟩
            unfold World.pollChange
            split
            · exact h0
            · split <;> exact h0
          · cases hs
        | dropSignal i =>
          simp only [World.step] at hs
          split at hs
          · cases hs; exact ⟨h0, rfl⟩
          · cases hs
        | _ => simp [World.step, h0] at hs
      rcases List.mem_cons.1 he with rfl | he
      · exact h1.2
      · cases hr : m1.runs es with
        | none => simp [hr] at h
        | some q => obtain ⟨os2, m2⟩ := q; simp only [hr] at h; cases h; exact ih hr h1.1 he

theorem next_length (s : Spec α) (e : Ev α) : s.subs.length ≤ (s.next e).subs.length := by
  cases e <;> simp only [Spec.next] <;> (repeat' split) <;> simp

theorem after_length (s : Spec α) (es : List (Ev α)) : s.subs.length ≤ (s.after es).subs.length := by
  induction es generalizing s with
  | nil => exact Nat.le_refl _
  | cons e es ih => exact Nat.le_trans (next_length s e) (ih _)

theorem not_dropped {s : Spec α} {es : List (Ev α)} {i : Nat} (hi : i < s.subs.length) {x : Sub}
    (h : (s.after es).subs[i]? = some x) (hd : x.dropped = false) : .dropSignal i ∉ es := by
  induction es using snocRec generalizing x with
  | nil => simp
  | snoc es e ih =>
    have hs : s.after (es ++ [e]) = (s.after es).next e := by simp [Spec.after]
    rw [hs] at h
    rcases next_sub h hd with ⟨g, -⟩ | ⟨y, g1, g2, g3, -⟩
    · have := after_length s es; omega
    · intro hm
      rcases List.mem_append.1 hm with hm | hm
      · exact ih g1 g2 hm
      · exact g3 (by simpa [eq_comm] using hm)

theorem polled_rest {a : α} {es : List (Ev α)} {os : List (Obs α)} {m : World α} {i : Nat}
    (h : (World.new a).runs es = some (os, m)) (hk : Kept m i es os) {o : Option Waker}
    (hr : Rest o (polled i es os)) :
    (polled i es os).last = some (valueAfter a es) ∨ ∃ x, o = some x ∧ WokenSince a i es m x := by
  rcases hr with ⟨x, ho, hr⟩ | ⟨y, hr⟩
  · have hh : Held m i := hk.elim id fun ⟨y, hk⟩ => by rw [hr] at hk; cases hk
    obtain ⟨es1, es2, os1, os2, m1, rfl, rfl, k1, k2, k3, k4⟩ := polled_split h hr
    by_cases hu : Unread a i (es1 ++ [.poll i x] ++ es2)
    · right
      rcases hu with hu | ⟨f1, e, f2, g1, g2, g3⟩
      · exact absurd (by simp) (hu x)
      · -- the notifying event is after the poll
        have hsplit : ∃ es3, es2 = es3 ++ e :: f2 ∧ f1 = es1 ++ [.poll i x] ++ es3 := by
          rcases List.append_eq_append_iff.1 g1 with ⟨c, c1, c2⟩ | ⟨c, c1, c2⟩
          · exact ⟨c, c2, c1⟩
          · cases c with
            | nil => exact ⟨[], by simpa using c2.symm, by simpa using c1.symm⟩
            | cons d c =>
              exfalso
              simp only [List.cons_append, List.cons.injEq] at c2
              obtain ⟨rfl, rfl⟩ := c2
              rcases List.eq_nil_or_concat c with rfl | ⟨c', z, rfl⟩
              · have := List.append_inj_right' c1 (by simp)
                simp only [List.cons.injEq, and_true] at this
                subst this
                simp [Ev.notifies] at g2
              · have : [Ev.poll i x] = [z] := List.append_inj_right'
                  (s₁ := es1) (s₂ := f1 ++ e :: c') (by simpa using c1) rfl
                simp only [List.cons.injEq, and_true] at this
                subst this
                exact g3 x (by simp)
        obtain ⟨es3, rfl, rfl⟩ := hsplit
        have s1 := sim_runs_new k1
        have s2 := (s1.runs k3).1
        have hcell : i < ((Spec.new a).after (es1 ++ [.poll i x])).subs.length := by
          obtain ⟨q1, q2, q3, q4, q5, -⟩ := runs_snoc k1
          have q6 := (sim_runs_new q4).cells
          have : i < q3.cells := by
            simp only [World.step] at q5
            split at q5
            · rename_i hc; exact hc.1
            · simp at q5
          have hn := next_length ((Spec.new a).after es1) (.poll i x)
          have : (Spec.new a).after (es1 ++ [.poll i x]) = ((Spec.new a).after es1).next (.poll i x) := by
            simp [Spec.after]
          rw [this]; omega
        obtain ⟨y, hy⟩ : ∃ y, (((Spec.new a).after (es1 ++ [.poll i x])).after (es3 ++ e :: f2)).subs[i]? =
            some y := ⟨_, List.getElem?_eq_getElem (by rw [← s2.cells]; exact hh.1)⟩
        have hyd : y.dropped = false := by simpa [s2.cell i y hy, Sub.cell] using hh.2
        have hnd := not_dropped hcell hy hyd
        obtain ⟨l, l1, l2⟩ := C32_C33_woken a es1 es3 f2 e i x os1 os2 m1 m k1 k2 k3
          (fun w hw => k4 w (by simp [hw])) (fun hw => hnd (by simp [hw])) (.inl g2)
        obtain ⟨q1, q2, q3, q4, q5, -⟩ := runs_snoc k1
        have hw : ∃ l', m1.woken = q3.woken ++ l' := by
          exact ⟨_, ((sim_runs_new q4).step q5).2.2⟩
        obtain ⟨l', hw⟩ := hw
        exact ⟨x, ho, es1, es3 ++ e :: f2, q1, q3, l' ++ l, by simp, k4, q4, by rw [l1, hw, List.append_assoc],
          by simp [l2]⟩
    · exact .inl ((polled_value i h).2 hu)
  · obtain ⟨es1, es2, os1, os2, m1, rfl, rfl, k1, k2, k3, k4⟩ := polled_split h hr
    left
    refine (polled_value i h).2 ?_
    obtain ⟨r, n1, n2, n3, n4⟩ := C31_C32_C33_poll a es1 i y _ m1 k1
    rw [k2] at n1
    cases n1
    have hu1 : ¬ Unread a i es1 := fun hu => by simpa using n2 hu
    have hh0 : handlesAfter 1 es1 = 0 := by
      by_cases h0 : handlesAfter 1 es1 = 0
      · exact h0
      · simpa using n4 hu1 h0
    have hh1 : m1.handles = 0 := by
      rw [(C33_senders a _ os1 m1 k1).2]; simp [handlesAfter, Ev.newHandles] at hh0 ⊢; exact hh0
    have hdead := handles_dead k3 hh1
    clear h k3 k2 hr hk k4
    suffices ∀ l : List (Ev α), (∀ e ∈ l, ∀ a, e.notifies a = false) →
        ¬ Unread a i (es1 ++ [.poll i y] ++ l) from this es2 hdead
    intro l
    induction l using snocRec with
    | nil => intro _ hu; rw [List.append_nil, unread_snoc] at hu; exact hu.1 y rfl
    | snoc l e ih =>
      intro hl hu
      rw [← List.append_assoc, unread_snoc] at hu
      rcases hu.2 with hu | hu
      · rw [hl e (by simp)] at hu; simp at hu
      · exact ih (fun e he => hl e (by simp [he])) hu

end Verif.Mut
