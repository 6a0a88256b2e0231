import Verif.PipeProofs
import Verif.Props.MutableVec

/-!
# Proofs about pipelines: the whole pipeline, and `MutableVec` at its start
-/

namespace Verif

variable {α β : Type}

theorem pipe_fwd {p : Pipe α β} {src : Nat → Trace α} {t : Trace β} (hl : p.Lawful)
    (he : p.Exec src t) (hw : ∀ i, p.Uses i → ∃ xs, replay (src i).diffs [] = some xs)
    (hf : ∀ i, p.Uses i → ∀ d ∈ (src i).diffs, Fwd d) :
    (∀ d ∈ t.diffs, Fwd d) ∧ ∃ zs, replay t.diffs [] = some zs := by
  induction p with
  | source i => cases he; exact ⟨hf i rfl, hw i rfl⟩
  | map f p ih =>
    obtain ⟨u, h1, h2⟩ := he
    obtain ⟨g1, xs, g2⟩ := ih hl h1 hw hf
    exact ⟨map_fwd h2 g1, _, map_track h2 g2⟩
  | filterMap f p ih =>
    obtain ⟨u, h1, h2⟩ := he
    obtain ⟨g1, xs, g2⟩ := ih hl h1 hw hf
    exact ⟨filterMap_fwd h2 g1, _, filterMap_track h2 g2 g1⟩
  | filter f p ih =>
    obtain ⟨u, h1, h2⟩ := he
    obtain ⟨g1, xs, g2⟩ := ih hl h1 hw hf
    exact ⟨filterMap_fwd (filter_link h2) g1, _, filterMap_track (filter_link h2) g2 g1⟩
  | sort S cmp p ih =>
    obtain ⟨u, h1, h2⟩ := he
    obtain ⟨g1, xs, g2⟩ := ih hl.2.2 h1 hw hf
    obtain ⟨zs, g3, -⟩ := sort_track hl.1 hl.2.1 h2 g2
    exact ⟨sort_fwd hl.1 hl.2.1 h2 ⟨xs, g2⟩ g1, zs, g3⟩
  | enumerate p ih =>
    obtain ⟨u, h1, h2⟩ := he
    obtain ⟨g1, xs, g2⟩ := ih hl h1 hw hf
    obtain ⟨zs, g3, -⟩ := enumerate_track h2 g2
    exact ⟨enumerate_fwd h2 g1, zs, g3⟩
  | chain p q ih1 ih2 =>
    obtain ⟨u, v, h1, h2, s, h3, h4, h5⟩ := he
    obtain ⟨g1, xs, g2⟩ := ih1 hl.1 h1 (fun i h => hw i (.inl h)) (fun i h => hf i (.inl h))
    obtain ⟨k1, ys, k2⟩ := ih2 hl.2 h2 (fun i h => hw i (.inr h)) (fun i h => hf i (.inr h))
    obtain ⟨zs, g3, -⟩ := chain_track h3 h4 h5 g2 k2
    exact ⟨chain_fwd h3 g1 k1, zs, g3⟩

/-- Pipelines without `chain`. -/
theorem straight_track {p : Pipe α β} {src : Nat → Trace α} {c : Nat → List α} {t : Trace β}
    (hs : p.Straight) (hl : p.Lawful) (he : p.Exec src t)
    (hw : ∀ i, p.Uses i → replay (src i).diffs [] = some (c i))
    (hf : p.Filters → ∀ i, p.Uses i → ∀ d ∈ (src i).diffs, Fwd d) :
    ∃ zs, replay t.diffs [] = some zs ∧ (Calm t → p.Spec c zs) := by
  induction p with
  | source i => cases he; exact ⟨_, hw i rfl, fun _ => rfl⟩
  | map f p ih =>
    obtain ⟨u, h1, h2⟩ := he
    obtain ⟨xs, g2, g3⟩ := ih hs hl h1 hw hf
    exact ⟨_, map_track h2 g2, fun h => ⟨xs, g3 (map_calm h2 h), rfl⟩⟩
  | filterMap f p ih =>
    obtain ⟨u, h1, h2⟩ := he
    obtain ⟨xs, g2, g3⟩ := ih hs hl h1 hw (fun _ => hf trivial)
    have := (pipe_fwd (p := p) hl h1 (fun i h => ⟨_, hw i h⟩) (hf trivial)).1
    exact ⟨_, filterMap_track h2 g2 this, fun h => ⟨xs, g3 (filterMap_calm h2 h), rfl⟩⟩
  | filter f p ih =>
    obtain ⟨u, h1, h2⟩ := he
    obtain ⟨xs, g2, g3⟩ := ih hs hl h1 hw (fun _ => hf trivial)
    have := (pipe_fwd (p := p) hl h1 (fun i h => ⟨_, hw i h⟩) (hf trivial)).1
    exact ⟨_, filterMap_track (filter_link h2) g2 this,
      fun h => ⟨xs, g3 (filterMap_calm (filter_link h2) h), filterMap_keep f xs⟩⟩
  | sort S cmp p ih =>
    obtain ⟨u, h1, h2⟩ := he
    obtain ⟨xs, g2, g3⟩ := ih hs hl.2.2 h1 hw hf
    obtain ⟨zs, g4, g5⟩ := sort_track hl.1 hl.2.1 h2 g2
    exact ⟨zs, g4, fun h => ⟨xs, g3 (sort_calm h2 h), g5 h⟩⟩
  | enumerate p ih =>
    obtain ⟨u, h1, h2⟩ := he
    obtain ⟨xs, g2, g3⟩ := ih hs hl h1 hw hf
    obtain ⟨zs, g4, g5, g6⟩ := enumerate_track h2 g2
    exact ⟨zs, g4, fun h => ⟨xs, g3 (enumerate_calm h2 h), g5, g6⟩⟩
  | chain p q _ _ => exact hs.elim

theorem pipe_track {p : Pipe α β} {src : Nat → Trace α} {c : Nat → List α} {t : Trace β}
    (hl : p.Lawful) (he : p.Exec src t)
    (hw : ∀ i, p.Uses i → replay (src i).diffs [] = some (c i))
    (hf : p.Filters → ∀ i, p.Uses i → ∀ d ∈ (src i).diffs, Fwd d) :
    ∃ zs, replay t.diffs [] = some zs ∧ (p.Shallow → AtRest t → p.Spec c zs) := by
  induction p with
  | source i => cases he; exact ⟨_, hw i rfl, fun _ _ => rfl⟩
  | map f p ih =>
    obtain ⟨u, h1, h2⟩ := he
    obtain ⟨xs, g2, g3⟩ := ih hl h1 hw hf
    exact ⟨_, map_track h2 g2, fun hs h => ⟨xs, g3 hs (h2.settled (C57_map _ _) h), rfl⟩⟩
  | filterMap f p ih =>
    obtain ⟨u, h1, h2⟩ := he
    obtain ⟨xs, g2, g3⟩ := ih hl h1 hw (fun _ => hf trivial)
    have := (pipe_fwd (p := p) hl h1 (fun i h => ⟨_, hw i h⟩) (hf trivial)).1
    exact ⟨_, filterMap_track h2 g2 this,
      fun hs h => ⟨xs, g3 hs (h2.settled (C57_filter_map _ _) h), rfl⟩⟩
  | filter f p ih =>
    obtain ⟨u, h1, h2⟩ := he
    obtain ⟨xs, g2, g3⟩ := ih hl h1 hw (fun _ => hf trivial)
    have := (pipe_fwd (p := p) hl h1 (fun i h => ⟨_, hw i h⟩) (hf trivial)).1
    exact ⟨_, filterMap_track (filter_link h2) g2 this,
      fun hs h => ⟨xs, g3 hs (h2.settled (C57_filter _ _) h), filterMap_keep f xs⟩⟩
  | sort S cmp p ih =>
    obtain ⟨u, h1, h2⟩ := he
    obtain ⟨xs, g2, g3⟩ := ih hl.2.2 h1 hw hf
    obtain ⟨zs, g4, g5⟩ := sort_track hl.1 hl.2.1 h2 g2
    exact ⟨zs, g4, fun hs h =>
      ⟨xs, g3 hs (h2.settled (C57_sort_by_cloned _ _) h), g5 h.calm⟩⟩
  | enumerate p ih =>
    obtain ⟨u, h1, h2⟩ := he
    obtain ⟨xs, g2, g3⟩ := ih hl h1 hw hf
    obtain ⟨zs, g4, g5, g6⟩ := enumerate_track h2 g2
    exact ⟨zs, g4, fun hs h => ⟨xs, g3 hs (h2.settled C57_enumerate h), g5, g6⟩⟩
  | chain p q ih1 ih2 =>
    obtain ⟨u, v, h1, h2, s, h3, h4, h5⟩ := he
    obtain ⟨xs, g2, -⟩ := ih1 hl.1 h1 (fun i h => hw i (.inl h))
      (fun hF i h => hf (.inl hF) i (.inl h))
    obtain ⟨ys, k2, -⟩ := ih2 hl.2 h2 (fun i h => hw i (.inr h))
      (fun hF i h => hf (.inr hF) i (.inr h))
    obtain ⟨zs, g3, g4⟩ := chain_track h3 h4 h5 g2 k2
    refine ⟨zs, g3, fun hs h => ?_⟩
    obtain ⟨c1, c2, rfl⟩ := g4 h
    obtain ⟨xs', m1, m2⟩ := straight_track hs.1 hl.1 h1 (fun i h => hw i (.inl h))
      (fun hF i h => hf (.inl hF) i (.inl h))
    obtain ⟨ys', n1, n2⟩ := straight_track hs.2 hl.2 h2 (fun i h => hw i (.inr h))
      (fun hF i h => hf (.inr hF) i (.inr h))
    rw [g2] at m1
    rw [k2] at n1
    cases m1
    cases n1
    exact ⟨xs, ys, m2 c1, n2 c2, rfl⟩

theorem pipe_last {p : Pipe α β} {src : Nat → Trace α} {t : Trace β} (hs : p.Straight)
    (he : p.Exec src t) :
    (∀ w, t.getLast? = some (w, .pending) → (src p.head).getLast? = some (w, .pending)) ∧
    ((∃ w, t.getLast? = some (w, .ready none)) →
      ∃ w, (src p.head).getLast? = some (w, .ready none)) := by
  have key : ∀ {γ δ σ : Type} {poll : Waker → σ → Option (Poll (Option (VecDiff δ)) × σ)}
      {init : List (Poll (Option (VecDiff γ))) → σ} {input : σ → Src (Option (VecDiff γ))}
      {u : Trace γ} {t : Trace δ}, StageRel poll init input u t → (∀ x, Polite poll input (init x)) →
      (∃ w, t.getLast? = some (w, .ready none)) → ∃ w, u.getLast? = some (w, .ready none) := by
    rintro γ δ σ poll init input u t ⟨s, h1, h2⟩ hp ⟨w, hw⟩
    have hm : .ready none ∈ t.answers :=
      List.mem_of_getLast? (by rw [Trace.answers_last, hw]; rfl)
    have := hp _ _ _ _ h1
    rw [← h2]
    exact last_of_fused this.1 (this.2.1 hm)
  induction p with
  | source i => cases he; exact ⟨fun _ h => h, fun h => h⟩
  | map f p ih =>
    obtain ⟨u, h1, h2⟩ := he
    obtain ⟨g1, g2⟩ := ih hs h1
    exact ⟨fun w h => g1 w (h2.armed (C57_map _ _) h), fun h => g2 (key h2 (C57_map _ _) h)⟩
  | filterMap f p ih =>
    obtain ⟨u, h1, h2⟩ := he
    obtain ⟨g1, g2⟩ := ih hs h1
    exact ⟨fun w h => g1 w (h2.armed (C57_filter_map _ _) h),
      fun h => g2 (key h2 (C57_filter_map _ _) h)⟩
  | filter f p ih =>
    obtain ⟨u, h1, h2⟩ := he
    obtain ⟨g1, g2⟩ := ih hs h1
    exact ⟨fun w h => g1 w (h2.armed (C57_filter _ _) h),
      fun h => g2 (key h2 (C57_filter _ _) h)⟩
  | sort S cmp p ih =>
    obtain ⟨u, h1, h2⟩ := he
    obtain ⟨g1, g2⟩ := ih hs h1
    exact ⟨fun w h => g1 w (h2.armed (C57_sort_by_cloned _ _) h),
      fun h => g2 (key h2 (C57_sort_by_cloned _ _) h)⟩
  | enumerate p ih =>
    obtain ⟨u, h1, h2⟩ := he
    obtain ⟨g1, g2⟩ := ih hs h1
    exact ⟨fun w h => g1 w (h2.armed C57_enumerate h), fun h => g2 (key h2 C57_enumerate h)⟩
  | chain p q _ _ => exact hs.elim

theorem straight_uses {p : Pipe α β} (hs : p.Straight) {i : Nat} (h : p.Uses i) : i = p.head := by
  induction p with
  | source j => exact h.symm
  | chain p q _ _ => exact hs.elim
  | _ => rename_i ih; exact ih hs h

end Verif

namespace Verif.MutVec

variable {α : Type}

theorem polled_diffs (id : Nat) (w : World α) (h : List (Ev α)) :
    (polled id w h).diffs = received id w h := by
  induction h generalizing w with
  | nil => rfl
  | cons e es ih =>
    have hnow : ∀ (cx : Waker) (b : Prop) [Decidable b],
        Trace.diffs (if b then [(cx, (w.pollRx id cx).1)] else []) =
        if b then (match (w.pollRx id cx).1 with
          | .ready (some d) => [d]
          | _ => []) else [] := by
      intro cx b _
      by_cases hb : b
      · simp only [hb, ↓reduceIte, Trace.diffs, Trace.answers, List.map_cons, List.map_nil]
        match (w.pollRx id cx).1 with
        | .ready (some d) => rfl
        | .ready none => rfl
        | .pending => rfl
      · simp [hb, Trace.diffs, Trace.answers]
    have happ : ∀ a b : Trace α, (a ++ b).diffs = a.diffs ++ b.diffs := by
      intro a b
      simp [Trace.diffs, Trace.answers, items_append]
    cases e with
    | poll i cx =>
      simp only [polled, received]
      cases hs : w.step (.poll i cx) with
      | none => exact hnow cx _
      | some w' => simp only [happ, hnow, ih]; rfl
    | _ =>
      simp only [polled, received]
      generalize w.step _ = o
      cases o with
      | none => rfl
      | some w' => simp [ih]

theorem step_chans_le {w w' : World α} (hw : Inv w) {e : Ev α} (h : w.step e = some w') :
    w.chans.length ≤ w'.chans.length := by
  cases e with
  | op o =>
    simp only [World.step] at h
    by_cases hh : w.handles = 0
    · simp only [hh, ↓reduceIte, Option.some.injEq] at h; simp [h]
    · simp only [hh, ↓reduceIte, exec_eq] at h
      cases hsp : o.spec w.values with
      | none => simp [hsp] at h
      | some sp =>
        simp [hsp] at h; subst h
        obtain ⟨-, -, -, h2⟩ := wf_notifyAll hw.toWF hh (o.diffs w.values)
        exact Nat.le_of_eq h2.symm
  | subscribe =>
    simp only [World.step] at h
    split at h <;> cases h
    · exact Nat.le_refl _
    · simp [World.signalVec]
  | poll id cx =>
    simp only [World.step] at h
    split at h <;> cases h
    · unfold World.pollRx
      repeat' split
      all_goals simp
    · exact Nat.le_refl _
  | dropRx id =>
    simp only [World.step] at h
    split at h <;> cases h
    · exact Nat.le_of_eq (dropRx_spec w id 0).2.2.2.1.symm
    · exact Nat.le_refl _
  | cloneHandle =>
    simp only [World.step] at h
    split at h <;> cases h <;> exact Nat.le_refl _
  | dropHandle =>
    simp only [World.step] at h
    by_cases hh : w.handles = 0
    · simp only [hh, ↓reduceIte, Option.some.injEq] at h; simp [h]
    · simp only [hh, ↓reduceIte, Option.some.injEq] at h; subst h
      exact Nat.le_of_eq (dropHandle_spec hh).2.2.1.symm

/-- A subscriber that is live now was live before, and was not dropped. -/
theorem step_live_back {w w' : World α} (hw : Inv w) {e : Ev α} (h : w.step e = some w') {k : Nat}
    (hk : k < w.chans.length) (hl : w'.rxLive k = true) :
    w.rxLive k = true ∧ e ≠ .dropRx k ∧ k < w'.chans.length := by
  have hk' : k < w'.chans.length := by
    unfold World.rxLive at hl
    split at hl
    · rename_i hc
      exact (List.getElem?_eq_some_iff.1 hc).1
    · cases hl
  have key : ∀ f : Chan α → Chan α, (∀ c, (f c).rxAlive = true → c.rxAlive = true) →
      w'.chans[k]? = w.chans[k]?.map f → w.rxLive k = true := by
    intro f hf he
    unfold World.rxLive at hl ⊢
    rw [he] at hl
    cases hc : w.chans[k]? with
    | none => simp [hc] at hl
    | some c => simp only [hc, Option.map_some] at hl; exact hf c hl
  cases e with
  | op o =>
    refine ⟨?_, by simp, hk'⟩
    simp only [World.step] at h
    by_cases hh : w.handles = 0
    · simp only [hh, ↓reduceIte, Option.some.injEq] at h; rw [h]; exact hl
    · simp only [hh, ↓reduceIte, exec_eq] at h
      cases hsp : o.spec w.values with
      | none => simp [hsp] at h
      | some sp =>
        simp [hsp] at h; subst h
        obtain ⟨-, h2, -, -⟩ := wf_notifyAll hw.toWF hh (o.diffs w.values)
        exact key _ (fun c hc => by rwa [pushAll_rxAlive] at hc) (h2 k)
  | subscribe =>
    refine ⟨?_, by simp, hk'⟩
    simp only [World.step] at h
    by_cases hh : w.handles = 0
    · simp only [hh, ↓reduceIte, Option.some.injEq] at h; rw [h]; exact hl
    · simp only [hh, ↓reduceIte, Option.some.injEq] at h; subst h
      refine key id (fun _ h => h) ?_
      simp only [World.signalVec]
      rw [List.getElem?_append_left hk]
      simp
  | poll id cx =>
    refine ⟨?_, by simp, hk'⟩
    simp only [World.step] at h
    by_cases hl' : w.rxLive id = true
    · by_cases hid : id = k
      · subst hid; exact hl'
      · simp only [hl', ↓reduceIte, Option.some.injEq] at h; subst h
        have := (pollRx_other w id k cx hid).1
        exact key (fun c => c) (fun _ h => h) (by rw [this]; simp)
    · simp only [hl'] at h
      cases h
      exact hl
  | dropRx id =>
    simp only [World.step] at h
    by_cases hl' : w.rxLive id = true
    · simp only [hl', ↓reduceIte, Option.some.injEq] at h; subst h
      have := (dropRx_spec w id k).1
      refine ⟨key _ ?_ this, ?_, hk'⟩
      · intro c hc
        split at hc
        · simp at hc
        · exact hc
      · rintro he
        cases he
        unfold World.rxLive at hl
        rw [this] at hl
        cases hc : w.chans[k]? <;> simp [hc] at hl
    · simp only [hl'] at h
      cases h
      refine ⟨hl, ?_, hk'⟩
      rintro he
      cases he
      exact hl' hl
  | cloneHandle =>
    refine ⟨?_, by simp, hk'⟩
    simp only [World.step] at h
    by_cases hh : w.handles = 0
    · simp only [hh, ↓reduceIte, Option.some.injEq] at h; rw [h]; exact hl
    · simp only [hh, ↓reduceIte, Option.some.injEq] at h; subst h; exact hl
  | dropHandle =>
    refine ⟨?_, by simp, hk'⟩
    simp only [World.step] at h
    by_cases hh : w.handles = 0
    · simp only [hh, ↓reduceIte, Option.some.injEq] at h; rw [h]; exact hl
    · simp only [hh, ↓reduceIte, Option.some.injEq] at h; subst h
      exact key _ (fun c hc => by split at hc <;> exact hc) ((dropHandle_spec hh).2.2.2.1 k)

theorem runs_live_back {w w' : World α} (hw : Inv w) {es : List (Ev α)} (h : w.runs es = some w')
    {k : Nat} (hk : k < w.chans.length) (hl : w'.rxLive k = true) :
    w.rxLive k = true ∧ .dropRx k ∉ es ∧ (polled k w es = [] → ∀ cx, .poll k cx ∉ es) := by
  induction es generalizing w with
  | nil => cases h; exact ⟨hl, by simp, by simp⟩
  | cons e es ih =>
    simp only [World.runs] at h
    cases hs : w.step e with
    | none => simp [hs] at h
    | some w1 =>
      simp only [hs] at h
      have hk1 : k < w1.chans.length := Nat.lt_of_lt_of_le hk (step_chans_le hw hs)
      obtain ⟨g1, g2, g3⟩ := ih (inv_step hw hs) h hk1
      obtain ⟨k1, k2, -⟩ := step_live_back hw hs hk g1
      refine ⟨k1, ?_, ?_⟩
      · simp only [List.mem_cons, not_or]
        exact ⟨fun h => k2 h.symm, g2⟩
      · intro hp cx
        simp only [polled, hs, List.append_eq_nil_iff] at hp
        simp only [List.mem_cons, not_or]
        refine ⟨?_, g3 hp.2 cx⟩
        rintro rfl
        simp [k1] at hp

theorem live_lt {w : World α} {k : Nat} (hl : w.rxLive k = true) : k < w.chans.length := by
  unfold World.rxLive at hl
  split at hl
  · rename_i hc
    exact (List.getElem?_eq_some_iff.1 hc).1
  · cases hl

/-- The last poll of a live subscriber splits the history. -/
theorem polled_last {w0 w : World α} (hw : Inv w0) {h : List (Ev α)} (hr : w0.runs h = some w)
    {k : Nat} (hl : w.rxLive k = true) {x : Waker} {r : Poll (Option (VecDiff α))}
    (hp : (polled k w0 h).getLast? = some (x, r)) :
    ∃ h1 h2 w1, h = h1 ++ .poll k x :: h2 ∧ w0.runs h1 = some w1 ∧ w1.rxLive k = true ∧
      (w1.pollRx k x).1 = r ∧ (w1.pollRx k x).2.runs h2 = some w ∧
      (∀ cx, .poll k cx ∉ h2) ∧ .dropRx k ∉ h2 := by
  induction h generalizing w0 with
  | nil => simp [polled] at hp
  | cons e es ih =>
    simp only [World.runs] at hr
    cases hs : w0.step e with
    | none => simp [hs] at hr
    | some w1 =>
      simp only [hs] at hr
      by_cases hnil : polled k w1 es = []
      · cases e with
        | poll i cx =>
          simp only [polled, hs, hnil, List.append_nil] at hp
          by_cases hc : i = k ∧ w0.rxLive k = true
          · rw [if_pos hc] at hp
            obtain ⟨rfl, hc⟩ := hc
            simp only [List.getLast?_singleton, Option.some.injEq, Prod.mk.injEq] at hp
            obtain ⟨rfl, hp⟩ := hp
            simp only [World.step, hc, ↓reduceIte, Option.some.injEq] at hs
            subst hs
            have hi := inv_poll hw i cx hc
            have hlt : i < (w0.pollRx i cx).2.chans.length :=
              Nat.lt_of_lt_of_le (live_lt hc)
                (step_chans_le hw (e := .poll i cx) (by simp [World.step, hc]))
            obtain ⟨-, g2, g3⟩ := runs_live_back hi hr hlt hl
            exact ⟨[], es, w0, rfl, rfl, hc, hp, hr, g3 hnil, g2⟩
          · rw [if_neg hc] at hp
            simp at hp
        | _ => simp [polled, hs, hnil] at hp
      · have hp' : (polled k w1 es).getLast? = some (x, r) := by
          simp only [polled, hs] at hp
          rw [List.getLast?_append] at hp
          cases hq : (polled k w1 es).getLast? with
          | none => exact absurd (List.getLast?_eq_none_iff.1 hq) hnil
          | some y => rw [hq] at hp; simpa using hp
        obtain ⟨h1, h2, w2, g1, g2, g3⟩ := ih (inv_step hw hs) hr hp'
        exact ⟨e :: h1, h2, w2, by rw [g1]; rfl, by simp only [World.runs, hs]; exact g2, g3⟩

end Verif.MutVec
