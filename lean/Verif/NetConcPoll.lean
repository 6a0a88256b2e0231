import Verif.NetDrift

/-!
# Networks polled while other threads use the `Mutable`s: what a poll does
-/

namespace Verif.Net

variable {α β γ σ : Type} {mine : Nat → Nat → Prop}

/-- What a poll does. -/
structure CPost (mine : Nat → Nat → Prop) (p : Net α β) (w : Waker) (W : Env α) (s : p.St) (last : Option β)
    (r : Poll (Option β)) (W' : Env α) (s' : p.St) : Prop where
  calm : Calm mine (p.Owns s) W W'
  good : Good mine p W' s' (upd last r)
  mix : ∀ b, upd last r = some b → p.Mix (Between W W') b
  own : ∀ m i, p.Owns s' m i → p.Owns s m i ∨ (W m).cells ≤ i
  first : last = none → ∃ b, r = .ready (some b)
  ended : r = .ready none → Dead p W' s'
  pend : r = .pending → Rung w W W' ∨ Waits w p W' s'
  dead : Dead p W s → r = .ready none

/-- What several polls do. -/
structure CPostMany (mine : Nat → Nat → Prop) (p : Net α β) (w : Waker) (W : Env α) (s : p.St)
    (last : Option β) (l : List (Poll (Option β))) (W' : Env α) (s' : p.St) : Prop where
  calm : Calm mine (p.Owns s) W W'
  good : Good mine p W' s' (l.foldl upd last)
  mix : l ≠ [] → ∀ b, l.foldl upd last = some b → p.Mix (Between W W') b
  own : ∀ m i, p.Owns s' m i → p.Owns s m i ∨ (W m).cells ≤ i
  first : last = none → l ≠ [] → ∃ b l', l = .ready (some b) :: l'
  ended : l.getLast? = some (.ready none) → Dead p W' s'
  pend : l.getLast? = some .pending → Rung w W W' ∨ Waits w p W' s'
  dead : Dead p W s → ∀ r ∈ l, r = .ready none
  nil : l = [] → W' = W ∧ s' = s

theorem cmany_post {p : Net α β} {w : Waker}
    (hp : ∀ {W s last r W' s'}, Good mine p W s last → p.CPolls mine w W s r W' s' →
      CPost mine p w W s last r W' s') {l : List (Poll (Option β))} {W W' : Env α} {s s' : p.St}
    {last : Option β} (hi : Good mine p W s last) (h : Many (p.CPolls mine w) W s l W' s') :
    CPostMany mine p w W s last l W' s' := by
  induction l generalizing W s last with
  | nil =>
    obtain ⟨rfl, rfl⟩ := h
    exact ⟨Calm.refl _ hi.ok, hi, fun h => absurd rfl h, fun m i h => .inl h, fun _ h => absurd rfl h, by simp, by simp, by simp,
      fun _ => ⟨rfl, rfl⟩⟩
  | cons r l ih =>
    obtain ⟨W1, s1, h1, h2⟩ := h
    have q := hp hi h1
    have Q := ih q.good h2
    refine ⟨q.calm.trans Q.calm (fun m i _ h => h) ?_, Q.good, ?_, ?_, ?_, ?_, ?_, ?_, by simp⟩
    · intro m i hlt h
      exact (q.own m i h).resolve_right (by omega)
    · intro _ b hb
      by_cases hl : l = []
      · obtain ⟨rfl, -⟩ := Q.nil hl
        subst hl
        exact q.mix b hb
      · exact (Q.mix hl b hb).mono fun v hv => hv.mono q.calm.reach (.refl _)
    · intro m i h
      rcases Q.own m i h with h | h
      · exact q.own m i h
      · exact .inr (Nat.le_trans (q.calm.cells m) h)
    · intro hl _
      obtain ⟨b, rfl⟩ := q.first hl
      exact ⟨b, l, rfl⟩
    · intro hn
      cases l with
      | nil =>
        obtain ⟨rfl, rfl⟩ := Q.nil rfl
        simp only [List.getLast?_singleton, Option.some.injEq] at hn
        exact q.ended hn
      | cons a l => exact Q.ended (by rw [List.getLast?_cons_cons] at hn; exact hn)
    · intro hn
      cases l with
      | nil =>
        obtain ⟨rfl, rfl⟩ := Q.nil rfl
        simp only [List.getLast?_singleton, Option.some.injEq] at hn
        exact q.pend hn
      | cons a l =>
        exact (Q.pend (by rw [List.getLast?_cons_cons] at hn; exact hn)).imp (Rung.right q.calm.grow) id
    · intro hd r' hr'
      have hr := q.dead hd
      rcases List.mem_cons.1 hr' with rfl | hr'
      · exact hr
      · exact Q.dead (q.ended hr) r' hr'

/-! ## Loops -/

/-- The ways a loop can use the answers it gets. -/
inductive LoopRun {ρ : Type} (body : σ → β → Ctl σ ρ) : σ → List (Poll (Option β)) → Stop ρ → σ → Prop where
  | pending {c} : LoopRun body c [.pending] .pending c
  | ended {c} : LoopRun body c [.ready none] .ended c
  | ret {c a c' r} : body c a = .ret c' r → LoopRun body c [.ready (some a)] (.ret r) c'
  | panic {c a} : body c a = .panic → LoopRun body c [.ready (some a)] .panic c
  | cont {c a c1 l st c'} : body c a = .cont c1 → LoopRun body c1 l st c' →
      LoopRun body c (.ready (some a) :: l) st c'

theorem pollLoop_run {ρ : Type} {body : σ → β → Ctl σ ρ} {l : List (Poll (Option β))}
    {hist : List (Waker × Poll (Option β))} {w : Waker} {c c' : σ} {st : Stop ρ} {s' : Src (Option β)}
    (h : pollLoop w body l hist c = (st, c', s')) (ht : s'.hist.length = hist.length + l.length) :
    LoopRun body c l st c' := by
  induction l generalizing hist c with
  | nil => cases h; simp at ht
  | cons r l ih =>
    match r with
    | .pending =>
      cases h
      cases l with
      | nil => exact .pending
      | cons _ _ => simp at ht
    | .ready none =>
      cases h
      cases l with
      | nil => exact .ended
      | cons _ _ => simp at ht
    | .ready (some a) =>
      simp only [pollLoop] at h
      cases hb : body c a with
      | ret c1 r =>
        rw [hb] at h
        cases h
        cases l with
        | nil => exact .ret hb
        | cons _ _ => simp at ht
      | panic =>
        rw [hb] at h
        cases h
        cases l with
        | nil => exact .panic hb
        | cons _ _ => simp at ht
      | cont c1 =>
        rw [hb] at h
        simp only at h
        exact .cont hb (ih h (by rw [ht]; simp; omega))

theorem loop_run {ρ : Type} {body : σ → β → Ctl σ ρ} {l : List (Poll (Option β))} {s s' : Src (Option β)}
    {w : Waker} {c c' : σ} {st : Stop ρ} (h : (give l s).loop w body c = (st, c', s'))
    (ht : Took l s s') : LoopRun body c l st c' := pollLoop_run h ht

section

variable {ρ : Type} {body : σ → β → Ctl σ ρ} {c c' : σ} {l : List (Poll (Option β))} {st : Stop ρ}

theorem LoopRun.ne (h : LoopRun body c l st c') : l ≠ [] := by cases h <;> simp

theorem LoopRun.ended' (h : LoopRun body c l st c') (hs : stopAns st = .ready none) :
    l.getLast? = some (.ready none) := by
  induction h with
  | pending => cases hs
  | ended => rfl
  | ret _ => cases hs
  | panic _ => cases hs
  | cont _ h ih =>
    have := ih hs
    rw [List.getLast?_cons, this]; rfl

theorem LoopRun.pend (h : LoopRun body c l st c') (hp : st ≠ .panic) (hs : stopAns st = .pending) :
    l.getLast? = some .pending := by
  induction h with
  | pending => rfl
  | ended => cases hs
  | ret _ => cases hs
  | panic _ => exact absurd rfl hp
  | cont _ h ih =>
    have := ih hp hs
    rw [List.getLast?_cons, this]; rfl

theorem LoopRun.dead (h : LoopRun body c l st c') (hl : ∀ r ∈ l, r = .ready none) :
    stopAns st = .ready none := by cases h <;> simp [stopAns] at hl ⊢

end

theorem dedupe_run [DecidableEq β] {last : Option β} {l : List (Poll (Option β))} {st : Stop β}
    {c : Option β × Unit}
    (h : LoopRun (dedupeBody fun _ value => ((value, value), ())) (last, ()) l st c) :
    c.1 = l.foldl upd last ∧ c.1 = upd last (stopAns st) ∧ st ≠ .panic ∧
    (last = none → (∃ b l', l = .ready (some b) :: l') → ∃ b, stopAns st = .ready (some b)) := by
  have key : ∀ (last : Option β) a, dedupeBody (fun (_ : Unit) (value : β) => ((value, value), ())) (last, ()) a =
      if last = some a then .cont (last, ()) else .ret (some a, ()) a := by
    intro last a
    cases last with
    | none => simp [dedupeBody]
    | some b =>
      by_cases hb : b = a <;> simp [dedupeBody, hb]
  obtain ⟨d, hd⟩ : ∃ d, d = (last, ()) := ⟨_, rfl⟩
  rw [← hd] at h
  induction h generalizing last with
  | pending => subst hd; simp [upd, stopAns]
  | ended => subst hd; simp [upd, stopAns]
  | @ret c a c' r hb =>
    subst hd
    rw [key] at hb
    split at hb
    · cases hb
    · cases hb; simp [upd, stopAns]
  | @panic c a hb => subst hd; rw [key] at hb; split at hb <;> cases hb
  | @cont c a c1 l st c' hb h ih =>
    subst hd
    rw [key] at hb
    split at hb
    · rename_i hl
      cases hb
      obtain ⟨k1, k2, k3, -⟩ := ih rfl
      refine ⟨?_, k2, k3, fun h => ?_⟩
      · rw [List.foldl_cons]
        simp only [upd]
        rw [← hl]
        exact k1
      · rw [h] at hl; cases hl
    · cases hb

theorem match_run {t : β → Bool} {body : Option Bool → β → Ctl (Option Bool) Bool}
    (hbody : ∀ m a, body m a = if m ≠ some (t a) then .ret (some (t a)) (t a) else .cont m)
    {x : Option β} {l : List (Poll (Option β))} {st : Stop Bool}
    {c : Option Bool} (h : LoopRun body (x.map t) l st c) :
    c = (l.foldl upd x).map t ∧ c = upd (x.map t) (stopAns st) ∧ st ≠ .panic ∧
    (x = none → (∃ b l', l = .ready (some b) :: l') → ∃ b, stopAns st = .ready (some b)) := by
  obtain ⟨d, hd⟩ : ∃ d, d = x.map t := ⟨_, rfl⟩
  rw [← hd] at h
  induction h generalizing x with
  | pending => subst hd; simp [upd, stopAns]
  | ended => subst hd; simp [upd, stopAns]
  | @ret c a c' r hb =>
    subst hd
    rw [hbody] at hb
    split at hb
    · cases hb; simp [upd, stopAns]
    · cases hb
  | @panic c a hb => subst hd; rw [hbody] at hb; split at hb <;> cases hb
  | @cont c a c1 l st c' hb h ih =>
    subst hd
    rw [hbody] at hb
    split at hb
    · cases hb
    · rename_i hl
      have hl : x.map t = some (t a) := Decidable.not_not.1 hl
      cases hb
      obtain ⟨k1, k2, k3, -⟩ := ih (x := some a) hl
      refine ⟨?_, ?_, k3, fun h => ?_⟩
      · rw [List.foldl_cons]; exact k1
      · rw [hl]; exact k2
      · rw [h] at hl; cases hl

/-! ## The bottom -/

theorem csource_post {m : Nat} {w : Waker} {W W' : Env α} {id id' : Nat} {last : Option α}
    {r : Poll (Option α)} (hi : Good mine (Net.source m) W id last)
    (h : (Net.source m).CPolls mine w W id r W' id') : CPost mine (Net.source m) w W id last r W' id' := by
  obtain ⟨W1, h1, h2⟩ := h
  have c1 := others_calm h1 hi.ok
  have d1 := c1.drift hi.live fun _ _ _ h => h
  have g1 := hi.drift d1
  have P := source_post (W := W1) (id := id) (id' := id') g1.inv g1.ok h2
  have e : id' = id := h2.2.2
  obtain ⟨a1, a2, -⟩ := g1.inv
  have rc : Reach W1 W' := h2.2.1 ▸ Reach.one (e := .poll id w) (by simp only [Mut.World.step, a1, a2]; rfl)
  refine ⟨c1.trans (P.frame.calm rc) (fun _ _ _ h => h.elim) fun _ _ _ h => h,
    ⟨P.inv, P.frame.ok, fun k i ho => ?_⟩, fun b hb => ⟨W'.values, ⟨W', c1.reach.trans rc, .refl _, rfl⟩, ?_⟩,
    fun k i ho => ?_, fun hl => ?_, P.ended,
    fun hr => .inr ⟨P.pend hr, P.alive hr⟩, fun hd => P.dead (dead_later d1.later hd)⟩
  · subst e; exact hi.own k i ho
  · have hv := clean_den P.inv P.clean
    rw [hb] at hv
    exact Option.some.inj hv
  · subst e; exact .inl ho
  · have hv := clean_den P.inv P.clean
    rw [hl] at hv
    match r with
    | .ready (some b) => exact ⟨b, rfl⟩
    | .ready none => cases hv
    | .pending => cases hv

theorem calways_post {b : β} {w : Waker} {W W' : Env α} {s s' : SAlways β} {last : Option β}
    {r : Poll (Option β)} (hi : Good mine (Net.always (α := α) b) W s last)
    (h : (Net.always (α := α) b).CPolls mine w W s r W' s') :
    CPost mine (Net.always (α := α) b) w W s last r W' s' := by
  have P := always_post hi.inv hi.ok h
  have e : W' = W := h.2
  refine ⟨P.frame.calm (e ▸ .refl _), ⟨P.inv, P.frame.ok, fun k i ho => ho.elim⟩, fun c hc => ?_, P.own, fun hl => ?_, P.ended,
    fun hr => .inr ⟨P.pend hr, P.alive hr⟩, P.dead⟩
  · have hv := clean_den P.inv P.clean
    rw [hc] at hv
    exact Option.some.inj hv
  have hv := clean_den P.inv P.clean
  rw [hl] at hv
  match r with
  | .ready (some b) => exact ⟨b, rfl⟩
  | .ready none => cases hv
  | .pending => cases hv

theorem dead_value {p : Net α β} {W : Env α} {s : p.St} {last : Option β} (hi : Inv p W s last)
    (hd : Dead p W s) : last ≠ none := by
  rw [clean_den hi (armed_clean (w := 0) (dead_armed hd))]; simp

/-! ## `map_ref!` -/

section MapRef

variable {n : Nat} {ps : Fin (n + 1) → Net α β} {w : Waker} {Ws : Nat → Env α}
  {s s' : ∀ i, (ps i).St} {v : Fin (n + 1) → Option β} {l : Fin (n + 1) → List (Poll (Option β))}

theorem cinputs_post
    (ih : ∀ i {W s last r W' s'}, Good mine (ps i) W s last → (ps i).CPolls mine w W s r W' s' →
      CPost mine (ps i) w W s last r W' s')
    (hi : ∀ i, Good mine (ps i) (Ws 0) (s i) (v i))
    (hd : ∀ i j m k, i ≠ j → (ps i).Owns (s i) m k → ¬ (ps j).Owns (s j) m k)
    (h : ∀ i : Fin (n + 1), Many ((ps i).CPolls mine w) (Ws i) (s i) (l i) (Ws (i + 1)) (s' i)) :
    (∀ i : Fin (n + 1), CPostMany mine (ps i) w (Ws i) (s i) (v i) (l i) (Ws (i + 1)) (s' i)) ∧
    (∀ i : Fin (n + 1), Drift ((ps i).Owns (s i)) (Ws 0) (Ws i)) ∧
    (∀ i : Fin (n + 1), Drift ((ps i).Owns (s' i)) (Ws (i + 1)) (Ws (n + 1))) ∧
    (∀ i j m k, i ≠ j → (ps i).Owns (s' i) m k → ¬ (ps j).Owns (s' j) m k) ∧
    Calm mine (fun m k => ∃ i, (ps i).Owns (s i) m k) (Ws 0) (Ws (n + 1)) ∧
    (∀ i m k, (ps i).Owns (s' i) m k → (ps i).Owns (s i) m k ∨ (Ws 0 m).cells ≤ k) ∧
    (∀ i : Fin (n + 1), Grow (Ws 0) (Ws i)) := by
  let O : Nat → Nat → Nat → Prop := fun i m k => ∃ hi : i < n + 1, (ps ⟨i, hi⟩).Owns (s ⟨i, hi⟩) m k
  have lt : ∀ i m k, (ps i).Owns (s i) m k → k < (Ws 0 m).cells := fun i m k hk => (own_lt (hi i).inv hk).1
  have key : ∀ a, a ≤ n + 1 → (∀ b, b ≤ a → Ok (Ws b)) ∧
      ∀ i : Fin (n + 1), i < a → CPostMany mine (ps i) w (Ws i) (s i) (v i) (l i) (Ws (i + 1)) (s' i) := by
    intro a ha
    induction a with
    | zero => exact ⟨fun b hb => by obtain rfl : b = 0 := by omega
                                    exact (hi 0).ok, fun i hi => absurd hi (by omega)⟩
    | succ a iha =>
      obtain ⟨i1, i2⟩ := iha (by omega)
      have ch := calm_chain (O := O) i1
        (fun i hi => (i2 ⟨i, by omega⟩ hi).calm.mono fun m k _ hk => ⟨by omega, hk⟩) 0 a (by omega) (by omega)
      have hinv : Good mine (ps ⟨a, by omega⟩) (Ws a) (s ⟨a, by omega⟩) (v ⟨a, by omega⟩) := by
        refine (hi _).drift (ch.drift (hi _).live ?_)
        rintro m k hk ⟨i, -, hi, hi', h3⟩
        exact hd _ _ m k (by intro h; cases h; omega) hk h3
      have fr := cmany_post (ih ⟨a, by omega⟩) hinv (h ⟨a, by omega⟩)
      refine ⟨fun b hb => ?_, fun i hi => ?_⟩
      · by_cases hb' : b ≤ a
        · exact i1 b hb'
        · obtain rfl : b = a + 1 := by omega
          exact fr.calm.ok
      · by_cases hi' : i < a
        · exact i2 i hi'
        · have he : i = ⟨a, by omega⟩ := Fin.ext (by simp; omega)
          rw [he]
          exact fr
  obtain ⟨k1, k2⟩ := key (n + 1) (Nat.le_refl _)
  have post := fun i : Fin (n + 1) => k2 i (by omega)
  have ch := calm_chain (O := O) k1 (fun i hi => (post ⟨i, hi⟩).calm.mono fun m k _ hk => ⟨hi, hk⟩)
  have own : ∀ i m k, (ps i).Owns (s' i) m k → (ps i).Owns (s i) m k ∨ (Ws 0 m).cells ≤ k := by
    intro i m k hk
    rcases (post i).own m k hk with h | h
    · exact .inl h
    · exact .inr (Nat.le_trans ((ch 0 i (by omega) (by omega)).cells m) h)
  have lt' : ∀ (i : Fin (n + 1)) m k, (ps i).Owns (s' i) m k → k < (Ws (i + 1) m).cells :=
    fun i m k hk => (own_lt (post i).good.inv hk).1
  refine ⟨post, fun i => ?_, fun i => ?_, ?_, ?_, own, fun i => (ch 0 i (by omega) (by omega)).grow⟩
  · refine (ch 0 i (by omega) (by omega)).drift (hi i).live ?_
    rintro m k hk ⟨j, -, hj, hj', h3⟩
    exact hd _ _ m k (by intro h; subst h; simp at hj) hk h3
  · refine (ch (i + 1) (n + 1) (by omega) (by omega)).drift (post i).good.live ?_
    rintro m k hk ⟨j, hj, -, hj', h3⟩
    rcases own i m k hk with h | h
    · exact hd i ⟨j, hj'⟩ m k (by intro h; subst h; simp at hj; omega) h h3
    · have := lt _ m k h3; omega
  · have key : ∀ i j : Fin (n + 1), i < j → ∀ m k, (ps i).Owns (s' i) m k →
        ¬ (ps j).Owns (s' j) m k := by
      intro i j hij m k hi hj
      have a1 := lt' i m k hi
      have a3 := (ch (i + 1) j (by omega) (by omega)).cells m
      rcases (post j).own m k hj with h | h
      · rcases own i m k hi with h' | h'
        · exact hd i j m k (by omega) h' h
        · have := lt j m k h; omega
      · omega
    intro i j m k hij hi hj
    rcases Nat.lt_or_gt_of_ne (fun h => hij (Fin.ext h)) with h | h
    · exact key i j h m k hi hj
    · exact key j i h m k hj hi
  · refine (ch 0 (n + 1) (by omega) (by omega)).mono ?_
    rintro m k - ⟨i, -, -, hi, hk⟩
    exact ⟨_, hk⟩

end MapRef

theorem inputValues_missing {n : Nat} {ms : Fin n → MapRef1 β} (h : inputValues (List.ofFn ms) = none) :
    ∃ i, (ms i).value = none := by
  refine Classical.byContradiction fun hn => ?_
  have : ∀ i, ∃ v, (ms i).value = some v := fun i => by
    cases hv : (ms i).value with
    | none => exact absurd ⟨i, hv⟩ hn
    | some v => exact ⟨v, rfl⟩
  rw [inputValues_ofFn ms (fun i => (this i).choose) fun i => (this i).choose_spec] at h
  cases h

theorem inputValues_all {n : Nat} {ms : Fin n → MapRef1 β} {vs : List β}
    (h : inputValues (List.ofFn ms) = some vs) :
    ∃ v : Fin n → β, (∀ i, (ms i).value = some (v i)) ∧ vs = List.ofFn v := by
  have h1 := inputValues_some h
  have : ∀ i, ∃ v, (ms i).value = some v := fun i => by
    have hm : (ms i).value ∈ vs.map some := by
      rw [← h1]
      exact List.mem_map.2 ⟨ms i, List.mem_ofFn.2 ⟨i, rfl⟩, rfl⟩
    obtain ⟨v, -, hv⟩ := List.mem_map.1 hm
    exact ⟨v, hv.symm⟩
  refine ⟨fun i => (this i).choose, fun i => (this i).choose_spec, ?_⟩
  rw [inputValues_ofFn ms (fun i => (this i).choose) fun i => (this i).choose_spec] at h
  exact (Option.some.inj h).symm

theorem cmapRef_post {n : Nat} {ps : Fin (n + 1) → Net α β} {f : List β → γ} {w : Waker}
    (ih : ∀ i {W s last r W' s'}, Good mine (ps i) W s last → (ps i).CPolls mine w W s r W' s' →
      CPost mine (ps i) w W s last r W' s')
    {W W' : Env α} {s s' : (Net.mapRef ps f).St} {last : Option γ} {r : Poll (Option γ)}
    (hi : Good mine (Net.mapRef ps f) W s last) (h : (Net.mapRef ps f).CPolls mine w W s r W' s') :
    CPost mine (Net.mapRef ps f) w W s last r W' s' := by
  obtain ⟨l, ⟨Ws, rfl, rfl, h1⟩, h2, h3⟩ := h
  obtain ⟨⟨g1, g2, rfl⟩, hok, hm⟩ := hi
  obtain ⟨post, dr1, dr2, disj, calm, own, gr⟩ := cinputs_post (l := l) (Ws := Ws) ih
    (fun i => ⟨(g1 i).1, hok, fun m k hk => hm m k ⟨i, hk⟩⟩) g2 h1
  obtain ⟨a1, a2⟩ := mapRef_answer h2
  -- each input
  have use : ∀ i, _ := fun i => mapRef1_took (m := s.1 i) (m' := s'.1 i) (l := l i) (w := w)
    (res := (MapRef1.poll w ⟨⟨give (l i) (s.1 i).signal.src, (s.1 i).signal.alive⟩, (s.1 i).value⟩).1)
    (by rw [a1 i]) (h3 i)
  have dead1 : ∀ i, Dead (ps i) (Ws 0) (s.2 i) → Dead (ps i) (Ws i) (s.2 i) := fun i hd =>
    dead_later (dr1 i).later hd
  have deadE : ∀ i, l i = [] → (s.1 i).signal.alive = false → Dead (ps i) (Ws (i + 1)) (s'.2 i) := by
    intro i hl ha
    obtain ⟨e1, e2⟩ := (post i).nil hl
    rw [e1, e2]
    exact dead1 i ((g1 i).2 ha)
  have deadN : ∀ i, l i = [.ready none] → Dead (ps i) (Ws (i + 1)) (s'.2 i) := by
    intro i hl
    exact (post i).ended (by rw [hl]; rfl)
  have up : ∀ i, Dead (ps i) (Ws (i + 1)) (s'.2 i) → Dead (ps i) (Ws (n + 1)) (s'.2 i) := fun i hd =>
    dead_later (dr2 i).later hd
  have vals : ∀ i, (s'.1 i).value = (l i).foldl upd (s.1 i).value := fun i => (use i).1
  have nochange : (∀ i, items (l i) = []) → ∀ i, (s'.1 i).value = (s.1 i).value := by
    intro hc i
    rw [vals i]
    rcases (use i).2 with ⟨-, hl, -⟩ | ⟨hl, -⟩ | ⟨hl, -⟩ | ⟨a, hl, -⟩
    · rw [hl]; rfl
    · rw [hl]; rfl
    · rw [hl]; rfl
    · have := hc i; rw [hl] at this; cases this
  have chg : ∀ i, (MapRef1.poll w ⟨⟨give (l i) (s.1 i).signal.src, (s.1 i).signal.alive⟩,
      (s.1 i).value⟩).1.changed = false → items (l i) = [] := by
    intro i hc
    rcases (use i).2 with ⟨-, hl, -⟩ | ⟨hl, -⟩ | ⟨hl, -⟩ | ⟨a, hl, -, hr⟩
    · rw [hl]; rfl
    · rw [hl]; rfl
    · rw [hl]; rfl
    · rw [hr] at hc; cases hc
  have dn : ∀ i, (MapRef1.poll w ⟨⟨give (l i) (s.1 i).signal.src, (s.1 i).signal.alive⟩,
      (s.1 i).value⟩).1.done = true → Dead (ps i) (Ws (n + 1)) (s'.2 i) := by
    intro i hc
    rcases (use i).2 with ⟨ha, hl, -⟩ | ⟨hl, -⟩ | ⟨hl, -, hr⟩ | ⟨a, hl, -, hr⟩
    · exact up i (deadE i hl ha)
    · exact up i (deadN i hl)
    · rw [hr] at hc; cases hc
    · rw [hr] at hc; cases hc
  have wt : ∀ i, l i = [.pending] → Rung w (Ws 0) (Ws (n + 1)) ∨ Waits w (ps i) (Ws (n + 1)) (s'.2 i) := by
    intro i hl
    rcases (post i).pend (by rw [hl]; rfl) with h | h
    · exact .inl (Rung.right (gr i) (h.left (dr2 i).grow))
    · exact (waits_drift (dr2 i) h).imp (fun h => Rung.right ((gr i).trans (post i).calm.grow) h) id
  have hlast : upd ((inputValues (List.ofFn s.1)).map f) r = (inputValues (List.ofFn s'.1)).map f := by
    rcases a2 with ⟨-, vs, h5, rfl⟩ | ⟨h4, -, rfl⟩ | ⟨h4, -, rfl⟩
    · rw [h5]; rfl
    · rw [inputValues_congr (nochange fun i => chg i (h4 i))]; rfl
    · rw [inputValues_congr (nochange fun i => chg i (h4 i))]; rfl
  refine ⟨calm, ⟨⟨fun i => ⟨?_, fun ha => ?_⟩, disj, hlast⟩, calm.ok, ?_⟩, fun b hb => ?_, ?_, fun hl => ?_,
    fun hr i => ?_, fun hr => ?_, fun hd => ?_⟩
  · rw [vals i]
    exact inv_later (dr2 i).later (post i).good.inv
  · rcases (use i).2 with ⟨ha', hl, -⟩ | ⟨hl, -⟩ | ⟨hl, ha', -⟩ | ⟨a, hl, ha', -⟩
    · exact up i (deadE i hl ha')
    · exact up i (deadN i hl)
    · rw [ha] at ha'; cases ha'
    · rw [ha] at ha'; cases ha'
  · rintro m k ⟨i, hk⟩
    exact (post i).good.own m k hk
  · rw [hlast] at hb
    obtain ⟨vs, hvs, rfl⟩ := Option.map_eq_some_iff.1 hb
    obtain ⟨v, hv, rfl⟩ := inputValues_all hvs
    refine ⟨v, fun i => ?_, rfl⟩
    have hvi := hv i
    rw [vals i] at hvi
    by_cases hl : l i = []
    · rw [hl] at hvi
      have hd := (g1 i).2 (by
        rcases (use i).2 with ⟨ha, -⟩ | ⟨hl', -⟩ | ⟨hl', -⟩ | ⟨a, hl', -⟩
        · exact ha
        all_goals rw [hl] at hl'; cases hl')
      have h0 := (g1 i).1
      have hvi : (s.1 i).value = some (v i) := hvi
      rw [hvi] at h0
      exact dead_mix h0 hd (.refl _) calm.reach
    · exact ((post i).mix hl _ hvi).mono fun u hu => hu.mono (dr1 i).reach (dr2 i).reach
  · rintro m k ⟨i, hk⟩
    exact (own i m k hk).imp (fun h => ⟨i, h⟩) id
  · obtain ⟨i, hv⟩ := inputValues_missing (Option.map_eq_none_iff.1 hl)
    have hne : l i ≠ [] := by
      intro he
      rcases (use i).2 with ⟨ha, -⟩ | ⟨hl, -⟩ | ⟨hl, -⟩ | ⟨a, hl, -⟩
      · exact dead_value (g1 i).1 ((g1 i).2 ha) hv
      all_goals rw [he] at hl; cases hl
    obtain ⟨b, l', hb⟩ := (post i).first hv hne
    have hc : (MapRef1.poll w ⟨⟨give (l i) (s.1 i).signal.src, (s.1 i).signal.alive⟩,
        (s.1 i).value⟩).1.changed ≠ false := by
      intro hc
      have := chg i hc
      rw [hb] at this; cases this
    rcases a2 with ⟨-, vs, h5, rfl⟩ | ⟨h4, -, rfl⟩ | ⟨h4, -, rfl⟩
    · exact ⟨_, rfl⟩
    · exact absurd (h4 i) hc
    · exact absurd (h4 i) hc
  · rcases a2 with ⟨-, vs, h5, rfl⟩ | ⟨-, h4, rfl⟩ | ⟨-, -, rfl⟩
    · cases hr
    · exact dn i (h4 i)
    · cases hr
  · rcases a2 with ⟨-, vs, h5, rfl⟩ | ⟨-, h4, rfl⟩ | ⟨h4, ⟨i, h5⟩, rfl⟩
    · cases hr
    · cases hr
    · by_cases hrung : Rung w (Ws 0) (Ws (n + 1))
      · exact .inl hrung
      · refine .inr ⟨fun i => ?_, fun hd => ?_⟩
        · rcases (use i).2 with ⟨ha', hl, -⟩ | ⟨hl, -⟩ | ⟨hl, -⟩ | ⟨a, hl, -, hr'⟩
          · exact dead_armed (up i (deadE i hl ha'))
          · exact dead_armed (up i (deadN i hl))
          · exact ((wt i hl).resolve_left hrung).1
          · have := h4 i
            rw [hr'] at this; cases this
        · rcases (use i).2 with ⟨-, hl, -, hr'⟩ | ⟨hl, -, hr'⟩ | ⟨hl, -⟩ | ⟨a, hl, -, hr'⟩
          · rw [hr'] at h5; cases h5
          · rw [hr'] at h5; cases h5
          · exact ((wt i hl).resolve_left hrung).2 (hd i)
          · have := h4 i
            rw [hr'] at this; cases this
  · have hall : ∀ i, (MapRef1.poll w ⟨⟨give (l i) (s.1 i).signal.src, (s.1 i).signal.alive⟩,
        (s.1 i).value⟩).1 = ⟨true, false⟩ := by
      intro i
      have hq := (post i).dead (dead1 i (hd i))
      rcases (use i).2 with ⟨-, hl, -, hr⟩ | ⟨hl, -, hr⟩ | ⟨hl, -, hr⟩ | ⟨a, hl, -, hr⟩
      · exact hr
      · exact hr
      · rw [hl] at hq; have := hq _ (List.mem_singleton.2 rfl); cases this
      · rw [hl] at hq; have := hq _ (List.mem_singleton.2 rfl); cases this
    rcases a2 with ⟨⟨i, h4⟩, -⟩ | ⟨-, -, rfl⟩ | ⟨-, ⟨i, h4⟩, rfl⟩
    · rw [hall i] at h4; cases h4
    · rfl
    · rw [hall i] at h4; cases h4

/-! ## `switch` -/

/-- The case that the outer signal has nothing new. -/
theorem cswitch_stay {g : β → Net α γ} {p : Net α β} {w : Waker}
    (ihg : ∀ t {W s last r W' s'}, Good mine (g t) W s last → (g t).CPolls mine w W s r W' s' →
      CPost mine (g t) w W s last r W' s')
    {W W1 W' : Env α} {fl fl' : SFlatten β γ} {so so' : p.St} {si si' : Option ((t : β) × (g t).St)}
    {last : Option γ} {r : Poll (Option γ)} {lo : List (Poll (Option β))} {li : List (Poll (Option γ))}
    {x : Option β} {done : Bool} (hok : Ok W)
    (g3 : si = none → x = none ∧ fl.inner = none ∧ last = none)
    (g4 : ∀ t s, si = some ⟨t, s⟩ → x = some t ∧ Inv (g t) W s last ∧
        (∀ m i, p.Owns so m i → ¬ (g t).Owns s m i) ∧ (fl.inner = none → Dead (g t) W s))
    (g5 : ∀ t s, si = some ⟨t, s⟩ → ∀ m i, (g t).Owns s m i → mine m i)
    (Q1 : CPostMany mine p w W so x lo W1 so')
    (h5 : (si = none → si' = none ∧ li = [] ∧ W' = W1) ∧ ∀ t s, si = some ⟨t, s⟩ →
      ∃ s', si' = some ⟨t, s'⟩ ∧ Many ((g t).CPolls mine w) W1 s li W' s')
    (d0 : x ≠ none)
    (d2 : lo.foldl upd x = x) (d3 : fl'.signal.alive = false → done = true)
    (d4 : done = true → Dead p W1 so') (d5 : done = false → Rung w W W1 ∨ Waits w p W1 so')
    (d6 : Dead p W so → done = true) (d7 : InnerUse done fl.inner.isSome li r fl'.inner.isSome)
    (d8 : ∀ t, x = some t → p.Mix (Between W W1) t) :
    CPost mine (Net.switch g p) w W (fl, so, si) last r W' (fl', so', si') := by
  have own1 : ∀ m i, p.Owns so' m i → i < (W1 m).cells := fun m i hk => (own_lt Q1.good.inv hk).1
  cases si with
  | none => exact absurd (g3 rfl).1 d0
  | some q =>
    obtain ⟨t, s0⟩ := q
    obtain ⟨s1, rfl, hm⟩ := h5.2 t s0 rfl
    obtain ⟨k1, k2, k3, k4⟩ := g4 t s0 rfl
    have gd : Good mine (g t) W s0 last := ⟨k2, hok, g5 t s0 rfl⟩
    have lt0 : ∀ m i, (g t).Owns s0 m i → i < (W m).cells := fun m i h => (own_lt k2 h).1
    have dr01 : Drift ((g t).Owns s0) W W1 := Q1.calm.drift gd.live fun m i h ho => k3 m i ho h
    have gd1 := gd.drift dr01
    have Q2 := cmany_post (ihg t) gd1 hm
    have dr1 : Drift (p.Owns so') W1 W' := Q2.calm.drift Q1.good.live fun m i h ho => by
      rcases Q1.own m i h with h | h
      · exact k3 m i h ho
      · have := lt0 m i ho; omega
    -- the answer
    have use : (Dead (g t) W' s1 ∧ items li = [] ∧ li.foldl upd last = last ∧
          r = (if done then .ready none else .pending)) ∨
        (li = [.pending] ∧ r = .pending ∧ (Rung w W1 W' ∨ Waits w (g t) W' s1) ∧ fl'.inner.isSome = true) ∨
        (∃ b, li = [.ready (some b)] ∧ r = .ready (some b) ∧ fl'.inner.isSome = true) := by
      rcases d7 with ⟨e1, e2, e3, e4⟩ | ⟨e1, z, e2, ⟨rfl, e4, e5⟩ | ⟨e3, e4, e5⟩⟩
      · obtain ⟨n1, n2⟩ := Q2.nil e2
        refine .inl ⟨?_, by rw [e2]; rfl, by rw [e2]; rfl, e3⟩
        rw [n1, n2]
        exact dead_later dr01.later (k4 (by simpa using e1))
      · exact .inl ⟨Q2.ended (by rw [e2]; rfl), by rw [e2]; rfl, by rw [e2]; rfl, e4⟩
      · subst e4
        match r with
        | .ready none => exact absurd rfl e3
        | .pending => exact .inr (.inl ⟨e2, rfl, Q2.pend (by rw [e2]; rfl), e5⟩)
        | .ready (some b) => exact .inr (.inr ⟨b, e2, rfl, e5⟩)
    have hlast : li.foldl upd last = upd last r := by
      rcases use with ⟨-, -, e1, e2⟩ | ⟨e1, e2, -⟩ | ⟨b, e1, e2, -⟩
      · rw [e1, e2]; cases done <;> rfl
      · rw [e1, e2]; rfl
      · rw [e1, e2]; rfl
    have hdead : fl'.inner = none → Dead (g t) W' s1 := by
      intro hn
      rcases use with ⟨e, -⟩ | ⟨-, -, -, e⟩ | ⟨b, -, -, e⟩
      · exact e
      · rw [hn] at e; cases e
      · rw [hn] at e; cases e
    have inv2 : Inv (g t) W' s1 (upd last r) := hlast ▸ Q2.good.inv
    have disj : ∀ m i, p.Owns so' m i → ¬ (g t).Owns s1 m i := by
      intro m i h ho
      have a1 := own1 m i h
      rcases Q2.own m i ho with ho | ho
      · rcases Q1.own m i h with h | h
        · exact k3 m i h ho
        · have := lt0 m i ho; omega
      · omega
    have outer : Rung w W W' ∨ (Armed w p W' so' ∧ (done = false → ¬ Dead p W' so')) := by
      cases hdn : done with
      | true => exact .inr ⟨dead_armed (dead_later dr1.later (d4 hdn)), fun h => by cases h⟩
      | false =>
        rcases d5 hdn with h | h
        · exact .inl (h.left dr1.grow)
        · rcases waits_drift dr1 h with h | h
          · exact .inl (Rung.right Q1.calm.grow h)
          · exact .inr ⟨h.1, fun _ => h.2⟩
    refine ⟨?_, ⟨⟨x, ?_, ?_, ?_, ?_⟩, Q2.calm.ok, ?_⟩, fun b hb => ⟨t, ?_, ?_⟩, ?_, ?_, ?_, ?_, ?_⟩
    · exact Q1.calm.trans Q2.calm (fun m i _ h => Or.inl h) fun m i _ h => Or.inr ⟨t, s0, rfl, h⟩
    · have := inv_later dr1.later Q1.good.inv
      rw [d2] at this
      exact this
    · exact fun h => dead_later dr1.later (d4 (d3 h))
    · intro h; cases h
    · intro t' s' h
      cases h
      exact ⟨k1, inv2, disj, hdead⟩
    · rintro m i (h | ⟨t', s', h, ho⟩)
      · exact Q1.good.own m i h
      · cases h
        exact Q2.good.own m i ho
    · exact (d8 t k1).mono fun v hv => hv.mono (.refl _) Q2.calm.reach
    · rw [← hlast] at hb
      by_cases hl : li = []
      · rw [hl] at hb
        have hb : last = some b := hb
        rw [hb] at k2
        refine dead_mix k2 (k4 ?_) (.refl _) (Q1.calm.reach.trans Q2.calm.reach)
        rcases d7 with ⟨e1, -⟩ | ⟨-, z, e2, -⟩
        · simpa using e1
        · rw [hl] at e2; cases e2
      · exact (Q2.mix hl b hb).mono fun v hv => hv.mono Q1.calm.reach (.refl _)
    · rintro m i (h | ⟨t', s', h, ho⟩)
      · exact (Q1.own m i h).imp Or.inl id
      · cases h
        rcases Q2.own m i ho with h | h
        · exact .inl (Or.inr ⟨t, s0, rfl, h⟩)
        · exact .inr (Nat.le_trans (Q1.calm.cells m) h)
    · intro hl
      rcases use with ⟨e1, -, e2, -⟩ | ⟨e, -⟩ | ⟨b', -, e, -⟩
      · have hi := Q2.good.inv
        rw [e2] at hi
        exact absurd hl (dead_value hi e1)
      · obtain ⟨b, l', hb⟩ := Q2.first hl (by rw [e]; simp)
        rw [e] at hb; cases hb
      · exact ⟨b', e⟩
    · rintro rfl
      rcases use with ⟨e1, -, -, e2⟩ | ⟨-, e, -⟩ | ⟨b', -, e, -⟩
      · cases done with
        | true => exact ⟨dead_later dr1.later (d4 rfl), t, s1, rfl, e1⟩
        | false => cases e2
      · cases e
      · cases e
    · rintro rfl
      rcases outer with h | ⟨o1, o2⟩
      · exact .inl h
      · rcases use with ⟨e1, -, -, e2⟩ | ⟨-, -, e, -⟩ | ⟨b', -, e, -⟩
        · cases done with
          | true => cases e2
          | false => exact .inr ⟨⟨o1, t, s1, rfl, dead_armed e1⟩, fun hd => o2 rfl hd.1⟩
        · rcases e with e | e
          · exact .inl (Rung.right Q1.calm.grow e)
          · refine .inr ⟨⟨o1, t, s1, rfl, e.1⟩, ?_⟩
            rintro ⟨-, t', s', h, hd'⟩
            cases h
            exact e.2 hd'
        · cases e
    · rintro ⟨hd, t', s', h, hd'⟩
      cases h
      have hdn := d6 hd
      subst hdn
      have := Q2.dead (dead_later dr01.later hd')
      rcases use with ⟨-, -, -, e2⟩ | ⟨e, -⟩ | ⟨b', e, -⟩
      · exact e2
      · have := this _ (by rw [e]; exact List.mem_singleton.2 rfl); cases this
      · have := this _ (by rw [e]; exact List.mem_singleton.2 rfl); cases this

theorem cswitch_post {g : β → Net α γ} {p : Net α β} {w : Waker}
    (ihg : ∀ t {W s last r W' s'}, Good mine (g t) W s last → (g t).CPolls mine w W s r W' s' →
      CPost mine (g t) w W s last r W' s')
    (ih : ∀ {W s last r W' s'}, Good mine p W s last → p.CPolls mine w W s r W' s' →
      CPost mine p w W s last r W' s')
    {W W' : Env α} {s s' : (Net.switch g p).St} {last : Option γ} {r : Poll (Option γ)}
    (hi : Good mine (Net.switch g p) W s last) (h : (Net.switch g p).CPolls mine w W s r W' s') :
    CPost mine (Net.switch g p) w W s last r W' s' := by
  obtain ⟨fl, so, si⟩ := s
  obtain ⟨fl', so', si'⟩ := s'
  obtain ⟨lo, li, W1, h1, h2, h3, h4, h5, h6⟩ := h
  obtain ⟨⟨x, g1, g2, g3, g4⟩, hok, hmine⟩ := hi
  simp only at h1 h2 h3 h4 h5 h6 g1 g2 g3 g4
  have gdp : Good mine p W so x := ⟨g1, hok, fun m i ho => hmine m i (Or.inl ho)⟩
  have g5 : ∀ t s, si = some ⟨t, s⟩ → ∀ m i, (g t).Owns s m i → mine m i := fun t s hs m i ho =>
    hmine m i (Or.inr ⟨t, s, hs, ho⟩)
  have Q1 := cmany_post ih gdp h1
  have ok1 := Q1.calm.ok
  have own1 : ∀ m i, p.Owns so' m i → i < (W1 m).cells := fun m i hk => (own_lt Q1.good.inv hk).1
  -- the outer signal after its polls
  have deadP : lo = [] → fl.signal.alive = false → Dead p W1 so' := by
    intro hl ha
    obtain ⟨e1, e2⟩ := Q1.nil hl
    rw [e1, e2]
    exact g2 ha
  rcases flatten_use h2 h3 h4 with hh | hh | hh | ⟨t, hl, ha', hu⟩
  rotate_right
  · -- a new inner signal
    obtain ⟨W2, W3, sn, sn', m1, m2, m3, m4, m5⟩ := h6 t (by rw [hl]; rfl)
    obtain ⟨f12, invn, ownn⟩ := cmakes_ok m1 ok1
    -- the old inner signal
    have old : ∃ O, Calm mine O W2 W3 ∧ ∀ m i, O m i → i < (W m).cells ∧ ¬ p.Owns so m i ∧
        (∃ t0 s0, si = some ⟨t0, s0⟩ ∧ (g t0).Owns s0 m i) := by
      cases si with
      | none =>
        rw [m2 rfl]
        exact ⟨fun _ _ => False, Calm.refl _ f12.ok, fun m i h => h.elim⟩
      | some q =>
        obtain ⟨t0, s0⟩ := q
        obtain ⟨-, k2, k3, -⟩ := g4 t0 s0 rfl
        have lt0 : ∀ m i, (g t0).Owns s0 m i → i < (W m).cells := fun m i h => (own_lt k2 h).1
        have k0 : Good mine (g t0) W s0 last := ⟨k2, hok, g5 t0 s0 rfl⟩
        have k1 : Good mine (g t0) W1 s0 last :=
          k0.drift (Q1.calm.drift k0.live fun m i h ho => k3 m i ho h)
        have k4 : Good mine (g t0) W2 s0 last :=
          k1.drift (f12.drift k1.live fun m i h ho => ho)
        exact ⟨_, cdrops_ok (m3 t0 s0 rfl) k4, fun m i h =>
          ⟨lt0 m i h, fun ho => k3 m i ho h, t0, s0, rfl, h⟩⟩
    obtain ⟨O, f23, hO⟩ := old
    have inv3 : Good mine (g t) W3 sn none :=
      invn.drift (f23.drift invn.live fun m i h ho => by
        have a1 := ownn m i h
        have a2 := (hO m i ho).1
        have a3 := Q1.calm.cells m
        omega)
    have Q2 := cmany_post (ihg t) inv3 m5
    -- exactly one poll, with a value
    obtain ⟨z, hz, hu⟩ : ∃ z, li = [z] ∧ ((z = .ready none ∧ fl'.inner.isSome = false) ∨
        (z ≠ .ready none ∧ r = z ∧ fl'.inner.isSome = true)) := by
      rcases hu with ⟨h, -⟩ | ⟨-, z, hz, ⟨h7, -, h8⟩ | h7⟩
      · cases h
      · exact ⟨z, hz, .inl ⟨h7, h8⟩⟩
      · exact ⟨z, hz, .inr h7⟩
    obtain ⟨b, hb⟩ : ∃ b, z = .ready (some b) := by
      obtain ⟨b, l', hb⟩ := Q2.first rfl (by rw [hz]; simp)
      rw [hz] at hb
      cases hb
      exact ⟨b, rfl⟩
    subst hb
    obtain ⟨rfl, hin⟩ : r = .ready (some b) ∧ fl'.inner.isSome = true := by
      rcases hu with ⟨h, -⟩ | ⟨-, h, h'⟩
      · cases h
      · exact ⟨h, h'⟩
    -- the outer signal is not touched any more
    have calm13 : Calm mine O W1 W3 := f12.trans f23 (fun m i _ h => h.elim) fun m i _ h => h
    have dr13 : Drift (p.Owns so') W1 W3 := calm13.drift Q1.good.live fun m i h ho => by
      obtain ⟨a1, a2, -⟩ := hO m i ho
      rcases Q1.own m i h with h | h
      · exact a2 h
      · omega
    have gdp3 := Q1.good.drift dr13
    have dr3 : Drift (p.Owns so') W3 W' := Q2.calm.drift gdp3.live fun m i h ho => by
        have a1 := own1 m i h
        have a2 := ownn m i ho
        omega
    have gdp' := gdp3.drift dr3
    have disj : ∀ m i, p.Owns so' m i → ¬ (g t).Owns sn' m i := by
      intro m i h ho
      have a1 := own1 m i h
      have a3 := calm13.cells m
      rcases Q2.own m i ho with ho | ho
      · have := ownn m i ho; omega
      · omega
    have m4' : si' = some ⟨t, sn'⟩ := m4
    refine ⟨?_, ⟨⟨_, gdp'.inv, ?_, ?_, ?_⟩, Q2.calm.ok, ?_⟩, fun b' hb' => ⟨t, ?_, ?_⟩, ?_, ?_, ?_, ?_, ?_⟩
    · refine (Q1.calm.trans calm13 (P := (Net.switch g p).Owns (fl, so, si))
        (fun m i _ h => Or.inl h) fun m i _ h => Or.inr (hO m i h).2.2).trans Q2.calm
        (fun m i _ h => h) fun m i hlt h => ?_
      have a1 := ownn m i h
      have a2 := Q1.calm.cells m
      omega
    · intro h
      rw [ha'] at h; cases h
    · intro h
      rw [m4] at h; cases h
    · intro t1 s1 hs
      rw [m4] at hs
      cases hs
      refine ⟨by rw [hl]; rfl, ?_, disj, fun h => ?_⟩
      · have := Q2.good.inv
        rw [hz] at this
        exact this
      · simp only at h
        rw [h] at hin; cases hin
    · rintro m i (h | ⟨t1, s1, hs, h⟩)
      · exact gdp'.own m i h
      · simp only at hs
        rw [m4'] at hs
        cases hs
        exact Q2.good.own m i h
    · exact (Q1.mix (by rw [hl]; simp) t (by rw [hl]; rfl)).mono fun v hv =>
        hv.mono (.refl _) (calm13.reach.trans Q2.calm.reach)
    · refine (Q2.mix (by rw [hz]; simp) b' (by rw [hz]; exact hb')).mono fun v hv =>
        hv.mono (Q1.calm.reach.trans calm13.reach) (.refl _)
    · rintro m i (h | ⟨t1, s1, hs, h⟩)
      · exact (Q1.own m i h).imp Or.inl id
      · simp only at hs
        rw [m4'] at hs
        cases hs
        right
        have a2 := Q1.calm.cells m
        have a3 := calm13.cells m
        rcases Q2.own m i h with h | h
        · have := ownn m i h; omega
        · omega
    · exact fun _ => ⟨b, rfl⟩
    · intro h; cases h
    · intro h; cases h
    · intro hd
      have := Q1.dead hd.1 _ (by rw [hl]; exact List.mem_singleton.2 rfl)
      cases this
  -- the inner signal stays
  all_goals
    obtain ⟨done, d0, d1, d2, d3, d4, d5, d6, d7, d8⟩ : ∃ done, x ≠ none ∧ items lo = [] ∧
        lo.foldl upd x = x ∧
        (fl'.signal.alive = false → done = true) ∧ (done = true → Dead p W1 so') ∧
        (done = false → Rung w W W1 ∨ Waits w p W1 so') ∧ (Dead p W so → done = true) ∧
        InnerUse done fl.inner.isSome li r fl'.inner.isSome ∧
        (∀ t, x = some t → p.Mix (Between W W1) t) := by
      first
      | obtain ⟨ha, hl, -, hu⟩ := hh
        exact ⟨true, dead_value g1 (g2 ha), by rw [hl]; rfl, by rw [hl]; rfl, fun _ => rfl,
          fun _ => deadP hl ha, (fun h => by cases h), fun _ => rfl, hu,
          fun t ht => dead_mix (ht ▸ g1) (g2 ha) (.refl _) Q1.calm.reach⟩
      | obtain ⟨hl, ha', hu⟩ := hh
        have hx : x ≠ none := fun hx => by
          obtain ⟨b, l', hb⟩ := Q1.first hx (by rw [hl]; simp)
          rw [hl] at hb; cases hb
        exact ⟨true, hx, by rw [hl]; rfl, by rw [hl]; rfl, fun _ => rfl, fun _ => Q1.ended (by rw [hl]; rfl),
          (fun h => by cases h), fun _ => rfl, hu,
          fun t ht => Q1.mix (by rw [hl]; simp) t (by rw [hl]; exact ht)⟩
      | obtain ⟨hl, ha', hu⟩ := hh
        have hx : x ≠ none := fun hx => by
          obtain ⟨b, l', hb⟩ := Q1.first hx (by rw [hl]; simp)
          rw [hl] at hb; cases hb
        exact ⟨false, hx, by rw [hl]; rfl, by rw [hl]; rfl, (fun h => by rw [ha'] at h; cases h),
          (fun h => by cases h), fun _ => Q1.pend (by rw [hl]; rfl), (fun h => by
            have := Q1.dead h _ (by rw [hl]; exact List.mem_singleton.2 rfl)
            cases this), hu, fun t ht => Q1.mix (by rw [hl]; simp) t (by rw [hl]; exact ht)⟩
    exact cswitch_stay ihg hok g3 g4 g5 Q1 (h5 d1) d0 d2 d3 d4 d5 d6 d7 d8

/-! ## All expressions -/

theorem cmap_post {f : β → γ} {p : Net α β} {w : Waker}
    (ih : ∀ {W s last r W' s'}, Good mine p W s last → p.CPolls mine w W s r W' s' →
      CPost mine p w W s last r W' s')
    {W W' : Env α} {s s' : (Net.map f p).St} {last : Option γ} {r : Poll (Option γ)}
    (hi : Good mine (Net.map f p) W s last) (h : (Net.map f p).CPolls mine w W s r W' s') :
    CPost mine (Net.map f p) w W s last r W' s' := by
  obtain ⟨l, h1, h2, h3⟩ := h
  obtain ⟨⟨x, g1, rfl⟩, hok, hm⟩ := hi
  have Q := cmany_post ih ⟨g1, hok, hm⟩ h1
  obtain ⟨r0, hr, hl⟩ : ∃ r0 : Poll (Option β), l = [r0] ∧
      r = mapAns f r0 := by
    unfold SMap.poll at h2
    cases hp : (give l s.1.signal).poll w with
    | mk r0 s0 =>
      simp only [hp] at h2
      match r0 with
      | .ready (some b) =>
        simp only [Option.some.injEq, Prod.mk.injEq] at h2
        exact ⟨_, poll_took (s' := s0) hp (by rw [← h2.2] at h3; exact h3), h2.1.symm⟩
      | .ready none =>
        simp only [Option.some.injEq, Prod.mk.injEq] at h2
        exact ⟨_, poll_took (s' := s0) hp (by rw [← h2.2] at h3; exact h3), h2.1.symm⟩
      | .pending =>
        simp only [Option.some.injEq, Prod.mk.injEq] at h2
        exact ⟨_, poll_took (s' := s0) hp (by rw [← h2.2] at h3; exact h3), h2.1.symm⟩
  subst hl hr
  have hlast : upd (x.map f) (mapAns f r0) = (([r0] : List _).foldl upd x).map f := by
    match r0 with
    | .ready (some b) => rfl
    | .ready none => rfl
    | .pending => rfl
  refine ⟨Q.calm, ⟨⟨_, Q.good.inv, hlast⟩, Q.good.ok, Q.good.own⟩, fun b hb => ?_, Q.own, fun hl => ?_,
    fun hr => ?_, fun hr => ?_, fun hd => ?_⟩
  · rw [hlast] at hb
    obtain ⟨a, ha, rfl⟩ := Option.map_eq_some_iff.1 hb
    exact ⟨a, Q.mix (by simp) a ha, rfl⟩
  · obtain ⟨b, l', hb⟩ := Q.first (Option.map_eq_none_iff.1 hl) (by simp)
    cases hb
    exact ⟨f b, rfl⟩
  · match r0 with
    | .ready (some b) => cases hr
    | .ready none => exact Q.ended rfl
    | .pending => cases hr
  · match r0 with
    | .ready (some b) => cases hr
    | .ready none => cases hr
    | .pending => exact Q.pend rfl
  · have := Q.dead hd r0 (List.mem_singleton.2 rfl)
    subst this
    rfl

theorem cdedupe_post [DecidableEq β] {p : Net α β} {w : Waker}
    (ih : ∀ {W s last r W' s'}, Good mine p W s last → p.CPolls mine w W s r W' s' →
      CPost mine p w W s last r W' s')
    {W W' : Env α} {s s' : (Net.dedupe p).St} {last : Option β} {r : Poll (Option β)}
    (hi : Good mine (Net.dedupe p) W s last) (h : (Net.dedupe p).CPolls mine w W s r W' s') :
    CPost mine (Net.dedupe p) w W s last r W' s' := by
  obtain ⟨l, h1, h2, h3⟩ := h
  obtain ⟨⟨g1, g2⟩, hok, hm⟩ := hi
  have Q := cmany_post ih ⟨g1, hok, hm⟩ h1
  obtain ⟨st, c, s0, hp⟩ : ∃ st c s0, (give l s.1.signal).loop w
      (dedupeBody fun _ value => ((value, value), ())) (s.1.oldValue, ()) = (st, c, s0) := ⟨_, _, _, rfl⟩
  have key : r = stopAns st ∧ s'.1.oldValue = c.1 ∧ s'.1.signal = s0 ∧ st ≠ .panic := by
    unfold SDedupe.poll SDedupeMap.poll at h2
    simp only [hp] at h2
    cases st <;> simp only [Option.some.injEq, Prod.mk.injEq, reduceCtorEq] at h2
    all_goals exact ⟨h2.1.symm, by rw [← h2.2], by rw [← h2.2], by simp⟩
  obtain ⟨rfl, k1, k2, k3⟩ := key
  rw [g2] at hp
  have U := loop_run hp (k2 ▸ h3)
  obtain ⟨u1, u2, -, u3⟩ := dedupe_run U
  have hinv := Q.good.inv
  rw [← u1, u2] at hinv
  exact ⟨Q.calm, ⟨⟨hinv, by rw [k1, u2]⟩, Q.good.ok, Q.good.own⟩,
    fun b hb => Q.mix U.ne b (by rw [← u1, u2]; exact hb), Q.own, fun hl => u3 hl (Q.first hl U.ne),
    fun hr => Q.ended (U.ended' hr), fun hr => Q.pend (U.pend k3 hr), fun hd => U.dead (Q.dead hd)⟩

theorem ceq_post [DecidableEq β] {b : β} {p : Net α β} {w : Waker}
    (ih : ∀ {W s last r W' s'}, Good mine p W s last → p.CPolls mine w W s r W' s' →
      CPost mine p w W s last r W' s')
    {W W' : Env α} {s s' : (Net.eq b p).St} {last : Option Bool} {r : Poll (Option Bool)}
    (hi : Good mine (Net.eq b p) W s last) (h : (Net.eq b p).CPolls mine w W s r W' s') :
    CPost mine (Net.eq b p) w W s last r W' s' := by
  obtain ⟨l, h1, h2, h3⟩ := h
  obtain ⟨⟨x, g1, rfl, g3, g4⟩, hok, hm⟩ := hi
  have Q := cmany_post ih ⟨g1, hok, hm⟩ h1
  obtain ⟨st, c, s0, hp⟩ : ∃ st c s0, (give l s.1.signal).loop w
      (eqBody s.1.value) s.1.matched = (st, c, s0) := ⟨_, _, _, rfl⟩
  have key : r = stopAns st ∧ s'.1.matched = c ∧ s'.1.value = s.1.value ∧ s'.1.signal = s0 ∧ st ≠ .panic := by
    unfold SEq.poll at h2
    simp only [hp] at h2
    cases st <;> simp only [Option.some.injEq, Prod.mk.injEq, reduceCtorEq] at h2
    all_goals exact ⟨h2.1.symm, by rw [← h2.2], by rw [← h2.2], by rw [← h2.2], by simp⟩
  obtain ⟨rfl, k1, k2, k3, k4⟩ := key
  rw [g3, g4] at hp
  have U := loop_run hp (k3 ▸ h3)
  obtain ⟨u1, u2, -, u3⟩ := match_run (t := (· == b)) (fun _ _ => rfl) U
  exact ⟨Q.calm, ⟨⟨_, Q.good.inv, by rw [← u1, u2], by rw [k1, u2], by rw [k2, g4]⟩, Q.good.ok, Q.good.own⟩,
    (fun c hc => by
      rw [← u2, u1] at hc
      obtain ⟨a, ha, rfl⟩ := Option.map_eq_some_iff.1 hc
      exact ⟨a, Q.mix U.ne a ha, rfl⟩),
    Q.own, fun hl => u3 (Option.map_eq_none_iff.1 hl) (Q.first (Option.map_eq_none_iff.1 hl) U.ne),
    fun hr => Q.ended (U.ended' hr), fun hr => Q.pend (U.pend k4 hr), fun hd => U.dead (Q.dead hd)⟩

theorem cneq_post [DecidableEq β] {b : β} {p : Net α β} {w : Waker}
    (ih : ∀ {W s last r W' s'}, Good mine p W s last → p.CPolls mine w W s r W' s' →
      CPost mine p w W s last r W' s')
    {W W' : Env α} {s s' : (Net.neq b p).St} {last : Option Bool} {r : Poll (Option Bool)}
    (hi : Good mine (Net.neq b p) W s last) (h : (Net.neq b p).CPolls mine w W s r W' s') :
    CPost mine (Net.neq b p) w W s last r W' s' := by
  obtain ⟨l, h1, h2, h3⟩ := h
  obtain ⟨⟨x, g1, rfl, g3, g4⟩, hok, hm⟩ := hi
  have Q := cmany_post ih ⟨g1, hok, hm⟩ h1
  obtain ⟨st, c, s0, hp⟩ : ∃ st c s0, (give l s.1.signal).loop w
      (neqBody s.1.value) s.1.matched = (st, c, s0) := ⟨_, _, _, rfl⟩
  have key : r = stopAns st ∧ s'.1.matched = c ∧ s'.1.value = s.1.value ∧ s'.1.signal = s0 ∧ st ≠ .panic := by
    unfold SNeq.poll at h2
    simp only [hp] at h2
    cases st <;> simp only [Option.some.injEq, Prod.mk.injEq, reduceCtorEq] at h2
    all_goals exact ⟨h2.1.symm, by rw [← h2.2], by rw [← h2.2], by rw [← h2.2], by simp⟩
  obtain ⟨rfl, k1, k2, k3, k4⟩ := key
  rw [g3, g4] at hp
  have U := loop_run hp (k3 ▸ h3)
  obtain ⟨u1, u2, -, u3⟩ := match_run (t := (· != b)) (fun _ _ => rfl) U
  exact ⟨Q.calm, ⟨⟨_, Q.good.inv, by rw [← u1, u2], by rw [k1, u2], by rw [k2, g4]⟩, Q.good.ok, Q.good.own⟩,
    (fun c hc => by
      rw [← u2, u1] at hc
      obtain ⟨a, ha, rfl⟩ := Option.map_eq_some_iff.1 hc
      exact ⟨a, Q.mix U.ne a ha, rfl⟩),
    Q.own, fun hl => u3 (Option.map_eq_none_iff.1 hl) (Q.first (Option.map_eq_none_iff.1 hl) U.ne),
    fun hr => Q.ended (U.ended' hr), fun hr => Q.pend (U.pend k4 hr), fun hd => U.dead (Q.dead hd)⟩

/-- What a poll of a network does. -/
theorem cpolls_post {p : Net α β} {w : Waker} {W W' : Env α} {s s' : p.St} {last : Option β}
    {r : Poll (Option β)} (hi : Good mine p W s last) (h : p.CPolls mine w W s r W' s') :
    CPost mine p w W s last r W' s' := by
  induction p generalizing W W' with
  | source m => exact csource_post hi h
  | always b => exact calways_post hi h
  | map f p ih => exact cmap_post (fun hi h => ih hi h) hi h
  | dedupe p ih => exact cdedupe_post (fun hi h => ih hi h) hi h
  | eq b p ih => exact ceq_post (fun hi h => ih hi h) hi h
  | neq b p ih => exact cneq_post (fun hi h => ih hi h) hi h
  | mapRef ps f ih => exact cmapRef_post (fun i {_ _ _ _ _ _} hi h => ih i hi h) hi h
  | switch g p ihg ih =>
    exact cswitch_post (fun t {_ _ _ _ _ _} hi h => ihg t hi h) (fun hi h => ih hi h) hi h

end Verif.Net
