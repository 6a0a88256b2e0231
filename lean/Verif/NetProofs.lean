import Verif.NetInv

/-!
# Networks of signals: construction, drop, poll
-/

namespace Verif.Net

variable {α β γ σ : Type}

/-! ## Chains of frames -/

theorem frame_chain {n : Nat} {Ws : Nat → Env α} {O : Nat → Nat → Nat → Prop} (h0 : ∀ a, a ≤ n → Ok (Ws a))
    (h : ∀ i, i < n → Frame (O i) (Ws i) (Ws (i + 1))) (a b : Nat) (hab : a ≤ b) (hb : b ≤ n) :
    Frame (fun m k => ∃ i, a ≤ i ∧ i < b ∧ O i m k) (Ws a) (Ws b) := by
  induction b with
  | zero =>
    obtain rfl : a = 0 := by omega
    exact Frame.refl _ (h0 0 hb)
  | succ b ih =>
    by_cases hh : a = b + 1
    · subst hh; exact Frame.refl _ (h0 _ hb)
    · refine (ih (by omega) (by omega)).trans (h b (by omega)) ?_ ?_
      · rintro m k - ⟨i, h1, h2, h3⟩; exact ⟨i, h1, by omega, h3⟩
      · rintro m k - h3; exact ⟨b, by omega, by omega, h3⟩

/-! ## Construction -/

theorem signalState_step (x : Mut.World α) : x.step .signal = some (.unit, x.signalState) := rfl

theorem signalState_props (x : Mut.World α) : x.signalState.value = x.value ∧
    x.signalState.senders = x.senders ∧ x.signalState.woken = x.woken ∧
    x.signalState.cells = x.cells + 1 ∧ (∀ i, i < x.cells → x.signalState.cell i = x.cell i) ∧
    x.signalState.cell x.cells = Mut.ChangedWaker.new := by
  unfold Mut.World.signalState
  by_cases h : x.senders ≠ 0
  · rw [if_pos h]
    exact ⟨rfl, rfl, rfl, rfl, fun i hi => by simp [Mut.World.setCell]; omega, by simp [Mut.World.setCell]⟩
  · rw [if_neg h]
    exact ⟨rfl, rfl, rfl, rfl, fun i hi => by simp [Mut.World.setCell]; omega, by simp [Mut.World.setCell]⟩

theorem inputValues_none {n : Nat} (ms : Fin (n + 1) → MapRef1 β) (h : ∀ i, (ms i).value = none) :
    inputValues (List.ofFn ms) = none := by
  rw [List.ofFn_succ]
  simp only [inputValues, h 0]

theorem makes_ok {p : Net α β} {W W' : Env α} {s : p.St} (h : p.Makes W s W') (hok : Ok W) :
    Frame (fun _ _ => False) W W' ∧ Inv p W' s none ∧ ∀ m i, p.Owns s m i → (W m).cells ≤ i := by
  induction p generalizing W W' with
  | source m =>
    obtain ⟨rfl, rfl⟩ := h
    obtain ⟨h1, h2, h3, h4, h5, h6⟩ := signalState_props (W m)
    refine ⟨frame_put hok (signalState_step _) h1 h2 h3 (by omega) fun i hi _ => h5 i hi,
      ⟨?_, ?_, ?_⟩, ?_⟩
    · rw [put_same, h4]; omega
    · rw [put_same, h6]; rfl
    · rw [put_same, h6]; intro h; cases h
    · rintro m' i ⟨rfl, rfl⟩; exact Nat.le_refl _
  | always b =>
    obtain ⟨rfl, rfl⟩ := h
    exact ⟨Frame.refl _ hok, .inl ⟨rfl, rfl⟩, fun m i h => h.elim⟩
  | map f p ih =>
    obtain ⟨-, h2⟩ := h
    obtain ⟨k1, k2, k3⟩ := ih h2 hok
    exact ⟨k1, ⟨none, k2, rfl⟩, k3⟩
  | dedupe p ih =>
    obtain ⟨h1, h2⟩ := h
    obtain ⟨k1, k2, k3⟩ := ih h2 hok
    exact ⟨k1, ⟨k2, by rw [h1]; rfl⟩, k3⟩
  | eq b p ih =>
    obtain ⟨h1, h2⟩ := h
    obtain ⟨k1, k2, k3⟩ := ih h2 hok
    exact ⟨k1, ⟨none, k2, rfl, by rw [h1]; rfl, by rw [h1]; rfl⟩, k3⟩
  | neq b p ih =>
    obtain ⟨h1, h2⟩ := h
    obtain ⟨k1, k2, k3⟩ := ih h2 hok
    exact ⟨k1, ⟨none, k2, rfl, by rw [h1]; rfl, by rw [h1]; rfl⟩, k3⟩
  | @mapRef _ _ n ps f ih =>
    obtain ⟨h1, Ws, rfl, rfl, h2⟩ := h
    have step : ∀ i : Fin (n + 1), Ok (Ws i) → _ := fun i hi => ih i (h2 i) hi
    have oks : ∀ a, a ≤ n + 1 → Ok (Ws a) := by
      intro a ha
      induction a with
      | zero => exact hok
      | succ a iha => exact (step ⟨a, by omega⟩ (iha (by omega))).1.ok
    have post := fun i : Fin (n + 1) => step i (oks i (by omega))
    have ch := frame_chain (O := fun _ _ _ => False) oks
      (fun i hi => (post ⟨i, hi⟩).1)
    have ch' : ∀ a b, a ≤ b → b ≤ n + 1 → Frame (fun _ _ => False) (Ws a) (Ws b) := fun a b h1 h2 =>
      (ch a b h1 h2).mono fun m k _ ⟨_, _, _, h⟩ => h
    have lt : ∀ i m k, (ps i).Owns (s.2 i) m k → k < (Ws (i + 1) m).cells := fun i m k hk =>
      (own_lt (post i).2.1 hk).1
    refine ⟨ch' 0 (n + 1) (by omega) (by omega), ⟨fun i => ⟨?_, ?_⟩, ?_, ?_⟩, ?_⟩
    · rw [h1 i]
      exact inv_later ((ch' (i + 1) (n + 1) (by omega) (by omega)).same
        (fun m k hk => lt i m k hk) (fun _ _ _ h => h)).later (post i).2.1
    · rw [h1 i]; intro h; cases h
    · have key : ∀ i j : Fin (n + 1), i < j → ∀ m k, (ps i).Owns (s.2 i) m k →
          ¬ (ps j).Owns (s.2 j) m k := by
        intro i j hij m k hi hj
        have a1 := lt i m k hi
        have a2 := (post j).2.2 m k hj
        have a3 := (ch' (i + 1) j (by omega) (by omega)).cells m
        omega
      intro i j m k hij hi hj
      rcases Nat.lt_or_gt_of_ne (fun h => hij (Fin.ext h)) with h | h
      · exact key i j h m k hi hj
      · exact key j i h m k hj hi
    · rw [inputValues_none _ fun i => by rw [h1 i]]; rfl
    · rintro m k ⟨i, hk⟩
      exact Nat.le_trans ((ch' 0 i (by omega) (by omega)).cells m) ((post i).2.2 m k hk)
  | switch g p ihg ih =>
    obtain ⟨h1, h2, h3⟩ := h
    obtain ⟨k1, k2, k3⟩ := ih h2 hok
    refine ⟨k1, ⟨none, k2, ?_, fun _ => ⟨rfl, by rw [h1]; rfl, rfl⟩, fun t si hs => ?_⟩, ?_⟩
    · rw [h1]; intro h; cases h
    · rw [h3] at hs; cases hs
    · rintro m i (h | ⟨t, si, hs, -⟩)
      · exact k3 m i h
      · rw [h3] at hs; cases hs

/-! ## Drop -/

theorem drops_ok {p : Net α β} {W W' : Env α} {s : p.St} {last : Option β} (h : p.Drops W s W')
    (hi : Inv p W s last) (hok : Ok W) : Frame (p.Owns s) W W' := by
  induction p generalizing W W' with
  | source m =>
    obtain rfl := h
    have hs : (W m).step (.dropSignal s) = some (.unit, (W m).dropSignal s) := by
      simp only [Mut.World.step]
      rw [if_pos ⟨hi.1, hi.2.1⟩]
    refine frame_put hok hs rfl rfl rfl (Nat.le_refl _) fun i h1 h2 => ?_
    have : i ≠ s := fun h => h2 ⟨rfl, h⟩
    simp [Mut.World.dropSignal, Mut.World.setCell, this]
  | always b => obtain rfl := h; exact Frame.refl _ hok
  | map f p ih => obtain ⟨x, h1, -⟩ := hi; exact ih h h1 hok
  | dedupe p ih => exact ih h hi.1 hok
  | eq b p ih => obtain ⟨x, h1, -⟩ := hi; exact ih h h1 hok
  | neq b p ih => obtain ⟨x, h1, -⟩ := hi; exact ih h h1 hok
  | @mapRef _ _ n ps f ih =>
    obtain ⟨Ws, rfl, rfl, h2⟩ := h
    obtain ⟨g1, g2, -⟩ := hi
    have key : ∀ a, a ≤ n + 1 → (∀ b, b ≤ a → Ok (Ws b)) ∧
        ∀ i : Fin (n + 1), i < a → Frame ((ps i).Owns (s.2 i)) (Ws i) (Ws (i + 1)) := by
      intro a ha
      induction a with
      | zero => exact ⟨fun b hb => by obtain rfl : b = 0 := by omega
                                      exact hok, fun i hi => absurd hi (by omega)⟩
      | succ a iha =>
        obtain ⟨i1, i2⟩ := iha (by omega)
        have ch := frame_chain (O := fun i m k => ∃ hi : i < n + 1, (ps ⟨i, hi⟩).Owns (s.2 ⟨i, hi⟩) m k)
          i1 (fun i hi => (i2 ⟨i, by omega⟩ hi).mono fun m k _ hk => ⟨by omega, hk⟩) 0 a (by omega) (by omega)
        have hinv : Inv (ps ⟨a, by omega⟩) (Ws a) (s.2 ⟨a, by omega⟩) (s.1 ⟨a, by omega⟩).value := by
          refine inv_later (ch.same (fun m k hk => (own_lt (g1 _).1 hk).1) ?_).later (g1 _).1
          rintro m k hk ⟨i, -, hi, hi', h3⟩
          exact g2 _ _ m k (by intro h; cases h; omega) hk h3
        have fr := ih ⟨a, by omega⟩ (h2 ⟨a, by omega⟩) hinv (i1 a (Nat.le_refl _))
        refine ⟨fun b hb => ?_, fun i hi => ?_⟩
        · by_cases hb' : b ≤ a
          · exact i1 b hb'
          · obtain rfl : b = a + 1 := by omega
            exact fr.ok
        · by_cases hi' : i < a
          · exact i2 i hi'
          · have he : i = ⟨a, by omega⟩ := Fin.ext (by simp; omega)
            rw [he]
            exact fr
    obtain ⟨k1, k2⟩ := key (n + 1) (Nat.le_refl _)
    refine (frame_chain (O := fun i m k => ∃ hi : i < n + 1, (ps ⟨i, hi⟩).Owns (s.2 ⟨i, hi⟩) m k) k1
      (fun i hi => (k2 ⟨i, hi⟩ hi).mono fun m k _ hk => ⟨hi, hk⟩) 0 (n + 1) (by omega) (by omega)).mono ?_
    rintro m k - ⟨i, -, -, hi, hk⟩
    exact ⟨_, hk⟩
  | switch g p ihg ih =>
    obtain ⟨fl, so, si⟩ := s
    obtain ⟨W1, h1, h2, h3⟩ := h
    obtain ⟨x, g1, -, -, g4⟩ := hi
    have f1 := ih h1 g1 hok
    cases si with
    | none =>
      obtain rfl := h2 rfl
      exact f1.mono fun m i _ h => Or.inl h
    | some q =>
      obtain ⟨t, si⟩ := q
      obtain ⟨-, g5, g6, -⟩ := g4 t si rfl
      have g5' : Inv (g t) W1 si last :=
        inv_later (f1.same (fun m i hi => (own_lt g5 hi).1) fun m i hi ho => g6 m i ho hi).later g5
      have f2 := ihg t (h3 t si rfl) g5' f1.ok
      exact f1.trans f2 (fun m i _ h => Or.inl h) fun m i _ h => Or.inr ⟨t, si, rfl, h⟩

/-! ## Polls -/

/-- The last value, after an answer. -/
def upd (last : Option β) : Poll (Option β) → Option β
  | .ready (some b) => some b
  | _ => last

/-- What a poll does. -/
structure Post (p : Net α β) (w : Waker) (W : Env α) (s : p.St) (last : Option β)
    (r : Poll (Option β)) (W' : Env α) (s' : p.St) : Prop where
  frame : Frame (p.Owns s) W W'
  inv : Inv p W' s' (upd last r)
  clean : Clean p W' s'
  own : ∀ m i, p.Owns s' m i → p.Owns s m i ∨ (W m).cells ≤ i
  quiet : Clean p W s → ∀ b, r ≠ .ready (some b)
  ended : r = .ready none → Dead p W' s'
  pend : r = .pending → Armed w p W' s'
  dead : Dead p W s → r = .ready none
  alive : r = .pending → ¬ Dead p W' s'
  back : Clean p W s → Dead p W' s' → Dead p W s

/-- What several polls do. -/
structure PostMany (p : Net α β) (w : Waker) (W : Env α) (s : p.St) (last : Option β)
    (l : List (Poll (Option β))) (W' : Env α) (s' : p.St) : Prop where
  frame : Frame (p.Owns s) W W'
  inv : Inv p W' s' (l.foldl upd last)
  clean : l ≠ [] → Clean p W' s'
  own : ∀ m i, p.Owns s' m i → p.Owns s m i ∨ (W m).cells ≤ i
  quiet : Clean p W s → items l = []
  tail : items l.tail = []
  ended : l.getLast? = some (.ready none) → Dead p W' s'
  pend : l.getLast? = some .pending → Armed w p W' s'
  dead : Dead p W s → ∀ r ∈ l, r = .ready none
  nil : l = [] → W' = W ∧ s' = s
  alive : l.getLast? = some .pending → ¬ Dead p W' s'
  back : Clean p W s → Dead p W' s' → Dead p W s

theorem items_not_some {r : Poll (Option β)} {l : List (Poll (Option β))} (h : ∀ b, r ≠ .ready (some b)) :
    items (r :: l) = items l := by
  match r with
  | .ready (some b) => exact absurd rfl (h b)
  | .ready none => rfl
  | .pending => rfl

theorem many_post {p : Net α β} {w : Waker}
    (hp : ∀ {W s last r W' s'}, Inv p W s last → Ok W → p.Polls w W s r W' s' →
      Post p w W s last r W' s') {l : List (Poll (Option β))} {W W' : Env α} {s s' : p.St}
    {last : Option β} (hi : Inv p W s last) (hok : Ok W) (h : Many (p.Polls w) W s l W' s') :
    PostMany p w W s last l W' s' := by
  induction l generalizing W s last with
  | nil =>
    obtain ⟨rfl, rfl⟩ := h
    exact ⟨Frame.refl _ hok, hi, by simp, fun m i h => .inl h, fun _ => rfl, rfl, by simp, by simp, by simp,
      fun _ => ⟨rfl, rfl⟩, by simp, fun _ h => h⟩
  | cons r l ih =>
    obtain ⟨W1, s1, h1, h2⟩ := h
    have q := hp hi hok h1
    have Q := ih q.inv q.frame.ok h2
    have hl : items l = [] := Q.quiet q.clean
    refine ⟨q.frame.trans Q.frame (fun m i _ h => h) ?_, Q.inv, fun _ => ?_, ?_, fun hc => ?_, hl, ?_, ?_,
      ?_, by simp, ?_, fun hc hd => q.back hc (Q.back q.clean hd)⟩
    · intro m i hlt h
      exact (q.own m i h).resolve_right (by omega)
    · cases l with
      | nil => obtain ⟨rfl, rfl⟩ := Q.nil rfl; exact q.clean
      | cons _ _ => exact Q.clean (by simp)
    · intro m i h
      rcases Q.own m i h with h | h
      · exact q.own m i h
      · exact .inr (Nat.le_trans (q.frame.cells m) h)
    · rw [items_not_some (q.quiet hc)]; exact hl
    · intro hn
      cases l with
      | nil =>
        obtain ⟨rfl, rfl⟩ := Q.nil rfl
        simp only [List.getLast?_singleton, Option.some.injEq] at hn
        exact q.ended hn
      | cons a l => exact Q.ended (by rw [List.getLast?_cons_cons] at hn; exact hn)
    · intro hn
      cases l with
      | nil =>
        obtain ⟨rfl, rfl⟩ := Q.nil rfl
        simp only [List.getLast?_singleton, Option.some.injEq] at hn
        exact q.pend hn
      | cons a l => exact Q.pend (by rw [List.getLast?_cons_cons] at hn; exact hn)
    · intro hd r' hr'
      have hr := q.dead hd
      rcases List.mem_cons.1 hr' with rfl | hr'
      · exact hr
      · exact Q.dead (q.ended hr) r' hr'
    · intro hn
      cases l with
      | nil =>
        obtain ⟨rfl, rfl⟩ := Q.nil rfl
        simp only [List.getLast?_singleton, Option.some.injEq] at hn
        exact q.alive hn
      | cons a l => exact Q.alive (by rw [List.getLast?_cons_cons] at hn; exact hn)

/-! ### What a combinator takes -/

theorem poll_took {ρ : Type} {l : List (Poll ρ)} {s s' : Src ρ} {w : Waker} {r : Poll ρ}
    (h : (give l s).poll w = (r, s')) (ht : Took l s s') : l = [r] := by
  unfold give Src.poll at h
  unfold Took at ht
  match l with
  | [] => cases h; simp at ht
  | [x] => cases h; rfl
  | x :: y :: l => cases h; simp at ht

/-- The ways a loop can use the answers it gets, if all but the first are no values. -/
inductive LoopUse {ρ : Type} (body : σ → β → Ctl σ ρ) (c : σ) :
    List (Poll (Option β)) → Stop ρ → σ → Prop where
  | pending : LoopUse body c [.pending] .pending c
  | ended : LoopUse body c [.ready none] .ended c
  | ret {a c' r} : body c a = .ret c' r → LoopUse body c [.ready (some a)] (.ret r) c'
  | panic {a} : body c a = .panic → LoopUse body c [.ready (some a)] .panic c
  | contPending {a c'} : body c a = .cont c' → LoopUse body c [.ready (some a), .pending] .pending c'
  | contEnded {a c'} : body c a = .cont c' → LoopUse body c [.ready (some a), .ready none] .ended c'

theorem loop_took {ρ : Type} {body : σ → β → Ctl σ ρ} {l : List (Poll (Option β))} {s s' : Src (Option β)}
    {w : Waker} {c c' : σ} {st : Stop ρ} (h : (give l s).loop w body c = (st, c', s'))
    (ht : Took l s s') (hl : items l.tail = []) : LoopUse body c l st c' := by
  unfold give Src.loop at h
  unfold Took at ht
  match l with
  | [] => cases h; simp at ht
  | .pending :: l =>
    cases h
    cases l with
    | nil => exact .pending
    | cons _ _ => simp at ht
  | .ready none :: l =>
    cases h
    cases l with
    | nil => exact .ended
    | cons _ _ => simp at ht
  | .ready (some a) :: l =>
    simp only [pollLoop] at h
    cases hb : body c a with
    | ret c1 r =>
      rw [hb] at h
      cases h
      cases l with
      | nil => exact .ret hb
      | cons _ _ => simp at ht
    | panic =>
      rw [hb] at h
      cases h
      cases l with
      | nil => exact .panic hb
      | cons _ _ => simp at ht
    | cont c1 =>
      rw [hb] at h
      simp only at h
      match l with
      | [] => cases h; simp at ht
      | .pending :: l =>
        cases h
        cases l with
        | nil => exact .contPending hb
        | cons _ _ => simp at ht
      | .ready none :: l =>
        cases h
        cases l with
        | nil => exact .contEnded hb
        | cons _ _ => simp at ht
      | .ready (some b) :: l => simp [items] at hl

/-- The answer of a combinator whose loop stopped. -/
def stopAns {ρ : Type} : Stop ρ → Poll (Option ρ)
  | .ret r => .ready (some r)
  | .ended => .ready none
  | .pending => .pending
  | .panic => .pending

theorem LoopUse.ne {ρ : Type} {body : σ → β → Ctl σ ρ} {c c' : σ} {l : List (Poll (Option β))} {st : Stop ρ}
    (h : LoopUse body c l st c') : l ≠ [] := by cases h <;> simp

theorem LoopUse.quiet {ρ : Type} {body : σ → β → Ctl σ ρ} {c c' : σ} {l : List (Poll (Option β))}
    {st : Stop ρ} (h : LoopUse body c l st c') (hl : items l = []) (b : ρ) :
    stopAns st ≠ .ready (some b) := by cases h <;> simp [items, stopAns] at hl ⊢

theorem LoopUse.ended' {ρ : Type} {body : σ → β → Ctl σ ρ} {c c' : σ} {l : List (Poll (Option β))}
    {st : Stop ρ} (h : LoopUse body c l st c') (hs : stopAns st = .ready none) :
    l.getLast? = some (.ready none) := by cases h <;> simp [stopAns] at hs ⊢

theorem LoopUse.pend {ρ : Type} {body : σ → β → Ctl σ ρ} {c c' : σ} {l : List (Poll (Option β))}
    {st : Stop ρ} (h : LoopUse body c l st c') (hp : st ≠ .panic) (hs : stopAns st = .pending) :
    l.getLast? = some .pending := by cases h <;> simp [stopAns] at hs hp ⊢

theorem LoopUse.dead {ρ : Type} {body : σ → β → Ctl σ ρ} {c c' : σ} {l : List (Poll (Option β))}
    {st : Stop ρ} (h : LoopUse body c l st c') (hl : ∀ r ∈ l, r = .ready none) :
    stopAns st = .ready none := by cases h <;> simp [stopAns] at hl ⊢

theorem dedupe_use [DecidableEq β] {last : Option β} {l : List (Poll (Option β))} {st : Stop β}
    {c : Option β × Unit}
    (h : LoopUse (dedupeBody fun _ value => ((value, value), ())) (last, ()) l st c) :
    c.1 = l.foldl upd last ∧ c.1 = upd last (stopAns st) ∧ st ≠ .panic := by
  have key : ∀ a, dedupeBody (fun (_ : Unit) (value : β) => ((value, value), ())) (last, ()) a =
      if last = some a then .cont (last, ()) else .ret (some a, ()) a := by
    intro a
    cases last with
    | none => simp [dedupeBody]
    | some b =>
      by_cases hb : b = a <;> simp [dedupeBody, hb]
  cases h with
  | pending => simp [upd, stopAns]
  | ended => simp [upd, stopAns]
  | @ret a c' r hb =>
    rw [key] at hb
    split at hb
    · cases hb
    · cases hb; simp [upd, stopAns]
  | @panic a hb => rw [key] at hb; split at hb <;> cases hb
  | @contPending a c' hb =>
    rw [key] at hb
    split at hb <;> cases hb
    rename_i h; simp [upd, stopAns, h]
  | @contEnded a c' hb =>
    rw [key] at hb
    split at hb <;> cases hb
    rename_i h; simp [upd, stopAns, h]

theorem match_use {t : β → Bool} {body : Option Bool → β → Ctl (Option Bool) Bool}
    (hbody : ∀ m a, body m a = if m ≠ some (t a) then .ret (some (t a)) (t a) else .cont m)
    {x : Option β} {l : List (Poll (Option β))} {st : Stop Bool}
    {c : Option Bool} (h : LoopUse body (x.map t) l st c) :
    c = (l.foldl upd x).map t ∧ c = upd (x.map t) (stopAns st) ∧ st ≠ .panic := by
  cases h with
  | pending => simp [upd, stopAns]
  | ended => simp [upd, stopAns]
  | @ret a c' r hb =>
    rw [hbody] at hb
    split at hb
    · cases hb; simp [upd, stopAns]
    · cases hb
  | @panic a hb => rw [hbody] at hb; split at hb <;> cases hb
  | @contPending a c' hb =>
    rw [hbody] at hb
    split at hb <;> cases hb
    rename_i h
    have h : x.map t = some (t a) := Decidable.not_not.1 h
    simp only [List.foldl_cons, upd, stopAns, List.foldl_nil, h]
    simp
  | @contEnded a c' hb =>
    rw [hbody] at hb
    split at hb <;> cases hb
    rename_i h
    have h : x.map t = some (t a) := Decidable.not_not.1 h
    simp only [List.foldl_cons, upd, stopAns, List.foldl_nil, h]
    simp

/-- What an input of `map_ref!` takes. -/
theorem mapRef1_took {l : List (Poll (Option β))} {m m' : MapRef1 β} {w : Waker} {res : PollResult}
    (h : MapRef1.poll w ⟨⟨give l m.signal.src, m.signal.alive⟩, m.value⟩ = (res, m'))
    (ht : Took l m.signal.src m'.signal.src) :
    m'.value = l.foldl upd m.value ∧
    ((m.signal.alive = false ∧ l = [] ∧ m'.signal.alive = false ∧ res = ⟨true, false⟩) ∨
     (l = [.ready none] ∧ m'.signal.alive = false ∧ res = ⟨true, false⟩) ∨
     (l = [.pending] ∧ m'.signal.alive = true ∧ res = ⟨false, false⟩) ∨
     ∃ a, l = [.ready (some a)] ∧ m'.signal.alive = true ∧ res = ⟨false, true⟩) := by
  obtain ⟨⟨⟨todo, hist⟩, alive⟩, value⟩ := m
  cases alive with
  | false =>
    simp [MapRef1.poll, Inp.poll, give] at h
    obtain ⟨rfl, rfl⟩ := h
    simp [Took] at ht
    subst ht
    simp
  | true =>
    match l with
    | [] =>
      simp [MapRef1.poll, Inp.poll, give, Src.poll] at h
      obtain ⟨rfl, rfl⟩ := h
      simp [Took] at ht
    | .pending :: l =>
      simp [MapRef1.poll, Inp.poll, give, Src.poll] at h
      obtain ⟨rfl, rfl⟩ := h
      simp [Took] at ht
      subst ht
      simp [upd]
    | .ready none :: l =>
      simp [MapRef1.poll, Inp.poll, give, Src.poll] at h
      obtain ⟨rfl, rfl⟩ := h
      simp [Took] at ht
      subst ht
      simp [upd]
    | .ready (some a) :: l =>
      simp [MapRef1.poll, Inp.poll, give, Src.poll] at h
      obtain ⟨rfl, rfl⟩ := h
      simp [Took] at ht
      subst ht
      simp [upd]

/-- What `flatten` does with its inner signal. -/
def InnerUse (done has : Bool) (li : List (Poll (Option γ))) (r : Poll (Option γ)) (has' : Bool) : Prop :=
  (has = false ∧ li = [] ∧ r = (if done then .ready none else .pending) ∧ has' = false) ∨
  (has = true ∧ ∃ z, li = [z] ∧
    ((z = .ready none ∧ r = (if done then .ready none else .pending) ∧ has' = false) ∨
     (z ≠ .ready none ∧ r = z ∧ has' = true)))

theorem pollInner_use {done : Bool} {w : Waker} {i : Inp (Option β)} {inner : Option (Made β (Option γ))}
    {old : List (Made β (Option γ))} {li : List (Poll (Option γ))} {r : Poll (Option γ)}
    {fl' : SFlatten β γ}
    (h : SFlatten.pollInner w done ⟨i, inner.map fun i => ⟨i.tag, give li i.src⟩, old⟩ = (r, fl'))
    (hn : innerPolls fl' = (old.map (·.src.hist.length)).sum +
      (inner.map (·.src.hist.length)).getD 0 + li.length) :
    fl'.signal = i ∧ InnerUse done inner.isSome li r fl'.inner.isSome := by
  cases inner with
  | none =>
    have h' : (if done then (Poll.ready none, ⟨i, none, old⟩) else (.pending, ⟨i, none, old⟩)) =
      (r, fl') := h
    have hf : fl' = ⟨i, none, old⟩ ∧ r = if done then .ready none else .pending := by
      cases done <;> simp at h' <;> exact ⟨h'.2.symm, by simp [h'.1]⟩
    obtain ⟨rfl, rfl⟩ := hf
    simp [innerPolls] at hn
    subst hn
    simp [InnerUse]
  | some m =>
    obtain ⟨tag, ⟨todo, hist⟩⟩ := m
    match li with
    | [] =>
      simp [SFlatten.pollInner, give, Src.poll] at h
      obtain ⟨rfl, rfl⟩ := h
      simp [innerPolls] at hn
    | .pending :: li =>
      simp [SFlatten.pollInner, give, Src.poll] at h
      obtain ⟨rfl, rfl⟩ := h
      simp [innerPolls] at hn
      obtain rfl : li = [] := List.eq_nil_of_length_eq_zero (by omega)
      simp [InnerUse]
    | .ready (some b) :: li =>
      simp [SFlatten.pollInner, give, Src.poll] at h
      obtain ⟨rfl, rfl⟩ := h
      simp [innerPolls] at hn
      obtain rfl : li = [] := List.eq_nil_of_length_eq_zero (by omega)
      simp [InnerUse]
    | .ready none :: li =>
      have h' : (if done then (Poll.ready none, (⟨i, none, old ++ [⟨tag, ⟨li, hist ++ [(w, .ready none)]⟩⟩]⟩ :
          SFlatten β γ)) else (.pending, ⟨i, none, old ++ [⟨tag, ⟨li, hist ++ [(w, .ready none)]⟩⟩]⟩)) =
        (r, fl') := h
      have hf : fl' = ⟨i, none, old ++ [⟨tag, ⟨li, hist ++ [(w, .ready none)]⟩⟩]⟩ ∧
          r = if done then .ready none else .pending := by
        cases done <;> simp at h' <;> exact ⟨h'.2.symm, by simp [h'.1]⟩
      obtain ⟨rfl, rfl⟩ := hf
      simp [innerPolls] at hn
      obtain rfl : li = [] := List.eq_nil_of_length_eq_zero (by omega)
      simp [InnerUse]

theorem flatten_use {w : Waker} {fl fl' : SFlatten β γ} {lo : List (Poll (Option β))}
    {li : List (Poll (Option γ))} {r : Poll (Option γ)}
    (h : SFlatten.poll (fun _ => li) w (giveFlatten lo li fl) = some (r, fl'))
    (ht : Took lo fl.signal.src fl'.signal.src) (hn : innerPolls fl' = innerPolls fl + li.length) :
    (fl.signal.alive = false ∧ lo = [] ∧ fl'.signal.alive = false ∧
      InnerUse true fl.inner.isSome li r fl'.inner.isSome) ∨
    (lo = [.ready none] ∧ fl'.signal.alive = false ∧
      InnerUse true fl.inner.isSome li r fl'.inner.isSome) ∨
    (lo = [.pending] ∧ fl'.signal.alive = true ∧
      InnerUse false fl.inner.isSome li r fl'.inner.isSome) ∨
    (∃ t, lo = [.ready (some t)] ∧ fl'.signal.alive = true ∧
      InnerUse false true li r fl'.inner.isSome) := by
  obtain ⟨⟨⟨todo, hist⟩, alive⟩, inner, old⟩ := fl
  cases alive with
  | false =>
    simp only [SFlatten.poll, giveFlatten, Inp.poll, Bool.false_eq_true, ↓reduceIte, Option.some.injEq] at h
    obtain ⟨rfl', hu⟩ := pollInner_use h (by rw [hn]; rfl)
    rw [rfl'] at ht ⊢
    simp [Took, give] at ht
    subst ht
    exact .inl ⟨rfl, rfl, rfl, hu⟩
  | true =>
    refine .inr ?_
    match lo with
    | [] =>
      simp only [SFlatten.poll, giveFlatten, Inp.poll, ↓reduceIte, Src.poll, give, Option.some.injEq] at h
      obtain ⟨rfl', hu⟩ := pollInner_use h (by rw [hn]; rfl)
      rw [rfl'] at ht
      simp [Took] at ht
    | .pending :: lo =>
      simp only [SFlatten.poll, giveFlatten, Inp.poll, ↓reduceIte, Src.poll, give, Option.some.injEq] at h
      obtain ⟨rfl', hu⟩ := pollInner_use h (by rw [hn]; rfl)
      rw [rfl'] at ht ⊢
      simp [Took] at ht
      subst ht
      exact .inr (.inl ⟨rfl, rfl, hu⟩)
    | .ready none :: lo =>
      simp only [SFlatten.poll, giveFlatten, Inp.poll, ↓reduceIte, Src.poll, give, Option.some.injEq] at h
      obtain ⟨rfl', hu⟩ := pollInner_use h (by rw [hn]; rfl)
      rw [rfl'] at ht ⊢
      simp [Took] at ht
      subst ht
      exact .inl ⟨rfl, rfl, hu⟩
    | .ready (some t) :: lo =>
      simp only [SFlatten.poll, giveFlatten, Inp.poll, ↓reduceIte, Src.poll, give, Option.some.injEq] at h
      obtain ⟨rfl', hu⟩ := pollInner_use (inner := some (Made.new (fun _ => []) t)) h (by
        rw [hn]; cases inner <;> simp [innerPolls, Made.new, Src.mk', Function.comp_def])
      rw [rfl'] at ht ⊢
      simp [Took] at ht
      subst ht
      exact .inr (.inr ⟨t, rfl, rfl, hu⟩)

end Verif.Net
