import Verif.NetConc
import Verif.NetEnv

/-!
# Networks polled while other threads use the `Mutable`s: frames, construction, drop
-/

namespace Verif.Net

variable {α β γ σ : Type} {mine : Nat → Nat → Prop}

/-! ## Wakers -/

/-- Wakers woken stay woken. -/
def Grow (W W' : Env α) : Prop := ∀ m, ∃ l, (W' m).woken = (W m).woken ++ l

theorem Grow.refl (W : Env α) : Grow W W := fun _ => ⟨[], by simp⟩

theorem Grow.trans {W W1 W2 : Env α} (h : Grow W W1) (h' : Grow W1 W2) : Grow W W2 := fun m => by
  obtain ⟨l, hl⟩ := h m
  obtain ⟨l', hl'⟩ := h' m
  exact ⟨l ++ l', by rw [hl', hl, List.append_assoc]⟩

theorem Rung.left {w : Waker} {W W1 W2 : Env α} (h : Rung w W W1) (h' : Grow W1 W2) : Rung w W W2 := by
  obtain ⟨m, l, hl, hw⟩ := h
  obtain ⟨l', hl'⟩ := h' m
  exact ⟨m, l ++ l', by rw [hl', hl, List.append_assoc], List.mem_append_left _ hw⟩

theorem Rung.right {w : Waker} {W W1 W2 : Env α} (h : Grow W W1) (h' : Rung w W1 W2) : Rung w W W2 := by
  obtain ⟨m, l, hl, hw⟩ := h'
  obtain ⟨l', hl'⟩ := h m
  exact ⟨m, l' ++ l, by rw [hl, hl', List.append_assoc], List.mem_append_right _ hw⟩

theorem later_refl (O : Nat → Nat → Prop) (W : Env α) : Later O W W :=
  ⟨fun _ => Nat.le_refl _, fun _ _ _ h => h, fun _ _ _ h => ⟨h, rfl⟩, fun _ h => ⟨h, rfl, fun _ _ => rfl⟩⟩

theorem later_trans {O : Nat → Nat → Prop} {W W1 W2 : Env α} (h : Later O W W1) (h' : Later O W1 W2) :
    Later O W W2 where
  cells m := Nat.le_trans (h.cells m) (h'.cells m)
  alive m i ho ha := h'.alive m i ho (h.alive m i ho ha)
  clean m i ho hc := by
    obtain ⟨k1, k2⟩ := h'.clean m i ho hc
    obtain ⟨k3, k4⟩ := h.clean m i ho k1
    exact ⟨k3, k2.trans k4⟩
  dead m hz := by
    obtain ⟨k1, k2, k3⟩ := h.dead m hz
    obtain ⟨k4, k5, k6⟩ := h'.dead m k1
    exact ⟨k4, k5.trans k2, fun i ho => (k6 i ho).trans (k3 i ho)⟩

/-! ## Moments -/

theorem Reach.trans {W W1 W2 : Env α} (h : Reach W W1) (h' : Reach W1 W2) : Reach W W2 := by
  induction h' with
  | refl => exact h
  | step _ ha hs ih => exact .step ih ha hs

theorem Reach.one {W : Env α} {m : Nat} {e : Mut.Ev α} {o : Mut.Obs α} {x : Mut.World α}
    (h : (W m).step e = some (o, x)) : Reach W (W.put m x) :=
  .step (.refl W) ⟨fun _ _ _ h => h, fun _ _ h => h⟩ h

theorem Others.reach {W W' : Env α} (h : Others mine W W') : Reach W W' := by
  induction h with
  | refl => exact .refl _
  | step _ _ hs ih => exact .step ih ⟨fun _ _ _ h => h, fun _ _ h => h⟩ hs

theorem Between.mono {W W1 W2 W3 : Env α} {v : Nat → α} (h : Between W1 W2 v) (h1 : Reach W W1)
    (h2 : Reach W2 W3) : Between W W3 v := by
  obtain ⟨Wm, k1, k2, k3⟩ := h
  exact ⟨Wm, h1.trans k1, k2.trans h2, k3⟩

theorem Net.Mix.mono {V V' : (Nat → α) → Prop} {p : Net α β} {b : β} (h : p.Mix V b)
    (hv : ∀ v, V v → V' v) : p.Mix V' b := by
  induction p with
  | source m => obtain ⟨v, h1, h2⟩ := h; exact ⟨v, hv v h1, h2⟩
  | always c => exact h
  | map f p ih => obtain ⟨a, h1, h2⟩ := h; exact ⟨a, ih h1, h2⟩
  | dedupe p ih => exact ih h
  | eq c p ih => obtain ⟨a, h1, h2⟩ := h; exact ⟨a, ih h1, h2⟩
  | neq c p ih => obtain ⟨a, h1, h2⟩ := h; exact ⟨a, ih h1, h2⟩
  | mapRef ps f ih => obtain ⟨a, h1, h2⟩ := h; exact ⟨a, fun i => ih i (h1 i), h2⟩
  | switch g p ihg ih => obtain ⟨t, h1, h2⟩ := h; exact ⟨t, ih h1, ihg t h2⟩

theorem Net.Mix.den {V : (Nat → α) → Prop} (p : Net α β) {v : Nat → α} (hv : V v) : p.Mix V (p.den v) := by
  induction p with
  | source m => exact ⟨v, hv, rfl⟩
  | always c => rfl
  | map f p ih => exact ⟨_, ih, rfl⟩
  | dedupe p ih => exact ih
  | eq c p ih => exact ⟨_, ih, rfl⟩
  | neq c p ih => exact ⟨_, ih, rfl⟩
  | mapRef ps f ih => exact ⟨_, ih, rfl⟩
  | switch g p ihg ih => exact ⟨_, ih, ihg _⟩

/-- A network that has ended. -/
theorem dead_mix {p : Net α β} {W W1 W2 : Env α} {s : p.St} {b : β} (hi : Inv p W s (some b))
    (hd : Dead p W s) (h1 : Reach W1 W) (h2 : Reach W W2) : p.Mix (Between W1 W2) b := by
  have := clean_den hi (armed_clean (w := 0) (dead_armed hd))
  cases this
  exact Net.Mix.den p ⟨W, h1, h2, rfl⟩

/-- What can happen to the signals in `O` while somebody else runs. -/
structure Drift (O : Nat → Nat → Prop) (W W' : Env α) : Prop where
  later : Later O W W'
  grow : Grow W W'
  kin : ∀ m i, O m i → ((W' m).cell i = (W m).cell i ∧ ((W' m).senders = 0 ↔ (W m).senders = 0)) ∨
    ((W m).senders ≠ 0 ∧ ∀ w, ((W m).cell i).waker = some w → Rung w W W')
  ok : Ok W'
  reach : Reach W W'

theorem Drift.refl (O : Nat → Nat → Prop) {W : Env α} (h : Ok W) : Drift O W W :=
  ⟨later_refl O W, Grow.refl W, fun _ _ _ => .inl ⟨rfl, Iff.rfl⟩, h, .refl W⟩

theorem Drift.trans {O : Nat → Nat → Prop} {W W1 W2 : Env α} (h : Drift O W W1) (h' : Drift O W1 W2) :
    Drift O W W2 := by
  refine ⟨later_trans h.later h'.later, h.grow.trans h'.grow, fun m i ho => ?_, h'.ok, h.reach.trans h'.reach⟩
  rcases h.kin m i ho with ⟨k1, k2⟩ | ⟨k1, k2⟩
  · rcases h'.kin m i ho with ⟨k3, k4⟩ | ⟨k3, k4⟩
    · exact .inl ⟨k3.trans k1, k4.trans k2⟩
    · exact .inr ⟨fun hz => k3 (k2.2 hz), fun w hw => Rung.right h.grow (k4 w (by rw [k1]; exact hw))⟩
  · exact .inr ⟨k1, fun w hw => (k2 w hw).left h'.grow⟩

theorem Drift.mono {O O' : Nat → Nat → Prop} {W W' : Env α} (h : Drift O W W')
    (ho : ∀ m i, O' m i → O m i) : Drift O' W W' :=
  ⟨h.later.mono ho, h.grow, fun m i hi => h.kin m i (ho m i hi), h.ok, h.reach⟩

/-- A signal of the network that exists. -/
def Live (mine : Nat → Nat → Prop) (W : Env α) (m i : Nat) : Prop :=
  mine m i ∧ i < (W m).cells ∧ ((W m).cell i).alive = true

/-- What a poll, construction or drop does to the signals of the network that are not in `O`. -/
def Calm (mine O : Nat → Nat → Prop) (W W' : Env α) : Prop :=
  Drift (fun m i => Live mine W m i ∧ ¬ O m i) W W'

theorem Calm.trans {O O' P : Nat → Nat → Prop} {W W1 W2 : Env α} (h : Calm mine O W W1)
    (h' : Calm mine O' W1 W2) (h1 : ∀ m i, i < (W m).cells → O m i → P m i)
    (h2 : ∀ m i, i < (W m).cells → O' m i → P m i) : Calm mine P W W2 := by
  have a : ∀ m i, Live mine W m i ∧ ¬ P m i → Live mine W m i ∧ ¬ O m i := fun m i hi =>
    ⟨hi.1, fun ho => hi.2 (h1 m i hi.1.2.1 ho)⟩
  refine (Drift.mono h a).trans (Drift.mono h' fun m i hi => ⟨?_, fun ho => hi.2 (h2 m i hi.1.2.1 ho)⟩)
  exact ⟨hi.1.1, Nat.lt_of_lt_of_le hi.1.2.1 (Drift.later h |>.cells m),
    (Drift.later h).alive m i (a m i hi) hi.1.2.2⟩

theorem Calm.mono {O P : Nat → Nat → Prop} {W W' : Env α} (h : Calm mine O W W')
    (h1 : ∀ m i, i < (W m).cells → O m i → P m i) : Calm mine P W W' :=
  Drift.mono h fun m i hi => ⟨hi.1, fun ho => hi.2 (h1 m i hi.1.2.1 ho)⟩

theorem Calm.refl (O : Nat → Nat → Prop) {W : Env α} (h : Ok W) : Calm mine O W W := Drift.refl _ h

theorem Calm.cells {O : Nat → Nat → Prop} {W W' : Env α} (h : Calm mine O W W') (m : Nat) :
    (W m).cells ≤ (W' m).cells := (Drift.later h).cells m

theorem Calm.ok {O : Nat → Nat → Prop} {W W' : Env α} (h : Calm mine O W W') : Ok W' := Drift.ok h

theorem Calm.grow {O : Nat → Nat → Prop} {W W' : Env α} (h : Calm mine O W W') : Grow W W' := Drift.grow h

theorem Calm.reach {O : Nat → Nat → Prop} {W W' : Env α} (h : Calm mine O W W') : Reach W W' := Drift.reach h

theorem Calm.drift {O O' : Nat → Nat → Prop} {W W' : Env α} (h : Calm mine O W W')
    (h1 : ∀ m i, O' m i → Live mine W m i) (h2 : ∀ m i, O' m i → ¬ O m i) : Drift O' W W' :=
  Drift.mono h fun m i hi => ⟨h1 m i hi, h2 m i hi⟩

theorem Frame.calm {O : Nat → Nat → Prop} {W W' : Env α} (h : Frame O W W') (hr : Reach W W') : Calm mine O W W' where
  later := (h.same (O' := fun m i => Live mine W m i ∧ ¬ O m i) (fun _ _ hi => hi.1.2.1)
    (fun _ _ hi => hi.2)).later
  grow m := ⟨[], by rw [h.woken m, List.append_nil]⟩
  kin m i hi := .inl ⟨h.cell m i hi.1.2.1 hi.2, by rw [h.senders m]⟩
  ok := h.ok
  reach := hr

theorem calm_chain {n : Nat} {Ws : Nat → Env α} {O : Nat → Nat → Nat → Prop} (h0 : ∀ a, a ≤ n → Ok (Ws a))
    (h : ∀ i, i < n → Calm mine (O i) (Ws i) (Ws (i + 1))) (a b : Nat) (hab : a ≤ b) (hb : b ≤ n) :
    Calm mine (fun m k => ∃ i, a ≤ i ∧ i < b ∧ O i m k) (Ws a) (Ws b) := by
  induction b with
  | zero =>
    obtain rfl : a = 0 := by omega
    exact Calm.refl _ (h0 0 hb)
  | succ b ih =>
    by_cases hh : a = b + 1
    · subst hh; exact Calm.refl _ (h0 _ hb)
    · refine (ih (by omega) (by omega)).trans (h b (by omega)) ?_ ?_
      · rintro m k - ⟨i, h1, h2, h3⟩; exact ⟨i, h1, by omega, h3⟩
      · rintro m k - h3; exact ⟨b, by omega, by omega, h3⟩

/-! ## Other threads -/

theorem away_drift {W : Env α} {m : Nat} {e : Mut.Ev α} {o : Mut.Obs α} {x : Mut.World α} (hok : Ok W)
    (hf : Away mine m e) (hs : (W m).step e = some (o, x)) : Drift (Live mine W) W (W.put m x) := by
  obtain ⟨h1, h2⟩ := step_world (hok m).choose_spec hs
  have cell : ∀ i, Live mine W m i → _ := fun i hi => step_cell (hok m).choose_spec hs hi.2.1 hi.2.2
    (fun w he => hf.1 i w he hi.1) (fun he => hf.2 i he hi.1)
  refine ⟨⟨fun k => ?_, fun k i ho ha => ?_, fun k i ho hc => ?_, fun k hz => ?_⟩, fun k => ?_,
    fun k i ho => ?_, ok_env hok hs, Reach.one hs⟩ <;> by_cases hk : k = m
  · subst hk; rw [put_same]; exact h1
  · rw [put_other W x hk]; exact Nat.le_refl _
  · subst hk
    rw [put_same]
    rcases cell i ho with ⟨k1, -⟩ | ⟨-, k1, -⟩
    · rw [k1]; exact ha
    · exact k1
  · rw [put_other W x hk]; exact ha
  · subst hk
    rw [put_same] at hc ⊢
    rcases cell i ho with ⟨k1, k2, -⟩ | ⟨-, -, k1 | ⟨k1, k2⟩, -⟩
    · rw [k1] at hc; exact ⟨hc, k2⟩
    · rw [hc] at k1; cases k1
    · rw [k1] at hc; exact ⟨hc, k2⟩
  · rw [put_other W x hk] at hc ⊢; exact ⟨hc, rfl⟩
  · subst hk
    rw [put_same]
    refine ⟨(h2 hz).1, (h2 hz).2, fun i ho => ?_⟩
    rcases cell i ho with ⟨k1, -⟩ | ⟨k1, -⟩
    · rw [k1]
    · exact absurd hz k1
  · rw [put_other W x hk]; exact ⟨hz, rfl, fun _ _ => rfl⟩
  · subst hk; rw [put_same]; exact ⟨_, ((hok k).choose_spec.step hs).2.2⟩
  · rw [put_other W x hk]; exact ⟨[], by simp⟩
  · subst hk
    rw [put_same]
    rcases cell i ho with ⟨k1, -, k2⟩ | ⟨k1, -, -, l, k2, k3⟩
    · exact .inl ⟨k1, k2⟩
    · exact .inr ⟨k1, fun w hw => ⟨k, l, by rw [put_same]; exact k2, k3 w hw⟩⟩
  · rw [put_other W x hk]; exact .inl ⟨rfl, Iff.rfl⟩

theorem others_calm {W W' : Env α} (h : Others mine W W') (hok : Ok W) :
    Calm mine (fun _ _ => False) W W' := by
  induction h with
  | refl => exact Calm.refl _ hok
  | step _ ha hs ih =>
    exact ih.trans (O' := fun _ _ => False) ((away_drift ih.ok ha hs).mono fun _ _ hi => hi.1)
      (fun _ _ _ h => h) fun _ _ _ h => h

/-! ## The state of a network -/

/-- The state of a network between polls. -/
structure Good (mine : Nat → Nat → Prop) (p : Net α β) (W : Env α) (s : p.St) (last : Option β) : Prop where
  inv : Inv p W s last
  ok : Ok W
  own : ∀ m i, p.Owns s m i → mine m i

theorem Good.live {p : Net α β} {W : Env α} {s : p.St} {last : Option β} (h : Good mine p W s last)
    (m i : Nat) (ho : p.Owns s m i) : Live mine W m i :=
  ⟨h.own m i ho, own_lt h.inv ho⟩

theorem Good.drift {p : Net α β} {W W' : Env α} {s : p.St} {last : Option β} (h : Good mine p W s last)
    (hd : Drift (p.Owns s) W W') : Good mine p W' s last :=
  ⟨inv_later hd.later h.inv, hd.ok, h.own⟩

/-- The network waits: each input has nothing new and will wake `w`, or has ended; not all ended. -/
def Waits (w : Waker) (p : Net α β) (W : Env α) (s : p.St) : Prop := Armed w p W s ∧ ¬ Dead p W s

theorem armed_drift {w : Waker} {p : Net α β} {W W' : Env α} {s : p.St} (hd : Drift (p.Owns s) W W')
    (h : Armed w p W s) : Rung w W W' ∨ Kin (p.Owns s) W W' := by
  by_cases hk : Kin (p.Owns s) W W'
  · exact .inr hk
  · left
    obtain ⟨k, i, ho, hne⟩ : ∃ k i, p.Owns s k i ∧ ¬ ((W' k).cell i = (W k).cell i ∧
        ((W' k).senders = 0 ↔ (W k).senders = 0)) := by
      refine Classical.byContradiction fun hn => hk fun k i ho => ?_
      exact Classical.byContradiction fun h => hn ⟨k, i, ho, h⟩
    rcases hd.kin k i ho with h1 | ⟨h1, h2⟩
    · exact absurd h1 hne
    · exact h2 w ((armed_own h ho).resolve_left h1)

theorem armed_drift' {w : Waker} {p : Net α β} {W W' : Env α} {s : p.St} (hd : Drift (p.Owns s) W W')
    (h : Armed w p W s) : Rung w W W' ∨ Armed w p W' s :=
  (armed_drift hd h).imp id fun hk => armed_kin hk h

theorem waits_drift {w : Waker} {p : Net α β} {W W' : Env α} {s : p.St} (hd : Drift (p.Owns s) W W')
    (h : Waits w p W s) : Rung w W W' ∨ Waits w p W' s :=
  (armed_drift hd h.1).imp id fun hk => ⟨armed_kin hk h.1, fun h' => h.2 (dead_kin hk h')⟩

/-! ## Construction -/

theorem cmakes_ok {p : Net α β} {W W' : Env α} {s : p.St} (h : p.CMakes mine W s W') (hok : Ok W) :
    Calm mine (fun _ _ => False) W W' ∧ Good mine p W' s none ∧ ∀ m i, p.Owns s m i → (W m).cells ≤ i := by
  induction p generalizing W W' with
  | source m =>
    obtain ⟨W1, h1, h2, h3, h4⟩ := h
    have c1 := others_calm h1 hok
    obtain ⟨k1, k2, k3⟩ := makes_ok (p := .source m) (W := W1) (W' := W') (s := s) ⟨h2, h4⟩ c1.ok
    refine ⟨c1.trans (k1.calm (h4 ▸ Reach.one (e := .signal) (o := .unit) rfl)) (fun _ _ _ h => h) fun _ _ _ h => h, ⟨k2, k1.ok, ?_⟩, fun k i ho => ?_⟩
    · rintro k i ⟨rfl, rfl⟩; exact h3
    · exact Nat.le_trans (c1.cells k) (k3 k i ho)
  | always b =>
    obtain ⟨rfl, rfl⟩ := h
    exact ⟨Calm.refl _ hok, ⟨.inl ⟨rfl, rfl⟩, hok, fun m i h => h.elim⟩, fun m i h => h.elim⟩
  | map f p ih =>
    obtain ⟨-, h2⟩ := h
    obtain ⟨k1, k2, k3⟩ := ih h2 hok
    exact ⟨k1, ⟨⟨none, k2.inv, rfl⟩, k2.ok, k2.own⟩, k3⟩
  | dedupe p ih =>
    obtain ⟨h1, h2⟩ := h
    obtain ⟨k1, k2, k3⟩ := ih h2 hok
    exact ⟨k1, ⟨⟨k2.inv, by rw [h1]; rfl⟩, k2.ok, k2.own⟩, k3⟩
  | eq b p ih =>
    obtain ⟨h1, h2⟩ := h
    obtain ⟨k1, k2, k3⟩ := ih h2 hok
    exact ⟨k1, ⟨⟨none, k2.inv, rfl, by rw [h1]; rfl, by rw [h1]; rfl⟩, k2.ok, k2.own⟩, k3⟩
  | neq b p ih =>
    obtain ⟨h1, h2⟩ := h
    obtain ⟨k1, k2, k3⟩ := ih h2 hok
    exact ⟨k1, ⟨⟨none, k2.inv, rfl, by rw [h1]; rfl, by rw [h1]; rfl⟩, k2.ok, k2.own⟩, k3⟩
  | @mapRef _ _ n ps f ih =>
    obtain ⟨h1, Ws, rfl, rfl, h2⟩ := h
    have step : ∀ i : Fin (n + 1), Ok (Ws i) → _ := fun i hi => ih i (h2 i) hi
    have oks : ∀ a, a ≤ n + 1 → Ok (Ws a) := by
      intro a ha
      induction a with
      | zero => exact hok
      | succ a iha => exact (step ⟨a, by omega⟩ (iha (by omega))).1.ok
    have post := fun i : Fin (n + 1) => step i (oks i (by omega))
    have ch := calm_chain (O := fun _ _ _ => False) oks
      (fun i hi => (post ⟨i, hi⟩).1)
    have ch' : ∀ a b, a ≤ b → b ≤ n + 1 → Calm mine (fun _ _ => False) (Ws a) (Ws b) := fun a b h1 h2 =>
      (ch a b h1 h2).mono fun m k _ ⟨_, _, _, h⟩ => h
    have lt : ∀ i m k, (ps i).Owns (s.2 i) m k → k < (Ws (i + 1) m).cells := fun i m k hk =>
      (own_lt (post i).2.1.inv hk).1
    refine ⟨ch' 0 (n + 1) (by omega) (by omega), ⟨⟨fun i => ⟨?_, ?_⟩, ?_, ?_⟩,
      oks _ (Nat.le_refl _), ?_⟩, ?_⟩
    · rw [h1 i]
      exact ((post i).2.1.drift ((ch' (i + 1) (n + 1) (by omega) (by omega)).drift
        (post i).2.1.live (fun _ _ _ h => h))).inv
    · rw [h1 i]; intro h; cases h
    · have key : ∀ i j : Fin (n + 1), i < j → ∀ m k, (ps i).Owns (s.2 i) m k →
          ¬ (ps j).Owns (s.2 j) m k := by
        intro i j hij m k hi hj
        have a1 := lt i m k hi
        have a2 := (post j).2.2 m k hj
        have a3 := (ch' (i + 1) j (by omega) (by omega)).cells m
        omega
      intro i j m k hij hi hj
      rcases Nat.lt_or_gt_of_ne (fun h => hij (Fin.ext h)) with h | h
      · exact key i j h m k hi hj
      · exact key j i h m k hj hi
    · rw [inputValues_none _ fun i => by rw [h1 i]]; rfl
    · rintro m k ⟨i, hk⟩
      exact (post i).2.1.own m k hk
    · rintro m k ⟨i, hk⟩
      exact Nat.le_trans ((ch' 0 i (by omega) (by omega)).cells m) ((post i).2.2 m k hk)
  | switch g p ihg ih =>
    obtain ⟨h1, h2, h3⟩ := h
    obtain ⟨k1, k2, k3⟩ := ih h2 hok
    refine ⟨k1, ⟨⟨none, k2.inv, ?_, fun _ => ⟨rfl, by rw [h1]; rfl, rfl⟩, fun t si hs => ?_⟩, k2.ok, ?_⟩, ?_⟩
    · rw [h1]; intro h; cases h
    · rw [h3] at hs; cases hs
    · rintro m i (h | ⟨t, si, hs, -⟩)
      · exact k2.own m i h
      · rw [h3] at hs; cases hs
    · rintro m i (h | ⟨t, si, hs, -⟩)
      · exact k3 m i h
      · rw [h3] at hs; cases hs

/-! ## Drop -/

theorem cdrops_ok {p : Net α β} {W W' : Env α} {s : p.St} {last : Option β} (h : p.CDrops mine W s W')
    (hi : Good mine p W s last) : Calm mine (p.Owns s) W W' := by
  induction p generalizing W W' with
  | source m =>
    obtain ⟨W1, h1, h2⟩ := h
    have c1 := others_calm h1 hi.ok
    have g1 : Good mine _ W1 s last := hi.drift (c1.drift hi.live fun _ _ _ h => h)
    obtain ⟨a1, a2, -⟩ := g1.inv
    exact c1.trans ((drops_ok (p := .source m) (W := W1) (W' := W') (s := s) h2 g1.inv c1.ok).calm
      (h2 ▸ Reach.one (e := .dropSignal s) (o := .unit) (by simp [Mut.World.step, a1, a2])))
      (fun _ _ _ h => h.elim) fun _ _ _ h => h
  | always b => obtain rfl := h; exact Calm.refl _ hi.ok
  | map f p ih => obtain ⟨⟨x, h1, -⟩, ho, hm⟩ := hi; exact ih h ⟨h1, ho, hm⟩
  | dedupe p ih => exact ih h ⟨hi.inv.1, hi.ok, hi.own⟩
  | eq b p ih => obtain ⟨⟨x, h1, -⟩, ho, hm⟩ := hi; exact ih h ⟨h1, ho, hm⟩
  | neq b p ih => obtain ⟨⟨x, h1, -⟩, ho, hm⟩ := hi; exact ih h ⟨h1, ho, hm⟩
  | @mapRef _ _ n ps f ih =>
    obtain ⟨Ws, rfl, rfl, h2⟩ := h
    obtain ⟨⟨g1, g2, -⟩, hok, hm⟩ := hi
    have gd : ∀ i, Good mine (ps i) (Ws 0) (s.2 i) (s.1 i).value := fun i =>
      ⟨(g1 i).1, hok, fun m k hk => hm m k ⟨i, hk⟩⟩
    have key : ∀ a, a ≤ n + 1 → (∀ b, b ≤ a → Ok (Ws b)) ∧
        ∀ i : Fin (n + 1), i < a → Calm mine ((ps i).Owns (s.2 i)) (Ws i) (Ws (i + 1)) := by
      intro a ha
      induction a with
      | zero => exact ⟨fun b hb => by obtain rfl : b = 0 := by omega
                                      exact hok, fun i hi => absurd hi (by omega)⟩
      | succ a iha =>
        obtain ⟨i1, i2⟩ := iha (by omega)
        have ch := calm_chain (O := fun i m k => ∃ hi : i < n + 1, (ps ⟨i, hi⟩).Owns (s.2 ⟨i, hi⟩) m k)
          i1 (fun i hi => (i2 ⟨i, by omega⟩ hi).mono fun m k _ hk => ⟨by omega, hk⟩) 0 a (by omega) (by omega)
        have hinv : Good mine (ps ⟨a, by omega⟩) (Ws a) (s.2 ⟨a, by omega⟩) (s.1 ⟨a, by omega⟩).value := by
          refine (gd _).drift (ch.drift (gd _).live ?_)
          rintro m k hk ⟨i, -, hi, hi', h3⟩
          exact g2 _ _ m k (by intro h; cases h; omega) hk h3
        have fr := ih ⟨a, by omega⟩ (h2 ⟨a, by omega⟩) hinv
        refine ⟨fun b hb => ?_, fun i hi => ?_⟩
        · by_cases hb' : b ≤ a
          · exact i1 b hb'
          · obtain rfl : b = a + 1 := by omega
            exact fr.ok
        · by_cases hi' : i < a
          · exact i2 i hi'
          · have he : i = ⟨a, by omega⟩ := Fin.ext (by simp; omega)
            rw [he]
            exact fr
    obtain ⟨k1, k2⟩ := key (n + 1) (Nat.le_refl _)
    refine (calm_chain (O := fun i m k => ∃ hi : i < n + 1, (ps ⟨i, hi⟩).Owns (s.2 ⟨i, hi⟩) m k) k1
      (fun i hi => (k2 ⟨i, hi⟩ hi).mono fun m k _ hk => ⟨hi, hk⟩) 0 (n + 1) (by omega) (by omega)).mono ?_
    rintro m k - ⟨i, -, -, hi, hk⟩
    exact ⟨_, hk⟩
  | switch g p ihg ih =>
    obtain ⟨fl, so, si⟩ := s
    obtain ⟨W1, h1, h2, h3⟩ := h
    obtain ⟨⟨x, g1, -, -, g4⟩, hok, hm⟩ := hi
    have f1 := ih h1 ⟨g1, hok, fun m i ho => hm m i (Or.inl ho)⟩
    cases si with
    | none =>
      obtain rfl := h2 rfl
      exact f1.mono fun m i _ h => Or.inl h
    | some q =>
      obtain ⟨t, si⟩ := q
      obtain ⟨-, g5, g6, -⟩ := g4 t si rfl
      have gd : Good mine (g t) W si last := ⟨g5, hok, fun m i ho => hm m i (Or.inr ⟨t, si, rfl, ho⟩)⟩
      have g5' : Good mine (g t) W1 si last :=
        gd.drift (f1.drift gd.live fun m i hi ho => g6 m i ho hi)
      have f2 := ihg t (h3 t si rfl) g5'
      exact f1.trans f2 (fun m i _ h => Or.inl h) fun m i _ h => Or.inr ⟨t, si, rfl, h⟩

end Verif.Net
