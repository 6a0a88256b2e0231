import Verif.TaskProofs

/-!
# Tasks that keep `Mutable`s up to date (C88): settling
-/

namespace Verif.Net

variable {α β γ : Type}

/-! ## Who is registered where -/

/-- All wakers registered with `Mutable` number `m` satisfy `P m`. -/
def Reg (P : Nat → Waker → Prop) (W : Env α) : Prop := ∀ m k w, ((W m).cell k).waker = some w → P m w

theorem reg_put {P : Nat → Waker → Prop} {W : Env α} {m : Nat} {x : Mut.World α} (h : Reg P W)
    (hx : ∀ k w, (x.cell k).waker = some w → P m w) : Reg P (W.put m x) := by
  intro k c w hw
  by_cases hk : k = m
  · subst hk; rw [put_same] at hw; exact hx c w hw
  · rw [put_other W x hk] at hw; exact h k c w hw

theorem pollChange_wakers {x : Mut.World α} {i k : Nat} {w v : Waker} {f : α → β}
    (h : (((x.pollChange i w f).2).cell k).waker = some v) : (x.cell k).waker = some v ∨ v = w := by
  unfold Mut.World.pollChange at h
  split at h
  · rename_i c hc
    obtain rfl : ({ x.cell i with changed := false } : Mut.ChangedWaker) = c := (Prod.ext_iff.1 hc).2
    simp only [Mut.World.setCell] at h
    split at h
    · rename_i hk; rw [hk]; exact .inl h
    · exact .inl h
  · rename_i c hc
    obtain rfl : ({ x.cell i with changed := false } : Mut.ChangedWaker) = c := (Prod.ext_iff.1 hc).2
    split at h
    · simp only [Mut.World.setCell] at h
      split at h
      · rename_i hk; rw [hk]; exact .inl h
      · exact .inl h
    · simp only [Mut.World.setCell, Mut.ChangedWaker.setWaker] at h
      split at h
      · cases h; exact .inr rfl
      · exact .inl h

theorem chain {P : Env α → Prop} {n : Nat} {Ws : Nat → Env α} (h0 : P (Ws 0))
    (h : ∀ i : Fin n, P (Ws i) → P (Ws (i + 1))) : P (Ws n) := by
  have : ∀ k, k ≤ n → P (Ws k) := by
    intro k
    induction k with
    | zero => exact fun _ => h0
    | succ k ih => exact fun hk => h ⟨k, hk⟩ (ih (by omega))
  exact this n (Nat.le_refl _)

theorem makes_reg {P : Nat → Waker → Prop} {p : Net α β} {W W' : Env α} {s : p.St} (h : p.Makes W s W')
    (hr : Reg P W) : Reg P W' := by
  induction p generalizing W W' with
  | source m =>
    obtain ⟨-, rfl⟩ := h
    refine reg_put hr fun k w hw => ?_
    rcases (step_wakers (signalState_step (W m))).1 k w hw with h | h
    · exact hr m k w h
    · cases h
  | always b => obtain ⟨-, rfl⟩ := h; exact hr
  | map f p ih => exact ih h.2 hr
  | dedupe p ih => exact ih h.2 hr
  | eq b p ih => exact ih h.2 hr
  | neq b p ih => exact ih h.2 hr
  | mapRef ps f ih =>
    obtain ⟨-, Ws, rfl, rfl, h1⟩ := h
    exact chain hr fun i hi => ih i (h1 i) hi
  | switch g p ihg ih => exact ih h.2.1 hr

theorem drops_reg {P : Nat → Waker → Prop} {p : Net α β} {W W' : Env α} {s : p.St} (h : p.Drops W s W')
    (hr : Reg P W) : Reg P W' := by
  induction p generalizing W W' with
  | source m =>
    obtain rfl := h
    refine reg_put hr fun k w hw => ?_
    simp only [Mut.World.dropSignal, Mut.World.setCell] at hw
    split at hw
    · rename_i hk; exact hr m k w (by rw [hk]; exact hw)
    · exact hr m k w hw
  | always b => obtain rfl := h; exact hr
  | map f p ih => exact ih h hr
  | dedupe p ih => exact ih h hr
  | eq b p ih => exact ih h hr
  | neq b p ih => exact ih h hr
  | mapRef ps f ih =>
    obtain ⟨Ws, rfl, rfl, h1⟩ := h
    exact chain hr fun i hi => ih i (h1 i) hi
  | switch g p ihg ih =>
    obtain ⟨W1, h1, h2, h3⟩ := h
    have := ih h1 hr
    match hs : s.2.2 with
    | none => rw [h2 hs]; exact this
    | some ⟨t, si⟩ => exact ihg t (h3 t si hs) this

theorem many_reg {P : Nat → Waker → Prop} {p : Net α β} {w : Waker}
    (hp : ∀ {W s r W' s'}, p.Polls w W s r W' s' → Reg P W → Reg P W') {l : List (Poll (Option β))}
    {W W' : Env α} {s s' : p.St} (h : Many (p.Polls w) W s l W' s') (hr : Reg P W) : Reg P W' := by
  induction l generalizing W s with
  | nil => obtain ⟨rfl, -⟩ := h; exact hr
  | cons r l ih => obtain ⟨W1, s1, h1, h2⟩ := h; exact ih h2 (hp h1 hr)

theorem items_flatten {w : Waker} {fl fl' : SFlatten β γ} {lo : List (Poll (Option β))}
    {li : List (Poll (Option γ))} {r : Poll (Option γ)}
    (h : SFlatten.poll (fun _ => li) w (giveFlatten lo li fl) = some (r, fl'))
    (ht : Took lo fl.signal.src fl'.signal.src) (hn : innerPolls fl' = innerPolls fl + li.length) :
    items lo = [] ∨ ∃ t, items lo = [t] := by
  rcases flatten_use h ht hn with h | h | h | h
  · rw [h.2.1]; exact .inl rfl
  · rw [h.1]; exact .inl rfl
  · rw [h.1]; exact .inl rfl
  · obtain ⟨t, h, -⟩ := h
    rw [h]; exact .inr ⟨t, rfl⟩

theorem polls_reg {P : Nat → Waker → Prop} {p : Net α β} {w : Waker} {W W' : Env α} {s s' : p.St}
    {r : Poll (Option β)} (hw : ∀ m, p.Reads m → P m w) (h : p.Polls w W s r W' s') (hr : Reg P W) :
    Reg P W' := by
  induction p generalizing W W' with
  | source m =>
    obtain ⟨-, rfl, -⟩ := h
    refine reg_put hr fun k v hv => ?_
    rcases pollChange_wakers hv with h | rfl
    · exact hr m k v h
    · exact hw m rfl
  | always b => obtain ⟨-, rfl⟩ := h; exact hr
  | map f p ih => obtain ⟨l, h1, -⟩ := h; exact many_reg (fun h => ih hw h) h1 hr
  | dedupe p ih => obtain ⟨l, h1, -⟩ := h; exact many_reg (fun h => ih hw h) h1 hr
  | eq b p ih => obtain ⟨l, h1, -⟩ := h; exact many_reg (fun h => ih hw h) h1 hr
  | neq b p ih => obtain ⟨l, h1, -⟩ := h; exact many_reg (fun h => ih hw h) h1 hr
  | mapRef ps f ih =>
    obtain ⟨l, ⟨Ws, rfl, rfl, h1⟩, -⟩ := h
    exact chain hr fun i hi => many_reg (fun h => ih i (fun m hm => hw m ⟨i, hm⟩) h) (h1 i) hi
  | switch g p ihg ih =>
    obtain ⟨lo, li, W1, h1, h2, h3, h4, h5, h6⟩ := h
    have r1 := many_reg (fun h => ih (fun m hm => hw m (.inl hm)) h) h1 hr
    have inner : ∀ (t : _) {W W' : Env α} {s s' : (g t).St}, Many ((g t).Polls w) W s li W' s' → Reg P W →
        Reg P W' := fun t _ _ _ _ h hr => many_reg (fun h => ihg t (fun m hm => hw m (.inr ⟨t, hm⟩)) h) h hr
    rcases items_flatten h2 h3 h4 with hl | ⟨t, hl⟩
    · match hs : s.2.2 with
      | none => rw [((h5 hl).1 hs).2.2]; exact r1
      | some ⟨t, si⟩ =>
        obtain ⟨si', -, h7⟩ := (h5 hl).2 t si hs
        exact inner t h7 r1
    · obtain ⟨W2, W3, si, si', k1, k2, k3, -, k4⟩ := h6 t hl
      have r2 := makes_reg k1 r1
      refine inner t k4 ?_
      match hs : s.2.2 with
      | none => rw [k2 hs]; exact r2
      | some ⟨t0, s0⟩ => exact drops_reg (k3 t0 s0 hs) r2

theorem owns_reads {p : Net α β} {s : p.St} {m i : Nat} (h : p.Owns s m i) : p.Reads m := by
  induction p with
  | source m' => exact h.1
  | always b => exact h
  | map f p ih => exact ih h
  | dedupe p ih => exact ih h
  | eq b p ih => exact ih h
  | neq b p ih => exact ih h
  | mapRef ps f ih => obtain ⟨k, hk⟩ := h; exact ⟨k, ih k hk⟩
  | switch g p ihg ih =>
    rcases h with h | ⟨t, si, -, h⟩
    · exact .inl (ih h)
    · exact .inr ⟨t, ihg t h⟩

/-- The meaning depends only on what is read. -/
theorem den_reads {p : Net α β} {v v' : Nat → α} (h : ∀ m, p.Reads m → v m = v' m) : p.den v = p.den v' := by
  induction p with
  | source m => exact h m rfl
  | always b => rfl
  | map f p ih => simp only [Net.den]; rw [ih h]
  | dedupe p ih => exact ih h
  | eq b p ih => simp only [Net.den]; rw [ih h]
  | neq b p ih => simp only [Net.den]; rw [ih h]
  | mapRef ps f ih =>
    simp only [Net.den]
    congr 2
    funext i
    exact ih i fun m hm => h m ⟨i, hm⟩
  | switch g p ihg ih =>
    simp only [Net.den]
    rw [ih fun m hm => h m (.inl hm)]
    exact ihg _ fun m hm => h m (.inr ⟨_, hm⟩)

theorem clean_reads {p : Net α β} {W W' : Env α} {s : p.St} (h : ∀ m, p.Reads m → W' m = W m)
    (hc : Clean p W s) : Clean p W' s := by
  induction p with
  | source m =>
    have := h m rfl
    unfold Clean at hc ⊢
    rw [this]; exact hc
  | always b => exact hc
  | map f p ih => exact ih h hc
  | dedupe p ih => exact ih h hc
  | eq b p ih => exact ih h hc
  | neq b p ih => exact ih h hc
  | mapRef ps f ih => exact fun i => ih i (fun m hm => h m ⟨i, hm⟩) (hc i)
  | switch g p ihg ih =>
    obtain ⟨h1, t, si, h2, h3⟩ := hc
    exact ⟨ih (fun m hm => h m (.inl hm)) h1, t, si, h2, ihg t (fun m hm => h m (.inr ⟨t, hm⟩)) h3⟩

theorem clean_dead_reads {p : Net α β} {W : Env α} {s : p.St} (hz : ∀ m, p.Reads m → (W m).senders = 0)
    (h : Clean p W s) : Dead p W s := by
  induction p with
  | source m => exact ⟨hz m rfl, h⟩
  | always b => exact h
  | map f p ih => exact ih hz h
  | dedupe p ih => exact ih hz h
  | eq b p ih => exact ih hz h
  | neq b p ih => exact ih hz h
  | mapRef ps f ih => exact fun i => ih i (fun m hm => hz m ⟨i, hm⟩) (h i)
  | switch g p ihg ih =>
    obtain ⟨h1, t, si, h2, h3⟩ := h
    exact ⟨ih (fun m hm => hz m (.inl hm)) h1, t, si, h2, ihg t (fun m hm => hz m (.inr ⟨t, hm⟩)) h3⟩

/-! ## Whom a poll of a task wakes -/

/-- Only wakers registered with `Mutable` number `m` are woken, and by nobody else. -/
def Wakes (P : Nat → Waker → Prop) (m : Nat) (W W' : Env α) : Prop :=
  ∀ k, ∃ ws, (W' k).woken = (W k).woken ++ ws ∧ ∀ v ∈ ws, k = m ∧ P m v

theorem Wakes.trans {P : Nat → Waker → Prop} {m : Nat} {W W1 W2 : Env α} (h : Wakes P m W W1)
    (h' : Wakes P m W1 W2) : Wakes P m W W2 := by
  intro k
  obtain ⟨ws, h1, h2⟩ := h k
  obtain ⟨ws', h3, h4⟩ := h' k
  refine ⟨ws ++ ws', by rw [h3, h1, List.append_assoc], fun v hv => ?_⟩
  rcases List.mem_append.1 hv with hv | hv
  · exact h2 v hv
  · exact h4 v hv

theorem wakes_frame {P : Nat → Waker → Prop} {m : Nat} {W W' : Env α} {O : Nat → Nat → Prop}
    (h : Frame O W W') : Wakes P m W W' := fun k => ⟨[], by rw [h.woken]; simp, by simp⟩

theorem step_reg {P : Nat → Waker → Prop} {W : Env α} {m : Nat} {e : Mut.Ev α} {o : Mut.Obs α}
    {x : Mut.World α} (hr : Reg P W) (hs : (W m).step e = some (o, x)) (he : ∀ k w, e = .poll k w → P m w) :
    Reg P (W.put m x) ∧ Wakes P m W (W.put m x) := by
  obtain ⟨h1, ws, h2, h3⟩ := step_wakers hs
  refine ⟨reg_put hr fun k w hw => ?_, fun k => ?_⟩
  · rcases h1 k w hw with h | h
    · exact hr m k w h
    · exact he k w h
  · by_cases hk : k = m
    · subst hk
      rw [put_same]
      refine ⟨ws, h2, fun v hv => ⟨rfl, ?_⟩⟩
      obtain ⟨c, hc⟩ := h3 v hv
      exact hr k c v hc
    · rw [put_other W x hk]
      exact ⟨[], by simp, by simp⟩

theorem write_no_poll {t : Task α} {a : α} {k : Nat} {w : Waker} (h : t.write a = .poll k w) : False := by
  unfold Task.write at h
  split at h <;> cases h

theorem feeds_reg {P : Nat → Waker → Prop} {t : Task α} {w : Waker} {W W' : Env α} {s s' : t.net.St}
    {l : List (Poll (Option α))} {last : Option α} (hw : ∀ m, t.net.Reads m → P m w)
    (hi : Inv t.net W s last) (hok : Ok W) (h : t.Feeds w W s l W' s') (hr : Reg P W) :
    Reg P W' ∧ Wakes P t.target W W' := by
  induction l generalizing W s last with
  | nil => obtain ⟨rfl, -⟩ := h; exact ⟨hr, fun k => ⟨[], by simp, by simp⟩⟩
  | cons r l ih =>
    match r with
    | .pending =>
      obtain ⟨W1, s1, h1, h2⟩ := h
      have Q := polls_post hi hok h1
      obtain ⟨k1, k2⟩ := ih Q.inv Q.frame.ok h2 (polls_reg hw h1 hr)
      exact ⟨k1, (wakes_frame Q.frame).trans k2⟩
    | .ready none =>
      obtain ⟨W1, s1, h1, h2⟩ := h
      have Q := polls_post hi hok h1
      obtain ⟨k1, k2⟩ := ih Q.inv Q.frame.ok h2 (polls_reg hw h1 hr)
      exact ⟨k1, (wakes_frame Q.frame).trans k2⟩
    | .ready (some a) =>
      obtain ⟨W1, s1, o, x, h1, hx, h2⟩ := h
      have Q := polls_post hi hok h1
      obtain ⟨j1, j2⟩ := step_reg (polls_reg hw h1 hr) hx fun k w h => (write_no_poll h).elim
      obtain ⟨k1, k2⟩ := ih ((sees_env Q.inv Q.frame.ok (write_foreign a) hx).inv _ Q.inv)
        (ok_env Q.frame.ok hx) h2 j1
      exact ⟨k1, ((wakes_frame Q.frame).trans j2).trans k2⟩

theorem task_reg {P : Nat → Waker → Prop} {t : Task α} {w : Waker} {W W' : Env α} {s s' : t.St}
    {d : Poll Unit} {last : Option α} (hw : ∀ m, t.net.Reads m → P m w)
    (hi : Inv t.net W s.signal last) (hok : Ok W) (h : t.Polls w W s d W' s') (hr : Reg P W) :
    Reg P W' ∧ Wakes P t.target W W' := by
  obtain ⟨l, W1, h1, -, -, h2, h3⟩ := h
  obtain ⟨k1, k2⟩ := feeds_reg hw hi hok h1 hr
  match d with
  | .pending => rw [h2 rfl]; exact ⟨k1, k2⟩
  | .ready () =>
    obtain ⟨o, x, hx, rfl⟩ := h3 rfl
    obtain ⟨j1, j2⟩ := step_reg k1 hx fun k w h => (by cases h)
    exact ⟨j1, k2.trans j2⟩

/-! ## The system -/

variable {n : Nat} {T : Fin n → Task α}

/-- A task is registered only with the `Mutable`s it reads. -/
def MayWake (T : Fin n → Task α) (m : Nat) (w : Waker) : Prop := ∀ j : Fin n, w = j → (T j).net.Reads m

theorem sysReg_step {S S' : Sys T} {a : TaskAct n α} (hi : SysInv S) (hr : Reg (MayWake T) S.env)
    (hp : ∀ m k w, a = .env m (.poll k w) → n ≤ w) (hs : S.Step S' a) : Reg (MayWake T) S'.env := by
  match a with
  | .env m e =>
    obtain ⟨-, ⟨o, x, hx, -, h1⟩, -⟩ := hs
    rw [h1]
    refine (step_reg hr hx fun k w he j hj => ?_).1
    have := hp m k w (by rw [he])
    exact absurd (hj ▸ this) (Nat.not_le.2 j.2)
  | .poll i d =>
    obtain ⟨-, h1, -⟩ := hs
    refine (task_reg (fun m hm j hj => ?_) (hi.inv i) hi.ok h1 hr).1
    have : i = j := Fin.ext hj
    exact this ▸ hm

theorem new_runs_reg {P : Nat → Waker → Prop} {m : Nat} {es : List (Mut.Ev α)} {os : List (Mut.Obs α)}
    {x y : Mut.World α} (h : x.runs es = some (os, y)) (hp : ∀ k w, .poll k w ∈ es → P m w)
    (hx : ∀ k w, (x.cell k).waker = some w → P m w) : ∀ k w, (y.cell k).waker = some w → P m w := by
  induction es generalizing x os with
  | nil => cases h; exact hx
  | cons e es ih =>
    simp only [Mut.World.runs] at h
    split at h
    · cases h
    · rename_i o x1 h1
      split at h
      · cases h
      · rename_i os1 x2 h2
        cases h
        refine ih h2 (fun k w hw => hp k w (List.mem_cons_of_mem _ hw)) fun k w hw => ?_
        rcases (step_wakers h1).1 k w hw with h | rfl
        · exact hx k w h
        · exact hp k w List.mem_cons_self

theorem sysReg_start {S : Sys T} (h : S.Start) : Reg (MayWake T) S.env := by
  obtain ⟨⟨Ws, h1, h2, h3⟩, -⟩ := h
  rw [h3]
  refine chain ?_ fun i hi => makes_reg (h2 i) hi
  intro m
  obtain ⟨a, es, os, h4, h5⟩ := h1 m
  refine new_runs_reg (P := MayWake T) h4 (fun k w hw j hj => ?_) fun k w hw => ?_
  · exact absurd (hj ▸ h5 k w hw) (Nat.not_le.2 j.2)
  · simp [Mut.World.new, Mut.ChangedWaker.new] at hw

theorem sysReg_steps {h : List (TaskAct n α)} {S S' : Sys T} (hi : SysInv S) (hr : Reg (MayWake T) S.env)
    (hp : Private h) (hs : Sys.Steps h S S') : Reg (MayWake T) S'.env := by
  induction h generalizing S with
  | nil => cases hs; exact hr
  | cons a h ih =>
    obtain ⟨S1, h1, h2⟩ := hs
    exact ih (sysInv_step hi h1) (sysReg_step hi hr (fun m k w he => hp m k w (by simp [he])) h1)
      (fun m k w hm => hp m k w (List.mem_cons_of_mem _ hm)) h2

/-- A poll of a task makes only tasks with larger numbers ready. -/
theorem poll_ready {S S' : Sys T} {i : Fin n} {d : Poll Unit} (hT : Acyclic T) (hi : SysInv S)
    (hr : Reg (MayWake T) S.env) (hs : S.Step S' (.poll i d)) {j : Fin n} (hj : S'.ready j) :
    (j ≠ i ∧ S.ready j) ∨ i < j := by
  obtain ⟨-, h1, -, -, h2⟩ := hs
  refine ((h2 j).1 hj).imp id fun ⟨m, l, e, hl⟩ => ?_
  obtain ⟨ws, e', hw⟩ := (task_reg (fun m hm k hk => by rw [← Fin.ext hk]; exact hm) (hi.inv i) hi.ok h1 hr).2 m
  rw [e', List.append_cancel_left_eq] at e
  subst e
  obtain ⟨rfl, h3⟩ := hw _ hl
  exact hT j i (h3 j rfl)

/-- The tasks that are ready, as a binary number: task 0 is the most significant. -/
def code : (n : Nat) → (Fin n → Bool) → Nat
  | 0, _ => 0
  | n + 1, f => (if f 0 then 2 ^ n else 0) + code n fun i => f i.succ

theorem code_lt : (n : Nat) → (f : Fin n → Bool) → code n f < 2 ^ n
  | 0, _ => by simp [code]
  | n + 1, f => by
    have := code_lt n fun i => f i.succ
    simp only [code]
    rw [Nat.pow_succ]
    split <;> omega

theorem code_less : (n : Nat) → (f g : Fin n → Bool) → (i : Fin n) → f i = true → g i = false →
    (∀ j, j < i → g j = true → f j = true) → code n g < code n f
  | 0, _, _, i, _, _, _ => i.elim0
  | n + 1, f, g, i, hf, hg, h => by
    simp only [code]
    have lf := code_lt n fun i => f i.succ
    have lg := code_lt n fun i => g i.succ
    cases i using Fin.cases with
    | zero => rw [hf, hg]; simp; omega
    | succ i =>
      have := code_less n (fun i => f i.succ) (fun i => g i.succ) i hf hg fun j hj =>
        h j.succ (by simpa using hj)
      have h0 := h 0 (by simp)
      cases hg0 : g 0 with
      | true => rw [h0 hg0]; simpa using this
      | false => simp; omega

open Classical in
theorem runs_short {S S' : Sys T} {r : List (Fin n × Poll Unit)} (hT : Acyclic T) (hi : SysInv S)
    (hr : Reg (MayWake T) S.env) (h : S.Runs r S') :
    r.length ≤ code n fun i => decide (S.ready i) := by
  induction r generalizing S with
  | nil => simp
  | cons a r ih =>
    obtain ⟨i, d⟩ := a
    obtain ⟨h0, S1, h1, h2⟩ := h
    have := ih (sysInv_step hi h1) (sysReg_step hi hr (by simp) h1) h2
    have hlt : code n (fun i => decide (S1.ready i)) < code n fun i => decide (S.ready i) := by
      refine code_less n _ _ i (by simpa using h0) ?_ fun j hj hj' => ?_
      · rw [decide_eq_false_iff_not]
        intro h3
        rcases poll_ready hT hi hr h1 h3 with h | h
        · exact h.1 rfl
        · exact Nat.lt_irrefl _ h
      · rcases poll_ready hT hi hr h1 (of_decide_eq_true hj') with h | h
        · exact decide_eq_true h.2
        · exact absurd (Nat.lt_trans hj h) (Nat.lt_irrefl _)
    simp only [List.length_cons]
    omega

/-! ## Progress -/

theorem write_possible {t : Task α} {x : Mut.World α} (h : 0 < x.handles) (a : α) :
    ∃ o y, x.step (t.write a) = some (o, y) := by
  unfold Task.write
  split
  · exact ⟨_, _, if_neg (Nat.pos_iff_ne_zero.1 h)⟩
  · exact ⟨_, _, if_neg (Nat.pos_iff_ne_zero.1 h)⟩

theorem task_possible {t : Task α} {w : Waker} {W : Env α} {s : t.St} {last : Option α}
    (hi : Inv t.net W s.signal last) (hok : Ok W) (h0 : s.each.future = none)
    (hh : 0 < (W t.target).handles) (hn : ¬ t.net.Reads t.target) : ∃ d W' s', t.Polls w W s d W' s' := by
  obtain ⟨signal, ⟨⟨todo, hist⟩, fu, ⟨⟩, log⟩⟩ := s
  simp only at h0 hi
  subst h0
  obtain ⟨r, W1, s1, h1⟩ := polls_total (w := w) hi hok
  have Q := polls_post hi hok h1
  have H1 : 0 < (W1 t.target).handles := by rw [handles_frame hok Q.frame]; exact hh
  have drop : ∀ {x : Mut.World α}, 0 < x.handles → ∃ o y, x.step .drop = some (o, y) := fun {x} h =>
    ⟨_, _, if_neg (Nat.pos_iff_ne_zero.1 h)⟩
  match r with
  | .pending =>
    exact ⟨.pending, W1, ⟨s1, _⟩, [.pending], W1, ⟨W1, s1, h1, rfl, rfl⟩, rfl, by simp [Took, give], by simp,
      by simp⟩
  | .ready none =>
    obtain ⟨o, y, hy⟩ := drop H1
    exact ⟨.ready (), _, ⟨s1, _⟩, [.ready none], W1, ⟨W1, s1, h1, rfl, rfl⟩, rfl, by simp [Took, give],
      by simp, fun _ => ⟨o, y, hy, rfl⟩⟩
  | .ready (some a) =>
    obtain ⟨o, x, hx⟩ := write_possible (t := t) H1 a
    have I2 := (sees_env Q.inv Q.frame.ok (write_foreign a) hx).inv _ Q.inv
    have O2 := ok_env Q.frame.ok hx
    have C2 : Clean t.net (W1.put t.target x) s1 := clean_reads (fun m hm => put_other _ _ fun h => hn (h ▸ hm))
      Q.clean
    have H2 : 0 < ((W1.put t.target x) t.target).handles := by
      obtain ⟨S, hS⟩ := Q.frame.ok t.target
      rw [put_same, (hS.step hx).1.handles]
      have : (S.next (t.write a)).handles = S.handles := by unfold Task.write; split <;> rfl
      rw [this, ← hS.handles]; exact H1
    obtain ⟨r2, W3, s3, h3⟩ := polls_total (w := w) I2 O2
    have Q3 := polls_post I2 O2 h3
    have H3 : 0 < (W3 t.target).handles := by rw [handles_frame O2 Q3.frame]; exact H2
    match r2 with
    | .pending =>
      exact ⟨.pending, W3, ⟨s3, _⟩, [.ready (some a), .pending], W3,
        ⟨W1, s1, o, x, h1, hx, W3, s3, h3, rfl, rfl⟩, rfl, by simp [Took, give], by simp, by simp⟩
    | .ready none =>
      obtain ⟨o', y, hy⟩ := drop H3
      exact ⟨.ready (), _, ⟨s3, _⟩, [.ready (some a), .ready none], W3,
        ⟨W1, s1, o, x, h1, hx, W3, s3, h3, rfl, rfl⟩, rfl, by simp [Took, give], by simp,
        fun _ => ⟨o', y, hy, rfl⟩⟩
    | .ready (some b) => exact absurd rfl (Q3.quiet C2 b)

theorem holds_pos {done : Fin n → Bool} {i : Fin n} (h : done i = false) : 0 < holds T done (T i).target := by
  unfold holds
  rw [List.countP_pos_iff]
  exact ⟨i, List.mem_finRange i, by simp [h]⟩

theorem step_possible {S : Sys T} (hT : ∀ i, ¬ (T i).net.Reads (T i).target) (hi : SysInv S) {i : Fin n} (hd : S.done i = false) :
    ∃ d S', S.Step S' (.poll i d) := by
  obtain ⟨d, W', s', h⟩ := task_possible (w := i) (hi.inv i) hi.ok (hi.idle i)
    (Nat.lt_of_lt_of_le (holds_pos hd) (hi.handles _)) (hT i)
  refine ⟨d, ⟨W', fun j => if h : j = i then h ▸ s' else S.st j, fun j => (j ≠ i ∧ S.ready j) ∨ Woken S.env W' j,
    fun j => if j = i then (match d with | .pending => false | .ready () => true) else S.done j⟩, hd, ?_, ?_, ?_,
    fun j => Iff.rfl⟩
  · simpa using h
  · intro j hj; simp [hj]
  · match d with
    | .pending => simp
    | .ready () => simp

theorem quiet_runs {S : Sys T} (hT : Acyclic T) (hi : SysInv S) (hr : Reg (MayWake T) S.env) :
    ∃ r S', S.Runs r S' ∧ S'.Quiet := by
  classical
  generalize hc : (code n fun i => decide (S.ready i)) = c
  induction c using Nat.strongRecOn generalizing S with
  | ind c ih =>
    by_cases hq : S.Quiet
    · exact ⟨[], S, rfl, hq⟩
    · obtain ⟨i, hd, h0⟩ : ∃ i, S.done i = false ∧ S.ready i := by
        simp only [Sys.Quiet, not_forall, not_or, Decidable.not_not] at hq
        obtain ⟨i, h1, h2⟩ := hq
        exact ⟨i, by simpa using h1, h2⟩
      obtain ⟨d, S1, h1⟩ := step_possible (fun i h => Nat.lt_irrefl _ (hT i i h)) hi hd
      have hlt : code n (fun i => decide (S1.ready i)) < c := by
        rw [← hc]
        refine code_less n _ _ i (by simpa using h0) ?_ fun j hj hj' => ?_
        · rw [decide_eq_false_iff_not]
          intro h3
          rcases poll_ready hT hi hr h1 h3 with h | h
          · exact h.1 rfl
          · exact Nat.lt_irrefl _ h
        · rcases poll_ready hT hi hr h1 (of_decide_eq_true hj') with h | h
          · exact decide_eq_true h.2
          · exact absurd (Nat.lt_trans hj h) (Nat.lt_irrefl _)
      obtain ⟨r, S', h2, h3⟩ := ih _ hlt (sysInv_step hi h1) (sysReg_step hi hr (by simp) h1) rfl
      exact ⟨(i, d) :: r, S', ⟨h0, S1, h1, h2⟩, h3⟩

/-! ## What holds when there is nothing to do -/

theorem called {S : Sys T} (hi : SysInv S) {i : Fin n} (h : S.done i = true ∨ ¬ S.ready i) :
    S.lastCall i = some ((T i).net.den S.env.values) := by
  refine clean_den (hi.inv i) ?_
  cases hd : S.done i with
  | true => exact armed_clean (w := 0) (dead_armed (hi.dead i hd))
  | false =>
    rcases h with h | h
    · rw [hd] at h; cases h
    · exact armed_clean (hi.armed i hd h).1

/-- The targets have the values that the callbacks were called on. -/
def Kept (S : Sys T) : Prop := ∀ i a, S.lastCall i = some a → (S.env (T i).target).value = a

theorem kept_step {S S' : Sys T} {a : TaskAct n α} (hi : SysInv S)
    (h1 : ∀ i j, (T i).target = (T j).target → i = j) (h2 : ∀ i, (T i).Lawful)
    (hu : Untouched T [a]) (hk : Kept S) (hs : S.Step S' a) : Kept S' := by
  intro j b hb
  match a with
  | .env m e =>
    obtain ⟨-, ⟨o, x, hx, -, h3⟩, h4, -⟩ := hs
    have : S.lastCall j = some b := by
      unfold Sys.lastCall at hb ⊢
      rw [h4] at hb; exact hb
    rw [← hk j b this, h3]
    by_cases hm : (T j).target = m
    · obtain ⟨R, hR⟩ := hi.ok m
      rw [hm, put_same, (hR.step hx).1.value, hR.value]
      exact hu m e (by simp) j hm _
    · rw [put_other _ _ hm]
  | .poll i d =>
    obtain ⟨-, h3, h4, -⟩ := hs
    have P := task_post (hi.inv i) hi.ok (hi.idle i) h3
    by_cases hj : j = i
    · subst hj
      rcases P.mine (h2 j) with ⟨e1, e2⟩ | e1
      · rw [e2]; exact hk j b (e1.symm.trans hb)
      · have := e1.symm.trans hb
        cases this; rfl
    · rw [P.value _ fun h => hj (h1 _ _ h)]
      refine hk j b ?_
      unfold Sys.lastCall at hb ⊢
      rw [(h4 j hj).1] at hb; exact hb

theorem kept_steps {S S' : Sys T} {h : List (TaskAct n α)} (hi : SysInv S)
    (h1 : ∀ i j, (T i).target = (T j).target → i = j) (h2 : ∀ i, (T i).Lawful)
    (hu : Untouched T h) (hk : Kept S) (hs : Sys.Steps h S S') : Kept S' := by
  induction h generalizing S with
  | nil => cases hs; exact hk
  | cons a h ih =>
    obtain ⟨S1, h3, h4⟩ := hs
    exact ih (sysInv_step hi h3) (fun m e hm => hu m e (List.mem_cons_of_mem _ hm))
      (kept_step hi h1 h2 (fun m e hm => hu m e (by simp at hm; simp [hm])) hk h3) h4

theorem kept_start {S : Sys T} (h : S.Start) : Kept S := by
  intro i a ha
  unfold Sys.lastCall at ha
  rw [(h.2.1 i).1] at ha
  cases ha

theorem runs_steps {S S' : Sys T} {r : List (Fin n × Poll Unit)} (h : S.Runs r S') :
    Sys.Steps (r.map fun a => .poll a.1 a.2) S S' := by
  induction r generalizing S with
  | nil => exact h
  | cons a r ih => obtain ⟨-, S1, h1, h2⟩ := h; exact ⟨S1, h1, ih h2⟩

theorem runs_value {S S' : Sys T} {r : List (Fin n × Poll Unit)} (hi : SysInv S) (h : S.Runs r S') {m : Nat}
    (hm : ∀ i, (T i).target ≠ m) : (S'.env m).value = (S.env m).value := by
  induction r generalizing S with
  | nil => cases h; rfl
  | cons a r ih =>
    obtain ⟨-, S1, h1, h2⟩ := h
    rw [ih (sysInv_step hi h1) h2]
    obtain ⟨-, h3, -⟩ := h1
    exact (task_post (hi.inv a.1) hi.ok (hi.idle a.1) h3).value m fun h => hm a.1 h.symm

theorem sys_steps_append {S S' : Sys T} {h h' : List (TaskAct n α)} :
    S.Steps (h ++ h') S' ↔ ∃ S1, S.Steps h S1 ∧ S1.Steps h' S' := by
  induction h generalizing S with
  | nil => exact ⟨fun h => ⟨S, rfl, h⟩, fun ⟨_, h, h'⟩ => h ▸ h'⟩
  | cons a h ih =>
    constructor
    · rintro ⟨S1, h1, h2⟩
      obtain ⟨S2, h3, h4⟩ := ih.1 h2
      exact ⟨S2, ⟨S1, h1, h3⟩, h4⟩
    · rintro ⟨S2, ⟨S1, h1, h3⟩, h4⟩
      exact ⟨S1, h1, ih.2 ⟨S2, h3, h4⟩⟩

theorem runs_append {S S' : Sys T} {r r' : List (Fin n × Poll Unit)} :
    S.Runs (r ++ r') S' ↔ ∃ S1, S.Runs r S1 ∧ S1.Runs r' S' := by
  induction r generalizing S with
  | nil => exact ⟨fun h => ⟨S, rfl, h⟩, fun ⟨_, h, h'⟩ => h ▸ h'⟩
  | cons a r ih =>
    constructor
    · rintro ⟨h0, S1, h1, h2⟩
      obtain ⟨S2, h3, h4⟩ := ih.1 h2
      exact ⟨S2, ⟨h0, S1, h1, h3⟩, h4⟩
    · rintro ⟨S2, ⟨h0, S1, h1, h3⟩, h4⟩
      exact ⟨h0, S1, h1, ih.2 ⟨S2, h3, h4⟩⟩

/-- The equations have at most one solution for given values of the other `Mutable`s. -/
theorem solutions {v v' : Nat → α} (hT : Acyclic T) (h : ∀ i, v (T i).target = (T i).net.den v)
    (h' : ∀ i, v' (T i).target = (T i).net.den v') (ho : ∀ m, (∀ i, (T i).target ≠ m) → v m = v' m) : v = v' := by
  have key : ∀ (k : Nat) (i : Fin n), i.1 = k → v (T i).target = v' (T i).target := by
    intro k
    induction k using Nat.strongRecOn with
    | ind k ih =>
      rintro i rfl
      rw [h, h']
      refine den_reads fun m hm => ?_
      by_cases hx : ∀ j, (T j).target ≠ m
      · exact ho m hx
      · obtain ⟨j, hj⟩ := not_forall.1 hx
        have hj := Decidable.not_not.1 hj
        subst hj
        exact ih j.1 (hT i j hm) j rfl
  funext m
  by_cases hx : ∀ j, (T j).target ≠ m
  · exact ho m hx
  · obtain ⟨j, hj⟩ := not_forall.1 hx
    have hj := Decidable.not_not.1 hj
    subst hj
    exact key _ j rfl

/-- A start exists. -/
theorem start_exists (T : Fin n → Task α) {W0 : Env α}
    (h : ∀ m, ∃ a es os, (Mut.World.new a).runs es = some (os, W0 m) ∧ ∀ k w, .poll k w ∈ es → n ≤ w)
    (hh : ∀ m, holds T (fun _ => false) m ≤ (W0 m).handles) :
    ∃ S : Sys T, S.Start ∧ (∀ m, (S.env m).value = (W0 m).value) ∧ ∀ m, (S.env m).handles = (W0 m).handles := by
  classical
  let next : Nat → Env α → Env α := fun k W =>
    if hk : k < n then (makes_total (T ⟨k, hk⟩).net W).choose_spec.choose else W
  let Ws : Nat → Env α := fun k => Nat.rec W0 next k
  have hm : ∀ i : Fin n, ∃ s, (T i).net.Makes (Ws i) s (Ws (i + 1)) := by
    intro i
    refine ⟨(makes_total (T i).net (Ws i)).choose, ?_⟩
    have : Ws (i + 1) = (makes_total (T i).net (Ws i)).choose_spec.choose := by
      show next i (Ws i) = _
      simp only [next, i.2, dif_pos]
    rw [this]
    exact (makes_total (T i).net (Ws i)).choose_spec.choose_spec
  have ok0 : Ok (Ws 0) := fun m => by
    obtain ⟨a, es, os, hr, -⟩ := h m
    exact ⟨_, Mut.sim_runs_new hr⟩
  have key : Ok (Ws n) ∧ ∀ m, (Ws n m).value = (W0 m).value ∧ (Ws n m).handles = (W0 m).handles := by
    refine chain (P := fun W => Ok W ∧ ∀ m, (W m).value = (W0 m).value ∧ (W m).handles = (W0 m).handles)
      ⟨ok0, fun m => ⟨rfl, rfl⟩⟩ fun i ⟨h1, h2⟩ => ?_
    obtain ⟨s, hs⟩ := hm i
    have F := (makes_ok hs h1).1
    exact ⟨F.ok, fun m => ⟨(F.value m).trans (h2 m).1, (handles_frame h1 F m).trans (h2 m).2⟩⟩
  refine ⟨⟨Ws n, fun i => ⟨(hm i).choose, SForEach.init () []⟩, fun _ => True, fun _ => false⟩,
    ⟨⟨Ws, h, fun i => (hm i).choose_spec, rfl⟩, fun i => ⟨rfl, trivial, rfl⟩, fun m => ?_⟩,
    fun m => (key.2 m).1, fun m => (key.2 m).2⟩
  show _ ≤ (Ws n m).handles
  rw [(key.2 m).2]; exact hh m

theorem alone_runs {S S' : Sys T} {r : List (Fin n × Poll Unit)} (hi : SysInv S) (h : S.Runs r S') {m : Nat}
    {c : Nat} (hm : (S.env m).handles = holds T S.done m + c) :
    (S'.env m).handles = holds T S'.done m + c := by
  induction r generalizing S with
  | nil => cases h; exact hm
  | cons a r ih =>
    obtain ⟨-, S1, h1, h2⟩ := h
    refine ih (sysInv_step hi h1) h2 ?_
    obtain ⟨h3, h4, h5, h6, -⟩ := h1
    rw [(task_post (hi.inv a.1) hi.ok (hi.idle a.1) h4).handles m]
    match hd : a.2 with
    | .pending =>
      have e : S1.done = S.done := by
        funext j
        by_cases hj : j = a.1
        · subst hj
          rw [h3, Bool.eq_false_iff]
          intro h
          rw [hd] at h6
          cases h6.1 h
        · exact (h5 j hj).2
      simp [e, hm]
    | .ready () =>
      have := holds_done (T := T) (fun j hj => (h5 j hj).2) h3 (h6.2 hd) m
      split
      · rename_i h7; rw [if_pos h7.2] at this; omega
      · rename_i h7; rw [if_neg fun h => h7 ⟨rfl, h⟩] at this; omega

theorem all_done {S : Sys T} (hT : Acyclic T) (hi : SysInv S) (hq : S.Quiet)
    (hh : ∀ i m, (T i).net.Reads m → (S.env m).handles = holds T S.done m) (i : Fin n) : S.done i = true := by
  obtain ⟨k, hk⟩ : ∃ k, k = i.1 := ⟨_, rfl⟩
  induction k using Nat.strongRecOn generalizing i with
  | ind k ih =>
    subst hk
    cases hd : S.done i with
    | true => rfl
    | false =>
      rcases hq i with h | h
      · rw [hd] at h; exact h
      · obtain ⟨h1, h2⟩ := hi.armed i hd h
        refine absurd (clean_dead_reads (fun m hm => ?_) (armed_clean h1)) h2
        have h0 : holds T S.done m = 0 := by
          unfold holds
          rw [List.countP_eq_zero]
          intro j _ hj
          simp only [Bool.and_eq_true, Bool.not_eq_true', beq_iff_eq] at hj
          obtain ⟨hj1, rfl⟩ := hj
          rw [ih j.1 (hT i j hm) j rfl] at hj1
          cases hj1
        obtain ⟨R, hR⟩ := hi.ok m
        rw [hR.senders, ← hR.handles, hh i m hm, h0]

end Verif.Net
