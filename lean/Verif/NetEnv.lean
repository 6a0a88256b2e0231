import Verif.NetPoll

/-!
# Networks of signals: what happens between polls
-/

namespace Verif.Net

variable {α β γ σ : Type}

/-- One event of a `Mutable`, seen by one of its signals that is neither polled nor dropped by it. -/
theorem step_cell {x x' : Mut.World α} {S : Mut.Spec α} {e : Mut.Ev α} {o : Mut.Obs α} {i : Nat}
    (h : Mut.Sim x S) (hs : x.step e = some (o, x')) (hi : i < x.cells) (ha : (x.cell i).alive = true)
    (hp : ∀ w, e ≠ .poll i w) (hd : e ≠ .dropSignal i) :
    (x'.cell i = x.cell i ∧ x'.value = x.value ∧ (x'.senders = 0 ↔ x.senders = 0)) ∨
    (x.senders ≠ 0 ∧ (x'.cell i).alive = true ∧
      ((x'.cell i).changed = true ∨ (x'.cell i).changed = (x.cell i).changed ∧ x'.value = x.value) ∧
      ∃ l, x'.woken = x.woken ++ l ∧ ∀ w, (x.cell i).waker = some w → w ∈ l) := by
  obtain ⟨h1, -, h3⟩ := h.step hs
  have hlt : i < S.subs.length := by rw [← h.cells]; exact hi
  obtain ⟨y, hy⟩ : ∃ y, S.subs[i]? = some y := ⟨_, List.getElem?_eq_getElem hlt⟩
  have hc := h.cell i y hy
  have hyd : y.dropped = false := by rw [hc] at ha; simpa [Mut.Sub.cell] using ha
  have mem : ∀ w, (x.cell i).waker = some w → w ∈ S.subs.flatMap Mut.Sub.wakes := by
    intro w hw
    rw [hc] at hw
    refine List.mem_flatMap.2 ⟨y, List.mem_of_getElem? hy, ?_⟩
    simp only [Mut.Sub.cell] at hw
    simp [Mut.Sub.wakes, hyd, hw]
  have told : ∀ b, S.handles ≠ 0 → (S.next e).subs = S.subs.map (Mut.Sub.told b) →
      S.wakes e = S.subs.flatMap Mut.Sub.wakes → (b = false → (S.next e).value = S.value) →
      (x.senders ≠ 0 ∧ (x'.cell i).alive = true ∧
      ((x'.cell i).changed = true ∨ (x'.cell i).changed = (x.cell i).changed ∧ x'.value = x.value) ∧
      ∃ l, x'.woken = x.woken ++ l ∧ ∀ w, (x.cell i).waker = some w → w ∈ l) := by
    intro b hh hsub hw hv
    have hc' := h1.cell i (y.told b) (by rw [hsub, List.getElem?_map, hy]; rfl)
    refine ⟨by rw [h.senders]; exact hh, ?_, ?_, _, h3, by rw [hw]; exact mem⟩
    · rw [hc']; simp [Mut.Sub.told, hyd, Mut.Sub.cell]
    · rw [hc', hc]
      cases b with
      | true => left; simp [Mut.Sub.told, hyd, Mut.Sub.cell]
      | false =>
        right
        refine ⟨by simp [Mut.Sub.told, hyd, Mut.Sub.cell], ?_⟩
        rw [h1.value, hv rfl, h.value]
  have keep : (S.next e).subs[i]? = some y → (S.next e).value = S.value →
      ((S.next e).handles = 0 ↔ S.handles = 0) →
      (x'.cell i = x.cell i ∧ x'.value = x.value ∧ (x'.senders = 0 ↔ x.senders = 0)) := by
    intro k1 k2 k3
    exact ⟨by rw [h1.cell i y k1, hc], by rw [h1.value, k2, h.value],
      by rw [h1.senders, h.senders]; exact k3⟩
  have nz : x.handles ≠ 0 → S.handles ≠ 0 := by rw [h.handles]; exact id
  cases e with
  | set a =>
    have : x.handles ≠ 0 := by intro hz; simp [Mut.World.step, hz] at hs
    exact .inr (told true (nz this) rfl rfl (by simp))
  | replace a =>
    have : x.handles ≠ 0 := by intro hz; simp [Mut.World.step, hz] at hs
    exact .inr (told true (nz this) rfl rfl (by simp))
  | replaceWith f =>
    have : x.handles ≠ 0 := by intro hz; simp [Mut.World.step, hz] at hs
    exact .inr (told true (nz this) rfl rfl (by simp))
  | setIf a f =>
    have : x.handles ≠ 0 := by intro hz; simp [Mut.World.step, hz] at hs
    by_cases hf : f S.value a = true
    · exact .inr (told true (nz this) (by simp [Mut.Spec.next, Mut.Ev.notifies, hf])
        (by simp [Mut.Spec.wakes, Mut.Ev.notifies, hf]) (by simp))
    · refine .inl (keep ?_ ?_ Iff.rfl)
      · simp [Mut.Spec.next, Mut.Ev.notifies, hf, hy]
      · simp [Mut.Spec.next, Mut.Ev.newValue, hf]
  | lockMut us =>
    have : x.handles ≠ 0 := by intro hz; simp [Mut.World.step, hz] at hs
    by_cases hf : Mut.usesMut us = true
    · exact .inr (told true (nz this) (by simp [Mut.Spec.next, Mut.Ev.notifies, hf])
        (by simp [Mut.Spec.wakes, Mut.Ev.notifies, hf]) (by simp))
    · refine .inl (keep ?_ ?_ Iff.rfl)
      · simp [Mut.Spec.next, Mut.Ev.notifies, hf, hy]
      · exact Mut.usesValue_of_not_mut us (by simpa using hf) _
  | get => exact .inl (keep hy rfl Iff.rfl)
  | clone =>
    have : x.handles ≠ 0 := by intro hz; simp [Mut.World.step, hz] at hs
    exact .inl (keep hy rfl (by have := nz this; simp [Mut.Spec.next, Mut.Ev.newHandles, this]))
  | drop =>
    have : x.handles ≠ 0 := by intro hz; simp [Mut.World.step, hz] at hs
    have := nz this
    by_cases hh : S.handles = 1
    · exact .inr (told false this (by simp [Mut.Spec.next, hh]) (by simp [Mut.Spec.wakes, hh])
        (fun _ => rfl))
    · exact .inl (keep (by simp [Mut.Spec.next, hh, hy]) rfl
        (by simp only [Mut.Spec.next, Mut.Ev.newHandles]; omega))
  | signal =>
    refine .inl (keep ?_ rfl Iff.rfl)
    simp only [Mut.Spec.next]
    rw [List.getElem?_append_left hlt]
    exact hy
  | poll j w =>
    have hj : j ≠ i := fun h => hp w (by rw [h])
    refine .inl (keep ?_ rfl Iff.rfl)
    simp only [Mut.Spec.next]
    rw [List.getElem?_modify, hy]
    simp [hj]
  | dropSignal j =>
    have hj : j ≠ i := fun h => hd (by rw [h])
    refine .inl (keep ?_ rfl Iff.rfl)
    simp only [Mut.Spec.next]
    rw [List.getElem?_modify, hy]
    simp [hj]

/-- One event of a `Mutable`. -/
theorem step_world {x x' : Mut.World α} {S : Mut.Spec α} {e : Mut.Ev α} {o : Mut.Obs α}
    (h : Mut.Sim x S) (hs : x.step e = some (o, x')) :
    x.cells ≤ x'.cells ∧ (x.senders = 0 → x'.senders = 0 ∧ x'.value = x.value) := by
  obtain ⟨h1, -, h3⟩ := h.step hs
  constructor
  · rw [h.cells, h1.cells]
    have key : ∀ b : Bool, S.subs.length ≤
        (if b = true then S.subs.map (Mut.Sub.told true) else S.subs).length := by
      intro b; cases b <;> simp
    cases e with
    | drop => simp only [Mut.Spec.next]; split <;> simp
    | signal => simp [Mut.Spec.next]
    | poll j w => simp [Mut.Spec.next]
    | dropSignal j => simp [Mut.Spec.next]
    | set a => exact key true
    | replace a => exact key true
    | replaceWith f => exact key true
    | setIf a f => exact key (f S.value a)
    | lockMut us => exact key (Mut.usesMut us)
    | get => exact key false
    | clone => exact key false
  · intro hz
    rw [h.senders] at hz
    have hz' : x.handles = 0 := by rw [h.handles]; exact hz
    rw [h1.senders, h1.value, h.value]
    cases e <;> simp [Mut.World.step, hz'] at hs <;>
      simp [Mut.Spec.next, Mut.Ev.newValue, Mut.Ev.newHandles, hz]

section

variable {p : Net α β} {W : Env α} {s : p.St} {last : Option β} {m : Nat} {e : Mut.Ev α} {o : Mut.Obs α}
  {x : Mut.World α}

theorem foreign_cell (hi : Inv p W s last) (hok : Ok W) (hf : Foreign p s m e)
    (hs : (W m).step e = some (o, x)) {i : Nat} (ho : p.Owns s m i) :
    (x.cell i = (W m).cell i ∧ x.value = (W m).value ∧ (x.senders = 0 ↔ (W m).senders = 0)) ∨
    ((W m).senders ≠ 0 ∧ (x.cell i).alive = true ∧
      ((x.cell i).changed = true ∨
        (x.cell i).changed = ((W m).cell i).changed ∧ x.value = (W m).value) ∧
      ∃ l, x.woken = (W m).woken ++ l ∧ ∀ w, ((W m).cell i).waker = some w → w ∈ l) :=
  step_cell (hok m).choose_spec hs (own_lt hi ho).1 (own_lt hi ho).2
    (fun w he => hf.1 i w he ho) (fun he => hf.2 i he ho)

theorem ok_env (hok : Ok W) (hs : (W m).step e = some (o, x)) : Ok (W.put m x) := by
  intro k
  by_cases hk : k = m
  · subst hk
    rw [put_same]
    exact ⟨_, ((hok k).choose_spec.step hs).1⟩
  · rw [put_other W x hk]; exact hok k

theorem later_env (hi : Inv p W s last) (hok : Ok W) (hf : Foreign p s m e)
    (hs : (W m).step e = some (o, x)) : Later (p.Owns s) W (W.put m x) := by
  obtain ⟨h1, h2⟩ := step_world (hok m).choose_spec hs
  refine ⟨fun k => ?_, fun k i ho ha => ?_, fun k i ho hc => ?_, fun k hz => ?_⟩ <;> by_cases hk : k = m
  · subst hk; rw [put_same]; exact h1
  · rw [put_other W x hk]; exact Nat.le_refl _
  · subst hk
    rw [put_same]
    rcases foreign_cell hi hok hf hs ho with ⟨k1, -⟩ | ⟨-, k1, -⟩
    · rw [k1]; exact ha
    · exact k1
  · rw [put_other W x hk]; exact ha
  · subst hk
    rw [put_same] at hc ⊢
    rcases foreign_cell hi hok hf hs ho with ⟨k1, k2, -⟩ | ⟨-, -, k1 | ⟨k1, k2⟩, -⟩
    · rw [k1] at hc; exact ⟨hc, k2⟩
    · rw [hc] at k1; cases k1
    · rw [k1] at hc; exact ⟨hc, k2⟩
  · rw [put_other W x hk] at hc ⊢; exact ⟨hc, rfl⟩
  · subst hk
    rw [put_same]
    refine ⟨(h2 hz).1, (h2 hz).2, fun i ho => ?_⟩
    rcases foreign_cell hi hok hf hs ho with ⟨k1, -⟩ | ⟨k1, -⟩
    · rw [k1]
    · exact absurd hz k1
  · rw [put_other W x hk]; exact ⟨hz, rfl, fun _ _ => rfl⟩

theorem armed_own {w : Waker} (h : Armed w p W s) {m i : Nat} (ho : p.Owns s m i) :
    (W m).senders = 0 ∨ ((W m).cell i).waker = some w := by
  induction p with
  | source m' => obtain ⟨rfl, rfl⟩ := ho; exact h.2
  | always b => exact ho.elim
  | map f p ih => exact ih h ho
  | dedupe p ih => exact ih h ho
  | eq b p ih => exact ih h ho
  | neq b p ih => exact ih h ho
  | mapRef ps f ih => obtain ⟨k, hk⟩ := ho; exact ih k (h k) hk
  | switch g p ihg ih =>
    obtain ⟨h1, t, si, h2, h3⟩ := h
    rcases ho with ho | ⟨t', si', h4, ho⟩
    · exact ih h1 ho
    · rw [h2] at h4
      cases h4
      exact ihg t h3 ho

end

/-- The signals in `O` look the same in both environments. -/
def Kin (O : Nat → Nat → Prop) (W W' : Env α) : Prop :=
  ∀ m i, O m i → (W' m).cell i = (W m).cell i ∧ ((W' m).senders = 0 ↔ (W m).senders = 0)

theorem armed_kin {p : Net α β} {W W' : Env α} {s : p.St} {w : Waker} (hk : Kin (p.Owns s) W W')
    (h : Armed w p W s) : Armed w p W' s := by
  induction p with
  | source m =>
    obtain ⟨k1, k2⟩ := hk m _ ⟨rfl, rfl⟩
    exact ⟨(congrArg Mut.ChangedWaker.changed k1).trans h.1,
      h.2.imp k2.2 fun h => (congrArg Mut.ChangedWaker.waker k1).trans h⟩
  | always b => exact h
  | map f p ih => exact ih hk h
  | dedupe p ih => exact ih hk h
  | eq b p ih => exact ih hk h
  | neq b p ih => exact ih hk h
  | mapRef ps f ih => exact fun i => ih i (fun m k ho => hk m k ⟨i, ho⟩) (h i)
  | switch g p ihg ih =>
    obtain ⟨h1, t, si, h2, h3⟩ := h
    exact ⟨ih (fun m k ho => hk m k (Or.inl ho)) h1, t, si, h2,
      ihg t (fun m k ho => hk m k (Or.inr ⟨t, si, h2, ho⟩)) h3⟩

theorem dead_kin {p : Net α β} {W W' : Env α} {s : p.St} (hk : Kin (p.Owns s) W W')
    (h : Dead p W' s) : Dead p W s := by
  induction p with
  | source m =>
    obtain ⟨k1, k2⟩ := hk m _ ⟨rfl, rfl⟩
    exact ⟨k2.1 h.1, (congrArg Mut.ChangedWaker.changed k1).symm.trans h.2⟩
  | always b => exact h
  | map f p ih => exact ih hk h
  | dedupe p ih => exact ih hk h
  | eq b p ih => exact ih hk h
  | neq b p ih => exact ih hk h
  | mapRef ps f ih => exact fun i => ih i (fun m k ho => hk m k ⟨i, ho⟩) (h i)
  | switch g p ihg ih =>
    obtain ⟨h1, t, si, h2, h3⟩ := h
    exact ⟨ih (fun m k ho => hk m k (Or.inl ho)) h1, t, si, h2,
      ihg t (fun m k ho => hk m k (Or.inr ⟨t, si, h2, ho⟩)) h3⟩

/-- A waiting network is woken, or nothing changed for it. -/
theorem armed_env {p : Net α β} {W : Env α} {s : p.St} {last : Option β} {m : Nat} {e : Mut.Ev α}
    {o : Mut.Obs α} {x : Mut.World α} {w : Waker} (ha : Armed w p W s) (hi : Inv p W s last) (hok : Ok W)
    (hf : Foreign p s m e) (hs : (W m).step e = some (o, x)) :
    (∃ l, x.woken = (W m).woken ++ l ∧ w ∈ l) ∨ Kin (p.Owns s) W (W.put m x) := by
  by_cases hk : Kin (p.Owns s) W (W.put m x)
  · exact .inr hk
  · left
    obtain ⟨k, i, ho, hne⟩ : ∃ k i, p.Owns s k i ∧ ¬ ((W.put m x k).cell i = (W k).cell i ∧
        ((W.put m x k).senders = 0 ↔ (W k).senders = 0)) := by
      refine Classical.byContradiction fun hn => hk fun k i ho => ?_
      exact Classical.byContradiction fun h => hn ⟨k, i, ho, h⟩
    by_cases hkm : k = m
    · subst hkm
      rw [put_same] at hne
      rcases foreign_cell hi hok hf hs ho with ⟨k1, -, k2⟩ | ⟨k1, -, -, l, k2, k3⟩
      · exact absurd ⟨k1, k2⟩ hne
      · exact ⟨l, k2, k3 w ((armed_own ha ho).resolve_left k1)⟩
    · rw [put_other W x hkm] at hne
      exact absurd ⟨rfl, Iff.rfl⟩ hne

/-- With no handle left, nothing new means ended. -/
theorem clean_dead {p : Net α β} {W : Env α} {s : p.St} (hz : ∀ m, (W m).senders = 0) (h : Clean p W s) :
    Dead p W s := by
  induction p with
  | source m => exact ⟨hz m, h⟩
  | always b => exact h
  | map f p ih => exact ih h
  | dedupe p ih => exact ih h
  | eq b p ih => exact ih h
  | neq b p ih => exact ih h
  | mapRef ps f ih => exact fun i => ih i (h i)
  | switch g p ihg ih =>
    obtain ⟨h1, t, si, h2, h3⟩ := h
    exact ⟨ih h1, t, si, h2, ihg t h3⟩

/-! ## Histories -/

theorem lastValue_poll (h : List (Act α β)) (w : Waker) (r : Poll (Option β)) :
    lastValue (h ++ [.poll w r]) = upd (lastValue h) r := by
  unfold lastValue
  match r with
  | .ready (some b) => simp [upd]
  | .ready none => simp [upd]
  | .pending => simp [upd]

theorem lastValue_env (h : List (Act α β)) (m : Nat) (e : Mut.Ev α) :
    lastValue (h ++ [.env m e]) = lastValue h := by
  unfold lastValue; simp

theorem steps_append {p : Net α β} {h1 h2 : List (Act α β)} {W W' : Env α} {s s' : p.St} :
    Steps p (h1 ++ h2) W s W' s' ↔ ∃ W1 s1, Steps p h1 W s W1 s1 ∧ Steps p h2 W1 s1 W' s' := by
  induction h1 generalizing W s with
  | nil =>
    constructor
    · exact fun h => ⟨W, s, ⟨rfl, rfl⟩, h⟩
    · rintro ⟨_, _, ⟨rfl, rfl⟩, h⟩; exact h
  | cons a h1 ih =>
    cases a with
    | env m e =>
      simp only [List.cons_append, Steps, ih]
      constructor
      · rintro ⟨k1, o, x, k2, W1, s1, k3, k4⟩; exact ⟨W1, s1, ⟨k1, o, x, k2, k3⟩, k4⟩
      · rintro ⟨W1, s1, ⟨k1, o, x, k2, k3⟩, k4⟩; exact ⟨k1, o, x, k2, W1, s1, k3, k4⟩
    | poll w r =>
      simp only [List.cons_append, Steps, ih]
      constructor
      · rintro ⟨W1, s1, k1, W2, s2, k2, k3⟩; exact ⟨W2, s2, ⟨W1, s1, k1, k2⟩, k3⟩
      · rintro ⟨W2, s2, ⟨W1, s1, k1, k2⟩, k3⟩; exact ⟨W1, s1, k1, W2, s2, k2, k3⟩

/-- The invariant along a history. -/
theorem steps_inv {p : Net α β} {h0 h : List (Act α β)} {W W' : Env α} {s s' : p.St}
    (hi : Inv p W s (lastValue h0)) (hok : Ok W) (hs : Steps p h W s W' s') :
    Inv p W' s' (lastValue (h0 ++ h)) ∧ Ok W' := by
  induction h generalizing h0 W s with
  | nil =>
    obtain ⟨rfl, rfl⟩ := hs
    rw [List.append_nil]
    exact ⟨hi, hok⟩
  | cons a h ih =>
    have e : h0 ++ a :: h = (h0 ++ [a]) ++ h := by simp
    rw [e]
    cases a with
    | env m ev =>
      obtain ⟨k1, o, x, k2, k3⟩ := hs
      refine ih ?_ (ok_env hok k2) k3
      rw [lastValue_env]
      exact inv_later (later_env hi hok k1 k2) hi
    | poll w r =>
      obtain ⟨W1, s1, k1, k2⟩ := hs
      have P := polls_post hi hok k1
      refine ih ?_ P.frame.ok k2
      rw [lastValue_poll]
      exact P.inv

theorem start_inv {p : Net α β} {W : Env α} {s : p.St} (h : Start p W s) : Inv p W s none ∧ Ok W := by
  obtain ⟨W0, h1, h2⟩ := h
  have hok : Ok W0 := fun m => by
    obtain ⟨a, es, os, hr⟩ := h1 m
    exact ⟨_, Mut.sim_runs_new hr⟩
  obtain ⟨k1, k2, -⟩ := makes_ok h2 hok
  exact ⟨k2, k1.ok⟩

theorem reach_inv {p : Net α β} {h : List (Act α β)} {W W' : Env α} {s s' : p.St} (h0 : Start p W s)
    (hs : Steps p h W s W' s') : Inv p W' s' (lastValue h) ∧ Ok W' := by
  obtain ⟨k1, k2⟩ := start_inv h0
  exact steps_inv (h0 := []) k1 k2 hs

end Verif.Net
