import Verif.PipeMut

/-!
# Copying the changes of a `SignalVec` into a `MutableVec` (property C91)

`e.for_each(|diff| { MutableVecLockMut::apply_vec_diff(&mut target.lock_mut(), diff); ready(()) })`:
the callback applies each change to a `MutableVec` (`/repo/src/signal_vec.rs:3339-3350`, `505-514`).
-/

namespace Verif.MutVec

variable {α : Type}

/-- The method call of an event, if it is one. -/
def Ev.call? : Ev α → Option (Op α)
  | .op o => some o
  | _ => none

/-- What the program does with the `MutableVec` is to apply the changes `ds`, in this order, and nothing
else.  It may have any number of subscribers, polled and dropped at any time. -/
def Copies (ds : List (VecDiff α)) (h : List (Ev α)) : Prop :=
  h.filterMap Ev.call? = ds.map .applyVecDiff

/-- Whenever a method is called there is a handle to call it on: the callback has one. -/
def Held (w : World α) (h : List (Ev α)) : Prop :=
  ∀ h1 o h2 w1, h = h1 ++ .op o :: h2 → w.runs h1 = some w1 → w1.handles ≠ 0

/-! ## Lemmas -/

theorem held_tail {w w' : World α} {e : Ev α} {h : List (Ev α)} (hh : Held w (e :: h))
    (hs : w.step e = some w') : Held w' h := by
  intro h1 o h2 w1 he hr
  exact hh (e :: h1) o h2 w1 (by rw [he]; rfl) (by simp [World.runs, hs, hr])

/-- Applying a change that fits. -/
theorem apply_spec {d : VecDiff α} {l l' : List α} (h : d.apply l = some l') :
    (Op.applyVecDiff d).spec l = some (.unit, l') := by
  cases d with
  | move i j =>
    simp only [Op.spec]
    split
    · rename_i hij
      subst hij
      rw [← moved_eq_apply] at h
      by_cases hi : i < l.length
      · have hl : l = l.take i ++ [] ++ l[i] :: l.drop (i + 1) := by simp
        have hn : (l.take i).length = i := by simp; omega
        have := moved_back (l.take i) [] l[i] (l.drop (i + 1))
        simp only [List.length_nil, Nat.add_zero, hn, ← hl] at this
        rw [this] at h
        cases h
        simp
      · rw [moved_none (.inl (by omega))] at h
        cases h
    · rw [moved_eq_apply, h]; rfl
  | _ => simp only [Op.spec, h]; rfl

theorem step_quiet {w : World α} {e : Ev α} (he : e.call? = none) :
    ∃ w', w.step e = some w' ∧ w'.values = w.values := by
  cases e with
  | op o => cases he
  | subscribe =>
    simp only [World.step]
    split
    · exact ⟨_, rfl, rfl⟩
    · exact ⟨_, rfl, rfl⟩
  | poll id cx =>
    simp only [World.step]
    split
    · refine ⟨_, rfl, ?_⟩
      unfold World.pollRx
      repeat' split
      all_goals rfl
    · exact ⟨_, rfl, rfl⟩
  | dropRx id =>
    simp only [World.step]
    split
    · refine ⟨_, rfl, ?_⟩
      unfold World.dropRx
      split <;> rfl
    · exact ⟨_, rfl, rfl⟩
  | cloneHandle =>
    simp only [World.step]
    split <;> exact ⟨_, rfl, rfl⟩
  | dropHandle =>
    simp only [World.step]
    split
    · exact ⟨_, rfl, rfl⟩
    · refine ⟨_, rfl, ?_⟩
      have key : ∀ (ss : List Nat) (w : World α), (dropSenders ss w).values = w.values := by
        intro ss
        induction ss with
        | nil => intro w; rfl
        | cons s ss ih =>
          intro w
          rw [dropSenders, ih]
          unfold World.dropTx
          split <;> rfl
      unfold World.dropHandle
      simp only
      split
      · exact key _ _
      · rfl

theorem step_copy {w : World α} {d : VecDiff α} {l' : List α} (hh : w.handles ≠ 0)
    (h : d.apply w.values = some l') :
    ∃ w', w.step (.op (.applyVecDiff d)) = some w' ∧ w'.values = l' := by
  simp only [World.step, hh, ↓reduceIte, exec_eq, apply_spec h, Option.map_some]
  exact ⟨_, rfl, rfl⟩

theorem runs_copies {w : World α} {h : List (Ev α)} {ds : List (VecDiff α)} {v : List α}
    (hc : Copies ds h) (hh : Held w h) (hv : replay ds w.values = some v) :
    ∃ w', w.runs h = some w' ∧ w'.values = v := by
  induction h generalizing w ds with
  | nil =>
    have : ds = [] := by
      simp only [Copies, List.filterMap_nil] at hc
      exact List.map_eq_nil_iff.1 hc.symm
    subst this
    cases hv
    exact ⟨w, rfl, rfl⟩
  | cons e h ih =>
    cases hcall : e.call? with
    | none =>
      obtain ⟨w', hs, hw⟩ := step_quiet (w := w) hcall
      have hc' : Copies ds h := by
        simpa only [Copies, List.filterMap_cons, hcall] using hc
      obtain ⟨w'', h1, h2⟩ := ih hc' (held_tail hh hs) (by rw [hw]; exact hv)
      exact ⟨w'', by simp [World.runs, hs, h1], h2⟩
    | some o =>
      have he : e = .op o := by cases e <;> simp_all [Ev.call?]
      subst he
      cases ds with
      | nil => simp [Copies, Ev.call?] at hc
      | cons d ds =>
        simp only [Copies, List.filterMap_cons, hcall, List.map_cons, List.cons.injEq] at hc
        obtain ⟨rfl, hc⟩ := hc
        simp only [replay] at hv
        cases hd : d.apply w.values with
        | none => simp [hd] at hv
        | some l' =>
          obtain ⟨w', hs, hw⟩ := step_copy (hh [] _ h w rfl rfl) hd
          obtain ⟨w'', h1, h2⟩ := ih hc (held_tail hh hs) (by
            rw [hw]; simpa [hd] using hv)
          exact ⟨w'', by simp [World.runs, hs, h1], h2⟩

theorem copies_prefix {h1 h2 : List (Ev α)} {o : Op α} {ds : List (VecDiff α)}
    (hc : Copies ds (h1 ++ .op o :: h2)) :
    ∃ a d b, ds = a ++ d :: b ∧ o = .applyVecDiff d ∧ Copies a h1 := by
  simp only [Copies, List.filterMap_append, List.filterMap_cons, Ev.call?] at hc
  obtain ⟨a, r, hds, ha, hr⟩ := List.map_eq_append_iff.1 hc.symm
  obtain ⟨d, b, rfl, hd, hb⟩ := List.map_eq_cons_iff.1 hr
  exact ⟨a, d, b, hds, hd.symm, ha.symm⟩

theorem step_handles {w w' : World α} {e : Ev α} (hw : w.handles ≠ 0) (he : e ≠ .dropHandle)
    (hs : w.step e = some w') : w'.handles ≠ 0 := by
  have hret : ∀ (d : VecDiff α) (ss : List Nat) (w : World α),
      (retainSend d ss w).2.handles = w.handles := by
    intro d ss
    induction ss with
    | nil => intro w; rfl
    | cons s ss ih => intro w; simp only [retainSend, ih]; exact (send_rest w s d).2.2.1
  have hall : ∀ (ds : List (VecDiff α)) (w : World α), (notifyAll w ds).handles = w.handles := by
    intro ds
    induction ds with
    | nil => intro w; rfl
    | cons d ds ih =>
      intro w
      rw [notifyAll_cons, ih]
      simp only [World.notify, hret]
  cases e with
  | op o =>
    simp only [World.step, hw, ↓reduceIte, exec_eq] at hs
    cases ho : o.spec w.values with
    | none => simp [ho] at hs
    | some r =>
      simp only [ho, Option.map_some, Option.some.injEq] at hs
      subst hs
      simpa only [hall] using hw
  | subscribe => simp only [World.step, hw, ↓reduceIte] at hs; cases hs; exact hw
  | poll id cx =>
    simp only [World.step] at hs
    split at hs <;> cases hs
    · unfold World.pollRx
      repeat' split
      all_goals exact hw
    · exact hw
  | dropRx id =>
    simp only [World.step] at hs
    split at hs <;> cases hs
    · unfold World.dropRx
      split <;> exact hw
    · exact hw
  | cloneHandle => simp only [World.step, hw, ↓reduceIte] at hs; cases hs; simp
  | dropHandle => exact absurd rfl he

end Verif.MutVec
