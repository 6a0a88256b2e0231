import Verif.PipeMut
import Verif.Props.MutableVec

/-!
# What a subscriber of a `MutableVec` has seen when it is at rest
-/

namespace Verif.MutVec

variable {α : Type}

/-- The last poll of a subscriber splits the history. -/
theorem polled_split {w0 w : World α} {h : List (Ev α)} (hr : w0.runs h = some w)
    {k : Nat} {x : Waker} {r : Poll (Option (VecDiff α))}
    (hp : (polled k w0 h).getLast? = some (x, r)) :
    ∃ h1 h2 w1, h = h1 ++ .poll k x :: h2 ∧ w0.runs h1 = some w1 ∧ w1.rxLive k = true ∧
      (w1.pollRx k x).1 = r ∧ (w1.pollRx k x).2.runs h2 = some w ∧
      polled k w0 h = polled k w0 h1 ++ [(x, r)] := by
  induction h generalizing w0 with
  | nil => simp [polled] at hp
  | cons e es ih =>
    simp only [World.runs] at hr
    cases hs : w0.step e with
    | none => simp [hs] at hr
    | some w1 =>
      simp only [hs] at hr
      by_cases hnil : polled k w1 es = []
      · cases e with
        | poll i cx =>
          simp only [polled, hs, hnil, List.append_nil] at hp ⊢
          by_cases hc : i = k ∧ w0.rxLive k = true
          · rw [if_pos hc] at hp ⊢
            obtain ⟨rfl, hc⟩ := hc
            simp only [List.getLast?_singleton, Option.some.injEq, Prod.mk.injEq] at hp
            obtain ⟨rfl, hp⟩ := hp
            simp only [World.step, hc, ↓reduceIte, Option.some.injEq] at hs
            subst hs
            exact ⟨[], es, w0, rfl, rfl, hc, hp, hr, by simp [polled, hp]⟩
          · rw [if_neg hc] at hp
            simp at hp
        | _ => simp [polled, hs, hnil] at hp
      · have hp' : (polled k w1 es).getLast? = some (x, r) := by
          simp only [polled, hs] at hp
          rw [List.getLast?_append] at hp
          cases hq : (polled k w1 es).getLast? with
          | none => exact absurd (List.getLast?_eq_none_iff.1 hq) hnil
          | some y => rw [hq] at hp; simpa using hp
        obtain ⟨h1, h2, w2, g1, g2, g3, g4, g5, g6⟩ := ih hr hp'
        refine ⟨e :: h1, h2, w2, by rw [g1]; rfl, by simp only [World.runs, hs]; exact g2, g3, g4, g5, ?_⟩
        simp only [polled, hs, g6, List.append_assoc]

theorem pollRx_same (w : World α) (k : Nat) (x : Waker) :
    (w.pollRx k x).2.values = w.values ∧ (w.pollRx k x).2.handles = w.handles := by
  unfold World.pollRx
  repeat' split
  all_goals exact ⟨rfl, rfl⟩

/-- Without handles the contents do not change. -/
theorem runs_dead {w w' : World α} {h : List (Ev α)} (hr : w.runs h = some w') (h0 : w.handles = 0) :
    w'.values = w.values := by
  induction h generalizing w with
  | nil => cases hr; rfl
  | cons e es ih =>
    simp only [World.runs] at hr
    cases hs : w.step e with
    | none => simp [hs] at hr
    | some w1 =>
      simp only [hs] at hr
      have : w1.values = w.values ∧ w1.handles = 0 := by
        cases e with
        | poll k x =>
          simp only [World.step] at hs
          split at hs
          · cases hs; exact ⟨(pollRx_same w k x).1, (pollRx_same w k x).2.trans h0⟩
          · cases hs; exact ⟨rfl, h0⟩
        | dropRx k =>
          simp only [World.step, World.dropRx] at hs
          repeat' split at hs
          all_goals (cases hs; exact ⟨rfl, h0⟩)
        | _ =>
          simp only [World.step, h0, ↓reduceIte] at hs
          cases hs
          exact ⟨rfl, h0⟩
      rw [ih hr this.2, this.1]

theorem runs_chans_le {w w' : World α} (hw : Inv w) {h : List (Ev α)} (hr : w.runs h = some w') :
    w.chans.length ≤ w'.chans.length := by
  induction h generalizing w with
  | nil => cases hr; exact Nat.le_refl _
  | cons e es ih =>
    simp only [World.runs] at hr
    cases hs : w.step e with
    | none => simp [hs] at hr
    | some w1 =>
      simp only [hs] at hr
      exact Nat.le_trans (step_chans_le hw hs) (ih (inv_step hw hs) hr)

theorem polled_replay {vs : List α} {h : List (Ev α)} {w : World α}
    (hr : (World.init vs).runs h = some w) (j : Nat) :
    ∃ ys, replay (polled j (World.init vs) h).diffs [] = some ys := by
  cases hc : (polled j (World.init vs) h).getLast? with
  | none =>
    rw [List.getLast?_eq_none_iff.1 hc]
    exact ⟨[], rfl⟩
  | some q =>
    obtain ⟨x, r⟩ := q
    obtain ⟨h1, h2, w1, rfl, g2, g3, g4, g5, g6⟩ := polled_split hr hc
    have hlt : j < w.chans.length := by
      have hi := inv_runs (inv_init vs) g2
      have : w1.runs (.poll j x :: h2) = some w := by
        simp only [World.runs, World.step, g3, ↓reduceIte]; exact g5
      exact Nat.lt_of_lt_of_le (live_lt g3) (runs_chans_le hi this)
    rw [polled_diffs]
    exact (C01_mirror vs _ w hr j _ (List.getElem?_eq_getElem hlt)).1

/-- A subscriber at rest has seen everything, or its waker has been woken. -/
theorem polled_rest {vs : List α} {h : List (Ev α)} {w : World α}
    (hr : (World.init vs).runs h = some w) {j : Nat} (hk : Kept vs j h w) {o : Option Waker}
    (hs : Rest o (polled j (World.init vs) h)) :
    replay (polled j (World.init vs) h).diffs [] = some w.values ∨
      ∃ x, o = some x ∧ WokenSince vs j h w x := by
  have fin : ∀ y, (polled j (World.init vs) h).getLast? = some (y, .ready none) →
      replay (polled j (World.init vs) h).diffs [] = some w.values := by
    intro y hy
    obtain ⟨h1, h2, w1, g1, g2, g3, g4, g5, g6⟩ := polled_split hr hy
    have hlt := live_lt g3
    have hc := List.getElem?_eq_getElem hlt
    have hl : (w1.chans[j]).rxAlive = true := by simpa [World.rxLive, hc] using g3
    obtain ⟨k1, k2⟩ := (C05_poll vs h1 w1 g2 j _ hc hl y).1.1 g4
    have hv := runs_dead g5 ((pollRx_same w1 j y).2.trans k1)
    have hc1 := C01_caught_up vs h1 w1 g2 j g3 y (by simp [g4])
    rw [g6, hv, (pollRx_same w1 j y).1, ← hc1, ← polled_diffs]
    simp [Trace.diffs, Trace.answers, items_append]
  rcases hs with ⟨x, ho, hs⟩ | ⟨y, hs⟩
  · rcases hk with hk | ⟨y, hk⟩
    · obtain ⟨h1, h2, w1, k1, k2, k3, k4, k5, k6, k7⟩ := polled_last (inv_init vs) hr hk hs
      obtain ⟨new, m1, m2⟩ := C05_wake vs h1 h2 w1 w k2 j k3 x x k4 k5 k6 k7
      rcases m2 with m2 | m2
      · exact .inr ⟨x, ho, h1, h2, w1, new, k1, k6, k2, m1, m2⟩
      · left
        rw [polled_diffs]
        exact C01_caught_up vs h w hr j hk x (by simp [m2])
    · rw [hs] at hk; cases hk
  · exact .inl (fin y hs)

end Verif.MutVec
