import Verif.Flow
import Verif.Props.MutableBTreeMap

/-!
# What a subscriber of a `MutableBTreeMap` has seen when it is at rest
-/

namespace Verif

variable {D : Type}

theorem hub_step_live {h : Hub D} (hw : HubWF h) (e : HubEv D) {k : Nat} {c : Link D}
    (hc : h.links[k]? = some c) :
    ∃ c', (h.step e).links[k]? = some c' ∧
      (c'.rxAlive = true → c.rxAlive = true ∧ e ≠ .dropRx k) := by
  have hk := (List.getElem?_eq_some_iff.1 hc).1
  cases e with
  | notify d =>
    simp only [Hub.step]
    split
    · exact ⟨c, hc, fun h => ⟨h, by simp⟩⟩
    · rename_i hh
      refine ⟨hubPush d c, by rw [(hub_notify hw hh d).2.1 k, hc]; rfl, fun h => ?_⟩
      rw [hubPush_rxAlive] at h
      exact ⟨h, by simp⟩
  | subscribe first =>
    simp only [Hub.step]
    split
    · exact ⟨c, hc, fun h => ⟨h, by simp⟩⟩
    · exact ⟨c, by simp only [Hub.subscribe]; rw [List.getElem?_append_left hk, hc], fun h => ⟨h, by simp⟩⟩
  | poll id cx =>
    simp only [Hub.step]
    split
    · by_cases hid : id = k
      · subst hid
        unfold Hub.pollRx
        simp only [hc]
        split
        · exact ⟨_, List.getElem?_set_self hk, fun h => ⟨h, by simp⟩⟩
        · split
          · exact ⟨_, List.getElem?_set_self hk, fun h => ⟨h, by simp⟩⟩
          · exact ⟨c, hc, fun h => ⟨h, by simp⟩⟩
      · exact ⟨c, by rw [pollRx_other' h id k cx hid, hc], fun h => ⟨h, by simp⟩⟩
    · exact ⟨c, hc, fun h => ⟨h, by simp⟩⟩
  | dropRx id =>
    simp only [Hub.step]
    by_cases hid : id = k
    · subst hid
      split
      · unfold Hub.dropRx
        simp only [hc]
        exact ⟨_, List.getElem?_set_self hk, fun h => by simp at h⟩
      · rename_i hl
        refine ⟨c, hc, fun h' => absurd ?_ hl⟩
        simp [Hub.rxLive, hc, h']
    · split
      · unfold Hub.dropRx
        split
        · exact ⟨c, hc, fun h => ⟨h, by simpa using hid⟩⟩
        · exact ⟨c, by simp [hid, hc], fun h => ⟨h, by simpa using hid⟩⟩
      · exact ⟨c, hc, fun h => ⟨h, by simpa using hid⟩⟩
  | cloneHandle =>
    simp only [Hub.step]
    split <;> exact ⟨c, hc, fun h => ⟨h, by simp⟩⟩
  | dropHandle =>
    simp only [Hub.step]
    split
    · exact ⟨c, hc, fun h => ⟨h, by simp⟩⟩
    · unfold Hub.dropHandle
      simp only
      split
      · rw [(hubDropSenders_spec h.senders { h with handles := h.handles - 1 }).1 k]
        simp only [hc, Option.map_some]
        refine ⟨_, rfl, fun h => ?_⟩
        split at h <;> exact ⟨h, by simp⟩
      · exact ⟨c, hc, fun h => ⟨h, by simp⟩⟩

theorem hub_steps_live {h : Hub D} (hw : HubWF h) (es : List (HubEv D)) {k : Nat} {c : Link D}
    (hc : h.links[k]? = some c) :
    ∃ c', (h.steps es).links[k]? = some c' ∧
      (c'.rxAlive = true → c.rxAlive = true ∧ .dropRx k ∉ es) := by
  induction es generalizing h c with
  | nil => exact ⟨c, hc, fun h => ⟨h, by simp⟩⟩
  | cons e es ih =>
    obtain ⟨c1, h1, h2⟩ := hub_step_live hw e hc
    obtain ⟨c2, h3, h4⟩ := ih (hub_step hw e) h1
    refine ⟨c2, h3, fun h => ?_⟩
    obtain ⟨g1, g2⟩ := h4 h
    obtain ⟨g3, g4⟩ := h2 g1
    refine ⟨g3, ?_⟩
    simp only [List.mem_cons, not_or]
    exact ⟨fun h => g4 h.symm, g2⟩

end Verif

namespace Verif.MutMap

variable {K V : Type} [LinearOrder K]

/-- The polls made on subscriber `id` during a history, with their wakers and answers. -/
def polled (id : Nat) : World K V → List (Ev K V) → List (Waker × Poll (Option (MapDiff K V)))
  | _, [] => []
  | w, e :: es =>
    let now := match e with
      | .poll i cx => if i = id ∧ w.hub.rxLive id = true then [(cx, (w.hub.pollRx id cx).1)] else []
      | _ => []
    match w.step e with
    | none => now
    | some w' => now ++ polled id w' es

/-- The last poll of subscriber `j` was with waker `x`, and `x` has been woken since. -/
def WokenSince (vs : BMap K V) (j : Nat) (h : List (Ev K V)) (w : World K V) (x : Waker) : Prop :=
  ∃ h₁ h₂ w₁ new, h = h₁ ++ .poll j x :: h₂ ∧ (∀ y, .poll j y ∉ h₂) ∧
    (World.init vs).runs h₁ = some w₁ ∧ w.hub.woken = w₁.hub.woken ++ new ∧ x ∈ new

/-- The subscriber has not been dropped before it had reported its end. -/
def Kept (vs : BMap K V) (j : Nat) (h : List (Ev K V)) (w : World K V) : Prop :=
  w.hub.rxLive j = true ∨ ∃ y, (polled j (World.init vs) h).getLast? = some (y, .ready none)

theorem polled_received (id : Nat) (w : World K V) (h : List (Ev K V)) :
    items ((polled id w h).map (·.2)) = received id w h := by
  induction h generalizing w with
  | nil => rfl
  | cons e es ih =>
    have hnow : ∀ (cx : Waker) (b : Prop) [Decidable b],
        items ((if b then [(cx, (w.hub.pollRx id cx).1)] else []).map (·.2)) =
        if b then (match (w.hub.pollRx id cx).1 with
          | .ready (some d) => [d]
          | _ => []) else [] := by
      intro cx b _
      by_cases hb : b
      · simp only [hb, ↓reduceIte, List.map_cons, List.map_nil]
        match (w.hub.pollRx id cx).1 with
        | .ready (some d) => rfl
        | .ready none => rfl
        | .pending => rfl
      · simp [hb]
    cases e with
    | poll i cx =>
      simp only [polled, received]
      cases hs : w.step (.poll i cx) with
      | none => exact hnow cx _
      | some w' => simp only [List.map_append, items_append, hnow, ih]; rfl
    | _ =>
      simp only [polled, received]
      generalize w.step _ = o
      cases o with
      | none => rfl
      | some w' => simpa using ih w'

/-- The last poll of a subscriber splits the history. -/
theorem polled_split {w0 w : World K V} {h : List (Ev K V)} (hr : w0.runs h = some w)
    {k : Nat} {x : Waker} {r : Poll (Option (MapDiff K V))}
    (hp : (polled k w0 h).getLast? = some (x, r)) :
    ∃ h1 h2 w1, h = h1 ++ .poll k x :: h2 ∧ w0.runs h1 = some w1 ∧ w1.hub.rxLive k = true ∧
      (w1.hub.pollRx k x).1 = r ∧
      ({ w1 with hub := (w1.hub.pollRx k x).2 } : World K V).runs h2 = some w ∧
      polled k w0 h = polled k w0 h1 ++ [(x, r)] ∧
      polled k { w1 with hub := (w1.hub.pollRx k x).2 } h2 = [] := by
  induction h generalizing w0 with
  | nil => simp [polled] at hp
  | cons e es ih =>
    simp only [World.runs] at hr
    cases hs : w0.step e with
    | none => simp [hs] at hr
    | some w1 =>
      simp only [hs] at hr
      by_cases hnil : polled k w1 es = []
      · cases e with
        | poll i cx =>
          simp only [polled, hs, hnil, List.append_nil] at hp ⊢
          by_cases hc : i = k ∧ w0.hub.rxLive k = true
          · rw [if_pos hc] at hp ⊢
            obtain ⟨rfl, hc⟩ := hc
            simp only [List.getLast?_singleton, Option.some.injEq, Prod.mk.injEq] at hp
            obtain ⟨rfl, hp⟩ := hp
            simp only [World.step, hc, ↓reduceIte, Option.some.injEq] at hs
            subst hs
            exact ⟨[], es, w0, rfl, rfl, hc, hp, hr, by simp [polled, hp], hnil⟩
          · rw [if_neg hc] at hp
            simp at hp
        | _ => simp [polled, hs, hnil] at hp
      · have hp' : (polled k w1 es).getLast? = some (x, r) := by
          simp only [polled, hs] at hp
          rw [List.getLast?_append] at hp
          cases hq : (polled k w1 es).getLast? with
          | none => exact absurd (List.getLast?_eq_none_iff.1 hq) hnil
          | some y => rw [hq] at hp; simpa using hp
        obtain ⟨h1, h2, w2, g1, g2, g3, g4, g5, g6, g7⟩ := ih hr hp'
        refine ⟨e :: h1, h2, w2, by rw [g1]; rfl, by simp only [World.runs, hs]; exact g2, g3, g4, g5, ?_, g7⟩
        simp only [polled, hs, g6, List.append_assoc]

theorem hubEvs_drop {e : Ev K V} {w : World K V} {k : Nat} (h : .dropRx k ∉ e.hubEvs w) :
    e ≠ .dropRx k := by
  rintro rfl
  simp [Ev.hubEvs] at h

theorem runs_live_back {w w' : World K V} (hi : Inv w) {es : List (Ev K V)} (hr : w.runs es = some w')
    {k : Nat} {c : Link (MapDiff K V)} (hc : w.hub.links[k]? = some c) :
    ∃ c', w'.hub.links[k]? = some c' ∧ (c'.rxAlive = true → c.rxAlive = true ∧ .dropRx k ∉ es ∧
      (polled k w es = [] → ∀ cx, .poll k cx ∉ es)) := by
  induction es generalizing w c with
  | nil => cases hr; exact ⟨c, hc, fun h => ⟨h, by simp, by simp⟩⟩
  | cons e es ih =>
    have hs := step_eq w hi.wf e
    simp only [World.runs, hs] at hr
    obtain ⟨c1, h1, h2⟩ := hub_steps_live hi.wf (e.hubEvs w) hc
    obtain ⟨c2, h3, h4⟩ := ih (inv_step hi hs) hr h1
    refine ⟨c2, h3, fun h => ?_⟩
    obtain ⟨g1, g2, g3⟩ := h4 h
    obtain ⟨g4, g5⟩ := h2 g1
    refine ⟨g4, ?_, ?_⟩
    · simp only [List.mem_cons, not_or]
      exact ⟨fun h => hubEvs_drop g5 h.symm, g2⟩
    · intro hp cx
      simp only [polled, hs, List.append_eq_nil_iff] at hp
      simp only [List.mem_cons, not_or]
      refine ⟨?_, g3 hp.2 cx⟩
      rintro rfl
      simp [Hub.rxLive, hc, g4] at hp

theorem pollRx_handles (h : Hub (MapDiff K V)) (k : Nat) (x : Waker) :
    (h.pollRx k x).2.handles = h.handles := by
  unfold Hub.pollRx
  repeat' split
  all_goals rfl

/-- Without handles the contents do not change. -/
theorem runs_dead {w w' : World K V} {h : List (Ev K V)} (hr : w.runs h = some w')
    (h0 : w.hub.handles = 0) : w'.values = w.values := by
  induction h generalizing w with
  | nil => cases hr; rfl
  | cons e es ih =>
    simp only [World.runs] at hr
    cases hs : w.step e with
    | none => simp [hs] at hr
    | some w1 =>
      simp only [hs] at hr
      have : w1.values = w.values ∧ w1.hub.handles = 0 := by
        cases e with
        | poll k x =>
          simp only [World.step] at hs
          split at hs
          · cases hs; exact ⟨rfl, (pollRx_handles _ _ _).trans h0⟩
          · cases hs; exact ⟨rfl, h0⟩
        | dropRx k =>
          simp only [World.step, Hub.dropRx] at hs
          repeat' split at hs
          all_goals (cases hs; exact ⟨rfl, h0⟩)
        | _ =>
          simp only [World.step, h0, ↓reduceIte] at hs
          cases hs
          exact ⟨rfl, h0⟩
      rw [ih hr this.2, this.1]

theorem polled_some {vs : BMap K V} {h : List (Ev K V)} {w : World K V}
    (hr : (World.init vs).runs h = some w) (j : Nat) :
    polled j (World.init vs) h = [] ∨ ∃ c, w.hub.links[j]? = some c := by
  cases hc : (polled j (World.init vs) h).getLast? with
  | none => exact .inl (List.getLast?_eq_none_iff.1 hc)
  | some q =>
    obtain ⟨x, r⟩ := q
    obtain ⟨h1, h2, w1, rfl, g2, g3, g4, g5, -⟩ := polled_split hr hc
    have hrun : w1.runs (.poll j x :: h2) = some w := by
      simp only [World.runs, World.step, g3, ↓reduceIte]; exact g5
    cases hq : w1.hub.links[j]? with
    | none => simp [Hub.rxLive, hq] at g3
    | some c =>
      obtain ⟨c', k1, -⟩ := runs_live_back (inv_runs (inv_init vs) g2) hrun hq
      exact .inr ⟨c', k1⟩

theorem polled_replay {vs : BMap K V} {h : List (Ev K V)} {w : World K V}
    (hr : (World.init vs).runs h = some w) (j : Nat) :
    (∃ m, mreplay (items ((polled j (World.init vs) h).map (·.2))) noKeys = some m) ∧
    ∀ d ∈ items ((polled j (World.init vs) h).map (·.2)), Sorted d := by
  rcases polled_some hr j with h0 | ⟨c, hc⟩
  · rw [h0]; exact ⟨⟨_, rfl⟩, by simp⟩
  · rw [polled_received]
    obtain ⟨w', g1, g2⟩ := C24_mirror vs h
    cases hr.symm.trans g1
    exact ⟨(g2 j c hc).1, (C24_sorted vs h w hr j c hc).1⟩

/-- A subscriber at rest has seen everything, or its waker has been woken. -/
theorem polled_rest {vs : BMap K V} {h : List (Ev K V)} {w : World K V}
    (hr : (World.init vs).runs h = some w) {j : Nat} (hk : Kept vs j h w) {o : Option Waker}
    (hs : Rest o (polled j (World.init vs) h)) :
    mreplay (items ((polled j (World.init vs) h).map (·.2))) noKeys = some (mapOf w.values.1) ∨
      ∃ x, o = some x ∧ WokenSince vs j h w x := by
  have fin : ∀ y, (polled j (World.init vs) h).getLast? = some (y, .ready none) →
      mreplay (items ((polled j (World.init vs) h).map (·.2))) noKeys = some (mapOf w.values.1) := by
    intro y hy
    obtain ⟨h1, h2, w1, g1, g2, g3, g4, g5, g6, -⟩ := polled_split hr hy
    cases hc : w1.hub.links[j]? with
    | none => simp [Hub.rxLive, hc] at g3
    | some c =>
      have hl : c.rxAlive = true := by simpa [Hub.rxLive, hc] using g3
      obtain ⟨k1, k2⟩ := (C61_poll vs h1 w1 g2 j _ hc hl y).1.1 g4
      have hv := runs_dead g5 ((pollRx_handles _ j y).trans k1)
      have hc1 := C24_caught_up vs h1 w1 g2 j g3 y (by simp [g4])
      rw [g6, hv, ← hc1, ← polled_received]
      simp [items_append]
  rcases hs with ⟨x, ho, hs⟩ | ⟨y, hs⟩
  · rcases hk with hk | ⟨y, hk⟩
    · obtain ⟨h1, h2, w1, k1, k2, k3, k4, k5, k6, k7⟩ := polled_split hr hs
      have hi1 := inv_runs (inv_init vs) k2
      have hi2 := inv_step hi1 (e := .poll j x) (by simp only [World.step, k3, ↓reduceIte]; rfl)
      have hex : ∃ c, (w1.hub.pollRx j x).2.links[j]? = some c := by
        cases hc : w1.hub.links[j]? with
        | none => simp [Hub.rxLive, hc] at k3
        | some c =>
          obtain ⟨c', e, -⟩ := hub_step_live hi1.wf (.poll j x) hc
          simp only [Hub.step, k3, ↓reduceIte] at e
          exact ⟨c', e⟩
      obtain ⟨c, hc⟩ := hex
      obtain ⟨c', e1, e2⟩ := runs_live_back hi2 k5 hc
      obtain ⟨-, n1, n2⟩ := e2 (by simpa [Hub.rxLive, e1] using hk)
      obtain ⟨new, m1, m2⟩ := C61_wake vs h1 h2 w1 w k2 j k3 x x k4 k5 (n2 k7) n1
      rcases m2 with m2 | m2
      · exact .inr ⟨x, ho, h1, h2, w1, new, k1, n2 k7, k2, m1, m2⟩
      · left
        rw [polled_received]
        exact C24_caught_up vs h w hr j hk x (by simp [m2])
    · rw [hs] at hk; cases hk
  · exact .inl (fin y hs)

end Verif.MutMap
