import Verif.HubConcProofs
import Verif.HubConcApi
import Verif.MutableVecHub
import Mathlib.Data.Nat.Basic

/-!
# `MutableVec` and `MutableBTreeMap` while subscribers run on other threads (property C75)

Model: `Verif/HubConc.lean` (each send, and each drop of a sender, is a step; between them
subscribers may be polled or dropped), instances `Verif/HubConcApi.lean`.  Specification vocabulary:
`got` (the diffs a subscriber got), `replay` (`Verif/VecDiff.lean`), `mreplay`
(`Verif/MapDiff.lean`).
-/

namespace Verif.HubConc

variable {S D O : Type} {R : S → List D → Prop}

theorem link_of_live {w : World S D} {k : Nat} (hl : w.hub.rxLive k = true) :
    ∃ c, w.hub.links[k]? = some c ∧ c.rxAlive = true := by
  unfold Hub.rxLive at hl
  split at hl
  · rename_i c hc; exact ⟨c, hc, hl⟩
  · cases hl

theorem poll_iff {w : World S D} (hi : Inv R w) {k : Nat} {c : Link D}
    (hc : w.hub.links[k]? = some c) (hl : c.rxAlive = true) (cx : Waker) :
    ((w.hub.pollRx k cx).1 = .ready none ↔ c.queue = [] ∧ w.hub.handles = 0 ∧ k ∉ w.closing) ∧
    ((w.hub.pollRx k cx).1 = .pending ↔ c.queue = [] ∧ (w.hub.handles ≠ 0 ∨ k ∈ w.closing)) := by
  have ht := hi.tx k c hc hl
  unfold Hub.pollRx
  simp only [hc]
  cases hq : c.queue with
  | cons d ds => simp
  | nil =>
    cases hx : c.txAlive with
    | true =>
      have := ht.1 hx
      simp only [↓reduceIte, reduceCtorEq, true_and, false_iff, true_iff]
      exact ⟨fun h => by rcases this with h' | h'; exacts [h' h.1, h.2 h'], this⟩
    | false =>
      have : ¬ (w.hub.handles ≠ 0 ∨ k ∈ w.closing) := fun h => by simp [ht.2 h] at hx
      simp only [Bool.false_eq_true, ↓reduceIte, true_and, reduceCtorEq, false_iff, this,
        not_false_eq_true, and_true, true_iff]
      grind

/-- The general form of `C75_vec_wake` and `C75_map_wake`. -/
theorem wake_general {api : Api S D O} (ok : api.Ok R) {s : S} {es es' : List (Ev O)}
    {os os' : List (Option (Poll (Option D)))} {w w' : World S D} {k : Nat} {x : Waker}
    (h : (World.init s).runs api es = some (os, w))
    (h' : w.runs api (.poll k x :: es') = some (some .pending :: os', w'))
    (hp : ∀ cx, .poll k cx ∉ es') (hd : .dropRx k ∉ es') :
    ∃ new, w'.hub.woken = w.hub.woken ++ new ∧
      (x ∈ new ∨ ∀ cx, (w'.hub.pollRx k cx).1 = .pending) := by
  have hi := inv_runs ok (inv_init (R := R) s) h
  simp only [World.runs, runE] at h'
  cases hs : w.step api (.poll k x) with
  | none => simp [hs] at h'
  | some p =>
    obtain ⟨o, w1⟩ := p
    simp only [hs] at h'
    cases hr : runE (World.step api) w1 es' with
    | none => simp [hr] at h'
    | some q =>
      obtain ⟨os2, w2⟩ := q
      simp only [hr, Option.some.injEq, Prod.mk.injEq, List.cons.injEq] at h'
      obtain ⟨⟨ho, rfl⟩, rfl⟩ := h'
      have hi1 := inv_step ok hi hs
      have hi2 := inv_runs ok hi1 hr
      obtain ⟨new, h1, h2⟩ := runs_wake ok hi1 hr
      simp only [World.step] at hs
      split at hs
      · rename_i hl
        simp only [Option.some.injEq, Prod.mk.injEq] at hs
        obtain ⟨rfl, rfl⟩ := hs
        simp only [Option.some.injEq] at ho
        obtain ⟨c, hc, ha⟩ := link_of_live hl
        rw [pollRx_woken] at h1
        refine ⟨new, h1, ?_⟩
        have hk := (List.getElem?_eq_some_iff.1 hc).1
        have : ∃ c1, (w.hub.pollRx k x).2.links[k]? = some c1 ∧ c1.waker = some x := by
          unfold Hub.pollRx at ho ⊢
          simp only [hc] at ho ⊢
          cases hq : c.queue with
          | cons d ds => simp [hq] at ho
          | nil =>
            simp only [hq] at ho ⊢
            cases hx : c.txAlive with
            | true => simp [hk]
            | false => simp [hx] at ho
        obtain ⟨c1, hc1, hx1⟩ := this
        rcases h2 k c1 x hc1 hx1 hp hd with h3 | ⟨c2, hc2, hx2⟩
        · exact .inl h3
        · refine .inr fun cx => ?_
          obtain ⟨g1, g2, g3⟩ := hi2.waiting k c2 x hc2 hx2
          exact (poll_iff hi2 hc2 g3 cx).2.2 ⟨g1, (hi2.tx k c2 hc2 g3).1 g2⟩
      · cases hs

/-- The general form of `C75_vec_ends` and `C75_map_ends`. -/
theorem ends_general {api : Api S D O} (ok : api.Ok R) {s : S} {es es' : List (Ev O)} {o : O}
    {os os' : List (Option (Poll (Option D)))} {w w' : World S D} {ds : List D}
    (h : (World.init s).runs api es = some (os, w))
    (h' : w.runs api (.call o :: es') = some (os', w'))
    (hds : (api.eff o w.values).map (·.1) = some ds)
    (he : ∀ e ∈ es', e.Other) :
    es'.countP Ev.isTick ≤ ds.length * (w.hub.links.length + 2) + 1 ∧
    (w'.job ≠ none → ∃ w'', w'.step api .tick = some (none, w'')) := by
  have hi := inv_runs ok (inv_init (R := R) s) h
  simp only [World.runs, runE] at h'
  cases hs : w.step api (.call o) with
  | none => simp [hs] at h'
  | some p =>
    obtain ⟨a, w1⟩ := p
    simp only [hs] at h'
    cases hr : runE (World.step api) w1 es' with
    | none => simp [hr] at h'
    | some q =>
      obtain ⟨os2, w2⟩ := q
      simp only [hr, Option.some.injEq, Prod.mk.injEq] at h'
      obtain ⟨-, rfl⟩ := h'
      have hi1 := inv_step ok hi hs
      refine ⟨?_, fun hj => ?_⟩
      · have key : w1.hub.handles ≠ 0 ∧ w1.cost = ds.length * (w.hub.links.length + 2) + 1 := by
          simp only [World.step] at hs
          split at hs
          · cases hs
          · rename_i hn
            split at hs
            · cases hs
            · rename_i ds' s' he'
              cases hs
              simp only [he', Option.map_some, Option.some.injEq] at hds
              subst hds
              exact ⟨fun h => hn (.inl h), by simp [World.cost]⟩
        have := others_cost ok hi1 key.1 he hr
        omega
      · obtain ⟨w3, h3⟩ := tick_some hj
        exact ⟨w3, by simp [World.step, h3]⟩

/-- Where a live subscriber stands while a call is running. -/
theorem mid_general {w : World S D} (hi : Inv R w) {k : Nat} {c : Link D}
    (hc : w.hub.links[k]? = some c) (ha : c.rxAlive = true) {j : Job S D} (hj : w.job = some j) :
    ∃ X q, R j.old X ∧ R w.values (X ++ j.all) ∧ j.all = q ++ j.due k ∧
      c.delivered ++ c.queue = X ++ q := by
  obtain ⟨-, ⟨p, hp⟩, h3, h4⟩ := hi.busy j hj
  obtain ⟨X, h5, h6⟩ := h4 k c hc ha
  have hsuf : ∃ q, j.all = q ++ j.due k := by
    simp only [Job.left] at hp
    simp only [Job.due]
    cases hcur : j.cur with
    | none => simp only [hcur] at hp; exact ⟨p, by simpa using hp⟩
    | some t =>
      obtain ⟨d, todo, kept⟩ := t
      simp only [hcur] at hp
      simp only
      split
      · exact ⟨p, by simpa using hp⟩
      · exact ⟨p ++ [d], by simpa using hp⟩
  obtain ⟨q, hq⟩ := hsuf
  refine ⟨X, q, h5, h3 X h5, hq, ?_⟩
  rw [hq, ← List.append_assoc] at h6
  exact List.append_cancel_right h6

theorem step_closing {api : Api S D O} {w w' : World S D} {e : Ev O} {o : Option (Poll (Option D))}
    (hi : Inv R w) (hh : w.hub.handles = 0) (h : w.step api e = some (o, w')) :
    w'.hub.handles = 0 ∧ (if e.isTick then 1 else 0) + w'.closing.length = w.closing.length := by
  have hj := (hi.gone hh).2
  cases e with
  | call a => simp [World.step, hh] at h
  | tick =>
    simp only [World.step, World.tick, hj] at h
    cases hcl : w.closing with
    | nil => simp [hcl] at h
    | cons s ss =>
      simp only [hcl, Option.map_some, Option.some.injEq, Prod.mk.injEq] at h
      obtain ⟨-, rfl⟩ := h
      refine ⟨?_, by simp [Ev.isTick]; omega⟩
      simp only [Hub.dropTx]
      split <;> exact hh
  | subscribe => simp [World.step, hh] at h
  | poll id cx =>
    simp only [World.step] at h
    split at h
    · cases h
      refine ⟨?_, by simp [Ev.isTick]⟩
      simp only
      unfold Hub.pollRx; split
      · exact hh
      · split
        · exact hh
        · split <;> exact hh
    · cases h
  | dropRx id =>
    simp only [World.step] at h
    split at h
    · cases h
      refine ⟨?_, by simp [Ev.isTick]⟩
      simp only
      unfold Hub.dropRx; split <;> exact hh
    · cases h
  | cloneHandle => simp [World.step, hh] at h
  | dropHandle => simp [World.step, hh] at h

theorem runs_closing {api : Api S D O} (ok : api.Ok R) {w w' : World S D} {es : List (Ev O)}
    {os : List (Option (Poll (Option D)))} (hi : Inv R w) (hh : w.hub.handles = 0)
    (h : w.runs api es = some (os, w')) :
    w'.hub.handles = 0 ∧ es.countP Ev.isTick + w'.closing.length = w.closing.length := by
  induction es generalizing w os with
  | nil => cases h; exact ⟨hh, by simp⟩
  | cons e es ih =>
    simp only [World.runs, runE] at h
    cases hs : w.step api e with
    | none => simp [hs] at h
    | some p =>
      obtain ⟨o, w1⟩ := p
      simp only [hs] at h
      cases hr : runE (World.step api) w1 es with
      | none => simp [hr] at h
      | some q =>
        obtain ⟨os', w2⟩ := q
        simp only [hr, Option.some.injEq, Prod.mk.injEq] at h
        obtain ⟨rfl, rfl⟩ := h
        obtain ⟨h1, h2⟩ := step_closing hi hh hs
        obtain ⟨h3, h4⟩ := ih (inv_step ok hi hs) h1 hr
        refine ⟨h3, ?_⟩
        rw [List.countP_cons]
        omega

/-- The general form of `C75_vec_closes` and `C75_map_closes`. -/
theorem closes_general {api : Api S D O} (ok : api.Ok R) {s : S} {es es' : List (Ev O)}
    {os os' : List (Option (Poll (Option D)))} {w w' : World S D}
    (h : (World.init s).runs api es = some (os, w)) (h1 : w.hub.handles = 1)
    (h' : w.runs api (.dropHandle :: es') = some (os', w')) :
    es'.countP Ev.isTick ≤ w.hub.senders.length ∧
    (es'.countP Ev.isTick < w.hub.senders.length → ∃ w'', w'.step api .tick = some (none, w'')) ∧
    (es'.countP Ev.isTick = w.hub.senders.length → ∀ k c cx, w'.hub.links[k]? = some c →
      c.rxAlive = true → c.queue = [] → (w'.hub.pollRx k cx).1 = .ready none) := by
  have hi := inv_runs ok (inv_init (R := R) s) h
  simp only [World.runs, runE] at h'
  cases hs : w.step api .dropHandle with
  | none => simp [hs] at h'
  | some p =>
    obtain ⟨a, w1⟩ := p
    simp only [hs] at h'
    cases hr : runE (World.step api) w1 es' with
    | none => simp [hr] at h'
    | some q =>
      obtain ⟨os2, w2⟩ := q
      simp only [hr, Option.some.injEq, Prod.mk.injEq] at h'
      obtain ⟨-, rfl⟩ := h'
      have hi1 := inv_step ok hi hs
      have hi2 := inv_runs ok hi1 hr
      simp only [World.step, h1, Nat.one_ne_zero, ↓reduceIte] at hs
      split at hs
      · cases hs
      · cases hs
        obtain ⟨h2, h3⟩ := runs_closing ok hi1 rfl hr
        simp only at h3
        refine ⟨by omega, fun hlt => ?_, fun heq k c cx hc ha hq => ?_⟩
        · have hj := (hi2.gone h2).2
          cases hcl : w2.closing with
          | nil => rw [hcl] at h3; simp at h3; omega
          | cons s ss => exact ⟨_, by simp [World.step, World.tick, hj, hcl]; rfl⟩
        · have : w2.closing = [] := List.eq_nil_of_length_eq_zero (by omega)
          exact (poll_iff hi2 hc ha cx).1.2 ⟨hq, h2, by simp [this]⟩

/-! ## `MutableVec` -/

section Vec

variable {α : Type}

theorem vec_ok : (vecApi α).Ok (fun l ds => replay ds [] = some l) where
  first l := by
    cases l with
    | nil => rfl
    | cons a l => simp [vecApi, replay, VecDiff.apply]
  eff o l ds l' X h hX := by
    simp only [vecApi, Option.map_eq_some_iff, Prod.mk.injEq] at h
    obtain ⟨r, h1, rfl, rfl⟩ := h
    exact replay_append_some hX (MutVec.replay_diffs o l r h1)

theorem vec_split {a b : List (VecDiff α)} {s z : List α} (h : replay (a ++ b) s = some z) :
    ∃ y, replay a s = some y ∧ replay b y = some z := by
  rw [replay_append] at h
  exact Option.bind_eq_some_iff.1 h

/-- **C75.**  Whatever calls, subscriptions, polls and drops happen on any number of threads, at
every moment: what a subscriber got replays without panic; if no call is running, what a live
subscriber got and has queued rebuilds the contents; and while a call is running, it rebuilds
the contents at some point between the diffs of that call, the rest of which is still to come. -/
theorem C75_vec_mirror (l : List α) (es : List (Ev (MutVec.Op α)))
    (os : List (Option (Poll (Option (VecDiff α))))) (w : World (List α) (VecDiff α))
    (h : (World.init l).runs (vecApi α) es = some (os, w)) (k : Nat) (c : Link (VecDiff α))
    (hc : w.hub.links[k]? = some c) :
    (∃ ys, replay (got k es os) [] = some ys) ∧
    (c.rxAlive = true → w.job = none → replay (got k es os ++ c.queue) [] = some w.values) ∧
    (c.rxAlive = true → ∀ j, w.job = some j →
      ∃ done left ys, j.all = done ++ left ∧ replay done j.old = some ys ∧
        replay (got k es os ++ c.queue) [] = some ys ∧ replay left ys = some w.values) := by
  have hi := inv_runs vec_ok (inv_init l) h
  have hg : c.delivered = got k es os := by
    have := runs_log h k
    simpa [Hub.log, hc] using this
  rw [← hg]
  refine ⟨?_, fun ha hj => hi.free hj k c hc ha, fun ha j hj => ?_⟩
  · cases ha : c.rxAlive with
    | false =>
      obtain ⟨s, r, hr⟩ := hi.sound k c hc ha
      obtain ⟨y, hy, -⟩ := vec_split hr
      exact ⟨y, hy⟩
    | true =>
      obtain ⟨r, hr⟩ := hi.reach hc ha
      obtain ⟨y, hy, -⟩ := vec_split hr
      exact ⟨y, hy⟩
  · obtain ⟨X, q, h1, h2, h3, h4⟩ := mid_general hi hc ha hj
    obtain ⟨y, hy1, hy2⟩ := vec_split h2
    rw [h1] at hy1
    cases hy1
    rw [h3] at hy2
    obtain ⟨z, hz1, hz2⟩ := vec_split hy2
    exact ⟨q, j.due k, z, h3, hz1, by rw [h4]; exact replay_append_some h1 hz1, hz2⟩

/-- **C75.**  A live subscriber's poll is never blocked by a running call.  It answers the end
exactly if nothing is queued, the last handle is gone and its sender has been dropped; it answers
`Pending` exactly if nothing is queued and a handle lives or its sender is still to be dropped. -/
theorem C75_vec_poll (l : List α) (es : List (Ev (MutVec.Op α)))
    (os : List (Option (Poll (Option (VecDiff α))))) (w : World (List α) (VecDiff α))
    (h : (World.init l).runs (vecApi α) es = some (os, w)) (k : Nat) (c : Link (VecDiff α))
    (hc : w.hub.links[k]? = some c) (ha : c.rxAlive = true) (cx : Waker) :
    (∃ w', w.step (vecApi α) (.poll k cx) = some (some (w.hub.pollRx k cx).1, w')) ∧
    ((w.hub.pollRx k cx).1 = .ready none ↔ c.queue = [] ∧ w.hub.handles = 0 ∧ k ∉ w.closing) ∧
    ((w.hub.pollRx k cx).1 = .pending ↔ c.queue = [] ∧ (w.hub.handles ≠ 0 ∨ k ∈ w.closing)) :=
  ⟨⟨_, by simp [World.step, Hub.rxLive, hc, ha]; rfl⟩,
    poll_iff (inv_runs vec_ok (inv_init l) h) hc ha cx⟩

/-- **C75.**  No wake-up is lost, also when the poll comes in the middle of a call: if a subscriber
was told `Pending`, then whatever happens as long as it is not polled or dropped, its waker has
been woken or a new poll would still answer `Pending`. -/
theorem C75_vec_wake (l : List α) (es es' : List (Ev (MutVec.Op α)))
    (os os' : List (Option (Poll (Option (VecDiff α))))) (w w' : World (List α) (VecDiff α))
    (k : Nat) (x : Waker) (h : (World.init l).runs (vecApi α) es = some (os, w))
    (h' : w.runs (vecApi α) (.poll k x :: es') = some (some .pending :: os', w'))
    (hp : ∀ cx, .poll k cx ∉ es') (hd : .dropRx k ∉ es') :
    ∃ new, w'.hub.woken = w.hub.woken ++ new ∧
      (x ∈ new ∨ ∀ cx, (w'.hub.pollRx k cx).1 = .pending) :=
  wake_general vec_ok h h' hp hd

/-- **C75.**  A call ends after a bounded number of its own steps, whatever subscribers do
meanwhile, and is never stuck before. -/
theorem C75_vec_ends (l : List α) (es es' : List (Ev (MutVec.Op α))) (o : MutVec.Op α)
    (os os' : List (Option (Poll (Option (VecDiff α))))) (w w' : World (List α) (VecDiff α))
    (h : (World.init l).runs (vecApi α) es = some (os, w))
    (h' : w.runs (vecApi α) (.call o :: es') = some (os', w')) (he : ∀ e ∈ es', e.Other) :
    es'.countP Ev.isTick ≤ (o.diffs w.values).length * (w.hub.links.length + 2) + 1 ∧
    (w'.job ≠ none → ∃ w'', w'.step (vecApi α) .tick = some (none, w'')) := by
  refine ends_general vec_ok h h' ?_ he
  have : (o.spec w.values).isSome := by
    cases hs : o.spec w.values with
    | some r => rfl
    | none => simp [World.runs, runE, World.step, vecApi, hs] at h'
  obtain ⟨r, hr⟩ := Option.isSome_iff_exists.1 this
  simp [vecApi, hr]

/-- **C75.**  After the last handle is dropped, the senders are dropped one by one, never stuck, and
then every live subscriber that has nothing queued is told the end. -/
theorem C75_vec_closes (l : List α) (es es' : List (Ev (MutVec.Op α)))
    (os os' : List (Option (Poll (Option (VecDiff α))))) (w w' : World (List α) (VecDiff α))
    (h : (World.init l).runs (vecApi α) es = some (os, w)) (h1 : w.hub.handles = 1)
    (h' : w.runs (vecApi α) (.dropHandle :: es') = some (os', w')) :
    es'.countP Ev.isTick ≤ w.hub.senders.length ∧
    (es'.countP Ev.isTick < w.hub.senders.length →
      ∃ w'', w'.step (vecApi α) .tick = some (none, w'')) ∧
    (es'.countP Ev.isTick = w.hub.senders.length → ∀ k c cx, w'.hub.links[k]? = some c →
      c.rxAlive = true → c.queue = [] → (w'.hub.pollRx k cx).1 = .ready none) :=
  closes_general vec_ok h h1 h'

/-- **C75.**  The steps are those of the function-by-function model: a call during which nobody else
does anything ends, with exactly the effect it has there, and it panics exactly if it does there. -/
theorem C75_vec_alone (w : MutVec.World α) (o : MutVec.Op α) (hh : w.handles ≠ 0) :
    match w.exec o with
    | some (_, w') => ∃ n os, (⟨w.values, hubOf w, none, []⟩ : World _ _).runs (vecApi α)
        (.call o :: List.replicate n .tick) = some (os, ⟨w'.values, hubOf w', none, []⟩)
    | none => (⟨w.values, hubOf w, none, []⟩ : World _ _).step (vecApi α) (.call o) = none := by
  rw [MutVec.exec_eq]
  cases hs : o.spec w.values with
  | none => simp [World.step, vecApi, hs]
  | some r =>
    simp only [Option.map_some]
    obtain ⟨n, hn⟩ := alone (api := vecApi α) (w := ⟨w.values, hubOf w, none, []⟩) (o := o)
      (ds := o.diffs w.values) (s := r.2) hh rfl (by simp [vecApi, hs])
    refine ⟨n, List.replicate (n + 1) none, ?_⟩
    rw [hn, ← hubOf_notifyAll]
    rfl

end Vec

/-! ## `MutableBTreeMap` -/

section Map

variable {K V : Type} [LinearOrder K]

theorem map_ok : (mapApi K V).Ok (fun m ds => mreplay ds noKeys = some (mapOf m.1)) where
  first m := by
    obtain ⟨l, hl⟩ := m
    cases l with
    | nil => rfl
    | cons a l =>
      simp only [mapApi, List.isEmpty_cons, Bool.false_eq_true, ↓reduceIte, mreplay_singleton,
        MapDiff.apply, hl.nodup]
  eff o m ds m' X h hX := by
    simp only [mapApi, Option.some.injEq, Prod.mk.injEq] at h
    obtain ⟨rfl, rfl⟩ := h
    rw [mreplay_append_some hX]
    exact MutMap.diffs_replay o m

theorem map_split {a b : List (MapDiff K V)} {s z : K → Option V} (h : mreplay (a ++ b) s = some z) :
    ∃ y, mreplay a s = some y ∧ mreplay b y = some z := by
  rw [mreplay_append] at h
  exact Option.bind_eq_some_iff.1 h

/-- **C75.**  As `C75_vec_mirror`, for `MutableBTreeMap`. -/
theorem C75_map_mirror (m : MutMap.BMap K V) (es : List (Ev (MutMap.Op K V)))
    (os : List (Option (Poll (Option (MapDiff K V)))))
    (w : World (MutMap.BMap K V) (MapDiff K V))
    (h : (World.init m).runs (mapApi K V) es = some (os, w)) (k : Nat) (c : Link (MapDiff K V))
    (hc : w.hub.links[k]? = some c) :
    (∃ ys, mreplay (got k es os) noKeys = some ys) ∧
    (c.rxAlive = true → w.job = none →
      mreplay (got k es os ++ c.queue) noKeys = some (mapOf w.values.1)) ∧
    (c.rxAlive = true → ∀ j, w.job = some j →
      ∃ done left ys, j.all = done ++ left ∧ mreplay done (mapOf j.old.1) = some ys ∧
        mreplay (got k es os ++ c.queue) noKeys = some ys ∧
        mreplay left ys = some (mapOf w.values.1)) := by
  have hi := inv_runs map_ok (inv_init m) h
  have hg : c.delivered = got k es os := by
    have := runs_log h k
    simpa [Hub.log, hc] using this
  rw [← hg]
  refine ⟨?_, fun ha hj => hi.free hj k c hc ha, fun ha j hj => ?_⟩
  · cases ha : c.rxAlive with
    | false =>
      obtain ⟨s, r, hr⟩ := hi.sound k c hc ha
      obtain ⟨y, hy, -⟩ := map_split hr
      exact ⟨y, hy⟩
    | true =>
      obtain ⟨r, hr⟩ := hi.reach hc ha
      obtain ⟨y, hy, -⟩ := map_split hr
      exact ⟨y, hy⟩
  · obtain ⟨X, q, h1, h2, h3, h4⟩ := mid_general hi hc ha hj
    obtain ⟨y, hy1, hy2⟩ := map_split h2
    rw [h1] at hy1
    cases hy1
    rw [h3] at hy2
    obtain ⟨z, hz1, hz2⟩ := map_split hy2
    exact ⟨q, j.due k, z, h3, hz1, by rw [h4, mreplay_append_some h1]; exact hz1, hz2⟩

/-- **C75.**  As `C75_vec_poll`, for `MutableBTreeMap`. -/
theorem C75_map_poll (m : MutMap.BMap K V) (es : List (Ev (MutMap.Op K V)))
    (os : List (Option (Poll (Option (MapDiff K V)))))
    (w : World (MutMap.BMap K V) (MapDiff K V))
    (h : (World.init m).runs (mapApi K V) es = some (os, w)) (k : Nat) (c : Link (MapDiff K V))
    (hc : w.hub.links[k]? = some c) (ha : c.rxAlive = true) (cx : Waker) :
    (∃ w', w.step (mapApi K V) (.poll k cx) = some (some (w.hub.pollRx k cx).1, w')) ∧
    ((w.hub.pollRx k cx).1 = .ready none ↔ c.queue = [] ∧ w.hub.handles = 0 ∧ k ∉ w.closing) ∧
    ((w.hub.pollRx k cx).1 = .pending ↔ c.queue = [] ∧ (w.hub.handles ≠ 0 ∨ k ∈ w.closing)) :=
  ⟨⟨_, by simp [World.step, Hub.rxLive, hc, ha]; rfl⟩,
    poll_iff (inv_runs map_ok (inv_init m) h) hc ha cx⟩

/-- **C75.**  As `C75_vec_wake`, for `MutableBTreeMap`. -/
theorem C75_map_wake (m : MutMap.BMap K V) (es es' : List (Ev (MutMap.Op K V)))
    (os os' : List (Option (Poll (Option (MapDiff K V)))))
    (w w' : World (MutMap.BMap K V) (MapDiff K V)) (k : Nat) (x : Waker)
    (h : (World.init m).runs (mapApi K V) es = some (os, w))
    (h' : w.runs (mapApi K V) (.poll k x :: es') = some (some .pending :: os', w'))
    (hp : ∀ cx, .poll k cx ∉ es') (hd : .dropRx k ∉ es') :
    ∃ new, w'.hub.woken = w.hub.woken ++ new ∧
      (x ∈ new ∨ ∀ cx, (w'.hub.pollRx k cx).1 = .pending) :=
  wake_general map_ok h h' hp hd

/-- **C75.**  As `C75_vec_ends`, for `MutableBTreeMap`. -/
theorem C75_map_ends (m : MutMap.BMap K V) (es es' : List (Ev (MutMap.Op K V))) (o : MutMap.Op K V)
    (os os' : List (Option (Poll (Option (MapDiff K V)))))
    (w w' : World (MutMap.BMap K V) (MapDiff K V))
    (h : (World.init m).runs (mapApi K V) es = some (os, w))
    (h' : w.runs (mapApi K V) (.call o :: es') = some (os', w')) (he : ∀ e ∈ es', e.Other) :
    es'.countP Ev.isTick ≤ (o.diffs w.values).length * (w.hub.links.length + 2) + 1 ∧
    (w'.job ≠ none → ∃ w'', w'.step (mapApi K V) .tick = some (none, w'')) :=
  ends_general map_ok h h' rfl he

/-- **C75.**  As `C75_vec_closes`, for `MutableBTreeMap`. -/
theorem C75_map_closes (m : MutMap.BMap K V) (es es' : List (Ev (MutMap.Op K V)))
    (os os' : List (Option (Poll (Option (MapDiff K V)))))
    (w w' : World (MutMap.BMap K V) (MapDiff K V))
    (h : (World.init m).runs (mapApi K V) es = some (os, w)) (h1 : w.hub.handles = 1)
    (h' : w.runs (mapApi K V) (.dropHandle :: es') = some (os', w')) :
    es'.countP Ev.isTick ≤ w.hub.senders.length ∧
    (es'.countP Ev.isTick < w.hub.senders.length →
      ∃ w'', w'.step (mapApi K V) .tick = some (none, w'')) ∧
    (es'.countP Ev.isTick = w.hub.senders.length → ∀ k c cx, w'.hub.links[k]? = some c →
      c.rxAlive = true → c.queue = [] → (w'.hub.pollRx k cx).1 = .ready none) :=
  closes_general map_ok h h1 h'

/-- **C75.**  As `C75_vec_alone`, for `MutableBTreeMap` (whose calls do not panic). -/
theorem C75_map_alone (w : MutMap.World K V) (o : MutMap.Op K V) (hh : w.hub.handles ≠ 0) :
    ∃ r w' n os, w.exec o = some (r, w') ∧
      (⟨w.values, w.hub, none, []⟩ : World _ _).runs (mapApi K V)
        (.call o :: List.replicate n .tick) = some (os, ⟨w'.values, w'.hub, none, []⟩) := by
  obtain ⟨n, hn⟩ := alone (api := mapApi K V) (w := ⟨w.values, w.hub, none, []⟩) (o := o)
    (ds := o.diffs w.values) (s := o.next w.values) hh rfl rfl
  exact ⟨_, _, n, _, MutMap.exec_eq w o, hn⟩

end Map

/-! ## The hypotheses can be met -/

/-- Two subscribers, one of which is polled in the middle of a `swap` (two `Move`s) and again at the
end; the other is dropped in the middle; then the last handle goes. -/
def demoVec : List (Ev (MutVec.Op Nat)) :=
  [.subscribe, .subscribe, .poll 0 7, .poll 0 7, .call (.swap 0 2), .tick, .tick, .poll 0 8,
   .poll 0 8, .dropRx 1, .tick, .tick, .tick, .tick, .poll 0 9]

example : ((World.init [1, 2, 3]).runs (vecApi Nat) demoVec).map
    (fun r => (r.1, r.2.values, r.2.hub.senders, r.2.hub.woken, r.2.job.isSome)) =
    some ([none, none, some (.ready (some (.replace [1, 2, 3]))), some .pending, none, none, none,
      some (.ready (some (.move 0 2))), some .pending, none, none, none, none, none,
      some (.ready (some (.move 1 0)))], [3, 2, 1], [0], [7, 8], true) := by rfl

/-- In the middle of the `swap`, right after the first `Move` reached subscriber 0 but not
subscriber 1. -/
example : ((World.init [1, 2, 3]).runs (vecApi Nat) (demoVec.take 9)).map
    (fun r => (r.2.values, r.2.job.map (fun j => (j.all, j.cur)), got 0 (demoVec.take 9) r.1,
      r.2.hub.links.map (·.queue))) =
    some ([3, 2, 1], some ([.move 0 2, .move 1 0], some (.move 0 2, [1], [0])),
      [.replace [1, 2, 3], .move 0 2], [[], [.replace [1, 2, 3]]]) := by rfl

/-- As in `C75_vec_closes`: subscriber 0 waits, and is polled while the senders are dropped. -/
example : ((World.init [1]).runs (vecApi Nat) [.subscribe, .subscribe, .poll 0 1, .poll 0 2,
      .dropHandle, .poll 0 3, .tick, .poll 0 4, .poll 1 5, .poll 1 6, .tick, .poll 1 7]).map
    (fun r => (r.1.drop 3, r.2.hub.woken)) =
    some ([some .pending, none, some .pending, none, some (.ready none),
      some (.ready (some (.replace [1]))), some .pending, none, some (.ready none)], [3, 6]) := by
  rfl

/-- The same for a map. -/
example : ((World.init MutMap.BMap.empty).runs (mapApi Nat Nat) [.subscribe, .subscribe, .poll 1 1,
      .call (.insert 3 30), .tick, .tick, .poll 1 2, .tick, .poll 1 3, .tick, .tick]).map
    (fun r => (r.1.drop 6, r.2.hub.woken, r.2.job.isSome, r.2.values.1)) =
    some ([some .pending, none, some (.ready (some (.insert 3 30))), none, none], [2], false,
      [(3, 30)]) := by rfl

end Verif.HubConc
