import Verif.MutableVecInv

/-!
# Non-interference between subscribers
-/

namespace Verif.MutVec

variable {α : Type}

/-- World `w` seen by subscriber `k` looks like world `v` whose only subscriber is number 0. -/
structure Sim (k n : Nat) (w v : World α) : Prop where
  invw : Inv w
  invv : Inv v
  values : v.values = w.values
  handles : v.handles = w.handles
  count : w.handles ≠ 0 → w.chans.length = n
  chan : v.chans[0]? = w.chans[k]?
  only : v.chans.length ≤ 1
  mem : 0 ∈ v.senders ↔ k ∈ w.senders

theorem get0_len {v : World α} (h : v.chans.length ≤ 1) {i : Nat} {c} (hc : v.chans[i]? = some c) :
    i = 0 := by
  have := (List.getElem?_eq_some_iff.1 hc).1
  omega

theorem rxLive_sim {k n : Nat} {w v : World α} (hs : Sim k n w v) : v.rxLive 0 = w.rxLive k := by
  simp only [World.rxLive, hs.chan]

theorem setOnly {v : World α} (h : v.chans.length ≤ 1) {c : Chan α} :
    (v.chans.set 0 c).length ≤ 1 := by simpa using h

theorem sim_poll_self {k n : Nat} {w v : World α} (hs : Sim k n w v) (cx : Waker)
    (hl : w.rxLive k = true) :
    (v.pollRx 0 cx).1 = (w.pollRx k cx).1 ∧ Sim k n (w.pollRx k cx).2 (v.pollRx 0 cx).2 := by
  have hl' : v.rxLive 0 = true := by rw [rxLive_sim hs]; exact hl
  have i1 := inv_poll hs.invw k cx hl
  have i2 := inv_poll hs.invv 0 cx hl'
  have hch := hs.chan
  cases hc : w.chans[k]? with
  | none => simp [World.rxLive, hc] at hl
  | some c =>
    rw [hc] at hch
    have hk := (List.getElem?_eq_some_iff.1 hc).1
    have h0 := (List.getElem?_eq_some_iff.1 hch).1
    have e : ∀ (u : World α) (j : Nat), u.chans[j]? = some c → j < u.chans.length →
        ∃ c', (u.pollRx j cx).2.chans[j]? = some c' ∧ c' = (match c.queue with
          | d :: ds => { c with queue := ds, delivered := c.delivered ++ [d] }
          | [] => if c.txAlive then { c with waker := some cx } else c) ∧
        (u.pollRx j cx).1 = (match c.queue with
          | d :: _ => .ready (some d)
          | [] => if c.txAlive then .pending else .ready none) ∧
        (u.pollRx j cx).2.values = u.values ∧ (u.pollRx j cx).2.handles = u.handles ∧
        (u.pollRx j cx).2.senders = u.senders ∧
        (u.pollRx j cx).2.chans.length = u.chans.length := by
      intro u j hu hj
      unfold World.pollRx
      simp only [hu]
      cases c.queue with
      | cons d ds => exact ⟨_, by simp [hj], rfl, rfl, rfl, rfl, rfl, by simp⟩
      | nil =>
        by_cases ht : c.txAlive = true
        · simp only [ht, ↓reduceIte]
          exact ⟨_, by simp [hj], rfl, by simp⟩
        · simp only [ht]
          exact ⟨_, hu, by simp⟩
    obtain ⟨c1, a1, a2, a3, a4, a5, a6, a7⟩ := e w k hc hk
    obtain ⟨c2, b1, b2, b3, b4, b5, b6, b7⟩ := e v 0 hch h0
    refine ⟨by rw [a3, b3], i1, i2, by rw [a4, b4]; exact hs.values, by rw [a5, b5]; exact hs.handles,
      by rw [a5, a7]; exact hs.count, by rw [a1, b1, a2, b2], by rw [b7]; exact hs.only,
      by rw [a6, b6]; exact hs.mem⟩

theorem pollRx_other (w : World α) (i k : Nat) (cx : Waker) (h : i ≠ k) :
    (w.pollRx i cx).2.chans[k]? = w.chans[k]? ∧ (w.pollRx i cx).2.values = w.values ∧
    (w.pollRx i cx).2.handles = w.handles ∧
    (w.pollRx i cx).2.chans.length = w.chans.length ∧
    (w.pollRx i cx).2.senders = w.senders := by
  unfold World.pollRx
  split
  · simp
  · split
    · simp [List.getElem?_set_ne h]
    · split
      · simp [List.getElem?_set_ne h]
      · simp

theorem dropRx_spec (w : World α) (i k : Nat) :
    (w.dropRx i).chans[k]? = w.chans[k]?.map (fun c =>
      if i = k then { c with rxAlive := false, queue := [], waker := none } else c) ∧
    (w.dropRx i).values = w.values ∧
    (w.dropRx i).handles = w.handles ∧ (w.dropRx i).chans.length = w.chans.length ∧
    (w.dropRx i).senders = w.senders := by
  unfold World.dropRx
  split
  · rename_i h
    by_cases hik : i = k
    · subst hik; simp [h]
    · simp [hik]
  · rename_i c h
    by_cases hik : i = k
    · subst hik
      have := (List.getElem?_eq_some_iff.1 h).1
      rw [h]; simp [this]
    · simp [hik]

theorem dropHandle_spec {w : World α} (hh : w.handles ≠ 0) :
    w.dropHandle.values = w.values ∧ w.dropHandle.handles = w.handles - 1 ∧
    w.dropHandle.chans.length = w.chans.length ∧
    (∀ k : Nat, w.dropHandle.chans[k]? =
      w.chans[k]?.map fun c => if w.handles = 1 ∧ k ∈ w.senders then closed c else c) ∧
    (∀ k : Nat, k ∈ w.dropHandle.senders ↔ w.handles ≠ 1 ∧ k ∈ w.senders) := by
  unfold World.dropHandle
  simp only
  obtain ⟨h1, h2, h3, h4, -⟩ := dropSenders_spec w.senders { w with handles := w.handles - 1 }
  split
  · rename_i h0
    have : w.handles = 1 := by omega
    refine ⟨h2, h3, h4, fun k => ?_, fun k => by simp [this]⟩
    simp only [h1, true_and]
    simp [this]
  · rename_i h0
    have : w.handles ≠ 1 := by omega
    refine ⟨rfl, rfl, rfl, fun k => ?_, fun k => by simp [this]⟩
    simp [this]

theorem mem_notifyAll {w : World α} (hw : WF w) (hh : w.handles ≠ 0) (ds : List (VecDiff α))
    (k : Nat) : k ∈ (notifyAll w ds).senders ↔
      k ∈ w.senders ∧ (ds = [] ∨ w.rxLive k = true) := by
  induction ds generalizing w with
  | nil => simp
  | cons d ds ih =>
    obtain ⟨h1, h2, h3, -, h5, -⟩ := wf_notify hw hh d
    rw [notifyAll_cons, ih h1 (by rw [h3]; exact hh), h5, List.mem_filter]
    have : (w.notify d).rxLive k = w.rxLive k := by
      unfold World.rxLive
      rw [h2]
      cases w.chans[k]? <;> simp [pushAll_rxAlive]
    rw [this]
    by_cases hl : w.rxLive k = true <;> simp [hl]

theorem sim_exec {k n : Nat} {w v w' : World α} (hs : Sim k n w v) (hh : w.handles ≠ 0)
    {o : Op α} {r : Ret α} (h : w.exec o = some (r, w')) :
    ∃ v', v.exec o = some (r, v') ∧ Sim k n w' v' := by
  have hh' : v.handles ≠ 0 := by rw [hs.handles]; exact hh
  have iw := inv_exec hs.invw hh h
  rw [exec_eq] at h
  cases hsp : o.spec w.values with
  | none => simp [hsp] at h
  | some sp =>
    simp only [hsp, Option.map_some, Option.some.injEq, Prod.mk.injEq] at h
    obtain ⟨hr, hw'⟩ := h
    have hv : v.exec o = some (r, { notifyAll v (o.diffs v.values) with values := sp.2 }) := by
      rw [exec_eq, hs.values, hsp]; simp [hr]
    have iv := inv_exec hs.invv hh' hv
    refine ⟨_, hv, ?_⟩
    subst hw'
    obtain ⟨-, a2, a3, a4⟩ := wf_notifyAll hs.invw.toWF hh (o.diffs w.values)
    obtain ⟨-, b2, b3, b4⟩ := wf_notifyAll hs.invv.toWF hh' (o.diffs v.values)
    refine ⟨iw, iv, rfl, ?_, ?_, ?_, ?_, ?_⟩
    · simp only [a3, b3]; exact hs.handles
    · simp only [a3, a4]; exact hs.count
    · have := b2 0
      rw [hs.chan, hs.values] at this
      simp only [a2, hs.values, this]
    · simp only [b4]; exact hs.only
    · simp only
      rw [mem_notifyAll hs.invv.toWF hh', mem_notifyAll hs.invw.toWF hh, hs.mem, rxLive_sim hs,
        hs.values]

theorem sim_runs {k n : Nat} {w v w' : World α} (hs : Sim k n w v) {es : List (Ev α)}
    (h : w.runs es = some w') :
    ∃ v' m, v.runs (onlyOne k n es) = some v' ∧ Sim k m w' v' ∧
      received 0 v (onlyOne k n es) = received k w es := by
  induction es generalizing n w v with
  | nil => cases h; exact ⟨v, n, rfl, hs, rfl⟩
  | cons e es ih =>
    simp only [World.runs] at h
    cases hstep : w.step e with
    | none => simp [hstep] at h
    | some w1 =>
      simp only [hstep] at h
      -- events that are kept by the projection
      have keep : ∀ (e' : Ev α) (v1 : World α) (n' : Nat),
          v.step e' = some v1 → Sim k n' w1 v1 →
          onlyOne k n (e :: es) = e' :: onlyOne k n' es →
          received 0 v [e'] = received k w [e] →
          ∃ v' m, v.runs (onlyOne k n (e :: es)) = some v' ∧ Sim k m w' v' ∧
            received 0 v (onlyOne k n (e :: es)) = received k w (e :: es) := by
        intro e' v1 n' hv1 hs1 ho hrec
        obtain ⟨v', m, g1, g2, g3⟩ := ih hs1 h
        refine ⟨v', m, by rw [ho]; simp [World.runs, hv1, g1], g2, ?_⟩
        rw [ho]
        simp only [received, hstep, hv1, List.append_nil] at hrec ⊢
        rw [g3, hrec]
      -- events that are dropped by the projection
      have skip : ∀ (n' : Nat), Sim k n' w1 v → onlyOne k n (e :: es) = onlyOne k n' es →
          received k w [e] = [] →
          ∃ v' m, v.runs (onlyOne k n (e :: es)) = some v' ∧ Sim k m w' v' ∧
            received 0 v (onlyOne k n (e :: es)) = received k w (e :: es) := by
        intro n' hs1 ho hrec
        obtain ⟨v', m, g1, g2, g3⟩ := ih hs1 h
        refine ⟨v', m, by rw [ho]; exact g1, g2, ?_⟩
        rw [ho, g3]
        simp only [received, hstep, List.append_nil] at hrec ⊢
        rw [hrec]; rfl
      cases e with
      | op o =>
        simp only [World.step] at hstep
        by_cases hh : w.handles = 0
        · simp only [hh, ↓reduceIte, Option.some.injEq] at hstep; subst hstep
          exact keep (.op o) v n (by simp [World.step, hs.handles, hh]) hs rfl
            (by simp [received, World.step, hs.handles, hh])
        · simp only [hh, ↓reduceIte] at hstep
          cases hx : w.exec o with
          | none => simp [hx] at hstep
          | some r =>
            simp [hx] at hstep; subst hstep
            obtain ⟨v1, hv1, hs1⟩ := sim_exec hs hh (r := r.1) (o := o) (by rw [hx])
            exact keep (.op o) v1 n (by simp [World.step, hs.handles, hh, hv1]) hs1 rfl
              (by simp [received, World.step, hs.handles, hh, hv1, hx])
      | subscribe =>
        simp only [World.step] at hstep
        by_cases hh : w.handles = 0
        · simp only [hh, ↓reduceIte, Option.some.injEq] at hstep; subst hstep
          have hs' : Sim k (n+1) w v := { hs with count := fun h => absurd hh h }
          by_cases hn : n = k
          · exact keep .subscribe v (n+1) (by simp [World.step, hs.handles, hh]) hs'
              (by simp [onlyOne, hn]) (by simp [received, World.step, hs.handles, hh])
          · exact skip (n+1) hs' (by simp [onlyOne, hn]) (by simp [received, World.step, hh])
        · simp only [hh, ↓reduceIte, Option.some.injEq] at hstep; subst hstep
          have hh' : v.handles ≠ 0 := by rw [hs.handles]; exact hh
          have hcount := hs.count hh
          have iw := inv_subscribe hs.invw hh
          by_cases hn : n = k
          · have hvlen : v.chans = [] := by
              have hch := hs.chan
              rw [List.getElem?_eq_none (l := w.chans) (by omega)] at hch
              cases hv : v.chans with
              | nil => rfl
              | cons a l => simp [hv] at hch
            have iv := inv_subscribe hs.invv hh'
            refine keep .subscribe v.signalVec (n+1) (by simp [World.step, hh']) ?_
              (by simp [onlyOne, hn]) (by simp [received, World.step, hh, hh'])
            refine ⟨iw, iv, hs.values, hs.handles, ?_, ?_, ?_, ?_⟩
            · intro _; simp [World.signalVec, hcount]
            · rw [← hn, ← hcount]
              simp [World.signalVec, hvlen, hs.values]
            · simp [World.signalVec, hvlen]
            · simp [World.signalVec, hvlen, hcount, hn]
          · refine skip (n+1) ?_ (by simp [onlyOne, hn]) (by simp [received, World.step, hh])
            refine ⟨iw, hs.invv, hs.values, hs.handles, ?_, ?_, hs.only, ?_⟩
            · intro _; simp [World.signalVec, hcount]
            · rw [hs.chan]
              simp only [World.signalVec]
              rcases Nat.lt_or_ge k w.chans.length with hk | hk
              · rw [List.getElem?_append_left hk]
              · rw [List.getElem?_eq_none hk, List.getElem?_eq_none]
                simp; omega
            · rw [hs.mem]
              simp [World.signalVec]
              omega
      | poll id cx =>
        simp only [World.step] at hstep
        by_cases hid : id = k
        · subst hid
          by_cases hl : w.rxLive id = true
          · simp only [hl, ↓reduceIte, Option.some.injEq] at hstep; subst hstep
            obtain ⟨g1, g2⟩ := sim_poll_self hs cx hl
            have hl' : v.rxLive 0 = true := by rw [rxLive_sim hs]; exact hl
            exact keep (.poll 0 cx) _ n (by simp [World.step, hl']) g2 (by simp [onlyOne])
              (by simp [received, World.step, hl, hl', g1])
          · simp only [hl] at hstep
            cases hstep
            have hl' : ¬ v.rxLive 0 = true := by rw [rxLive_sim hs]; exact hl
            exact keep (.poll 0 cx) v n (by simp [World.step, hl']) hs (by simp [onlyOne])
              (by simp [received, World.step, hl, hl'])
        · have hrec : received k w [.poll id cx] = [] := by
            simp only [received, hid, false_and, ↓reduceIte]
            split <;> simp
          by_cases hl : w.rxLive id = true
          · simp only [hl, ↓reduceIte, Option.some.injEq] at hstep; subst hstep
            obtain ⟨e1, e2, e3, e4, e5⟩ := pollRx_other w id k cx hid
            refine skip n ?_ (by simp [onlyOne, hid]) hrec
            exact ⟨inv_poll hs.invw id cx hl, hs.invv, by rw [e2]; exact hs.values,
              by rw [e3]; exact hs.handles, by rw [e3, e4]; exact hs.count,
              by rw [e1]; exact hs.chan, hs.only, by rw [e5]; exact hs.mem⟩
          · simp only [hl] at hstep
            cases hstep
            exact skip n hs (by simp [onlyOne, hid]) hrec
      | dropRx id =>
        simp only [World.step] at hstep
        have hrec : received k w [.dropRx id] = [] := by
          simp only [received]
          split <;> simp
        obtain ⟨e1, e2, e3, e4, e5⟩ := dropRx_spec w id k
        by_cases hid : id = k
        · subst hid
          by_cases hl : w.rxLive id = true
          · simp only [hl, ↓reduceIte, Option.some.injEq] at hstep; subst hstep
            have hl' : v.rxLive 0 = true := by rw [rxLive_sim hs]; exact hl
            obtain ⟨f1, f2, f3, f4, f5⟩ := dropRx_spec v 0 0
            refine keep (.dropRx 0) (v.dropRx 0) n (by simp [World.step, hl']) ?_
              (by simp [onlyOne]) (by rw [hrec]; simp [received, World.step, hl'])
            exact ⟨inv_dropRx hs.invw id, inv_dropRx hs.invv 0, by rw [e2, f2]; exact hs.values,
              by rw [e3, f3]; exact hs.handles, by rw [e3, e4]; exact hs.count,
              by rw [e1, f1, hs.chan]; simp, by rw [f4]; exact hs.only,
              by rw [e5, f5]; exact hs.mem⟩
          · simp only [hl] at hstep
            cases hstep
            have hl' : ¬ v.rxLive 0 = true := by rw [rxLive_sim hs]; exact hl
            exact keep (.dropRx 0) v n (by simp [World.step, hl']) hs (by simp [onlyOne])
              (by rw [hrec]; simp [received, World.step, hl'])
        · by_cases hl : w.rxLive id = true
          · simp only [hl, ↓reduceIte, Option.some.injEq] at hstep; subst hstep
            refine skip n ?_ (by simp [onlyOne, hid]) hrec
            exact ⟨inv_dropRx hs.invw id, hs.invv, by rw [e2]; exact hs.values,
              by rw [e3]; exact hs.handles, by rw [e3, e4]; exact hs.count,
              by rw [e1, hs.chan]; simp [hid], hs.only, by rw [e5]; exact hs.mem⟩
          · simp only [hl] at hstep
            cases hstep
            exact skip n hs (by simp [onlyOne, hid]) hrec
      | cloneHandle =>
        have iw := inv_step hs.invw hstep
        simp only [World.step] at hstep
        by_cases hh : w.handles = 0
        · simp only [hh, ↓reduceIte, Option.some.injEq] at hstep; subst hstep
          exact keep .cloneHandle v n (by simp [World.step, hs.handles, hh]) hs rfl
            (by simp [received, World.step, hs.handles, hh])
        · have hh' : v.handles ≠ 0 := by rw [hs.handles]; exact hh
          simp only [hh, ↓reduceIte, Option.some.injEq] at hstep; subst hstep
          have hv : v.step .cloneHandle = some { v with handles := v.handles + 1 } := by
            simp [World.step, hh']
          have iv := inv_step hs.invv hv
          refine keep .cloneHandle _ n hv ?_ rfl
            (by simp [received, World.step, hh', hh])
          exact ⟨iw, iv, hs.values, by simp [hs.handles], fun _ => hs.count hh, hs.chan, hs.only,
            hs.mem⟩
      | dropHandle =>
        have iw := inv_step hs.invw hstep
        simp only [World.step] at hstep
        by_cases hh : w.handles = 0
        · simp only [hh, ↓reduceIte, Option.some.injEq] at hstep; subst hstep
          exact keep .dropHandle v n (by simp [World.step, hs.handles, hh]) hs rfl
            (by simp [received, World.step, hs.handles, hh])
        · have hh' : v.handles ≠ 0 := by rw [hs.handles]; exact hh
          simp only [hh, ↓reduceIte, Option.some.injEq] at hstep; subst hstep
          have hv : v.step .dropHandle = some v.dropHandle := by simp [World.step, hh']
          have iv := inv_step hs.invv hv
          obtain ⟨e1, e2, e3, e4, e5⟩ := dropHandle_spec hh
          obtain ⟨f1, f2, f3, f4, f5⟩ := dropHandle_spec hh'
          refine keep .dropHandle _ n hv ?_ rfl
            (by simp [received, World.step, hh', hh])
          refine ⟨iw, iv, by rw [e1, f1]; exact hs.values, by rw [e2, f2, hs.handles],
            fun _ => by rw [e3]; exact hs.count hh, ?_, by rw [f3]; exact hs.only, ?_⟩
          · rw [e4, f4, hs.chan, hs.handles]
            congr 1
            funext c
            simp only [hs.mem]
          · rw [e5, f5, hs.mem, hs.handles]

theorem sim_init (k : Nat) (vs : List α) : Sim k 0 (World.init vs) (World.init vs) where
  invw := inv_init vs
  invv := inv_init vs
  values := rfl
  handles := rfl
  count := fun _ => rfl
  chan := by simp [World.init]
  only := by simp [World.init]
  mem := by simp [World.init]

end Verif.MutVec
