import Verif.MutableBTreeMapProofs
import Verif.HubConcSolo

/-!
# Non-interference between subscribers of a `MutableBTreeMap`
-/

namespace Verif.MutMap

open HubConc (sel sel_self sel_ne sel_append send_other send_same dropTx_other dropTx_same
  dropRx_other dropRx_same pollRx_other pollRx_same)

variable {K V D : Type} [LinearOrder K]

/-- A history as seen if subscriber `k` were the only one: the operations on the
`MutableBTreeMap`, and `k`'s own subscription, polls and drop (now numbered 0).  `n` counts the
subscriptions so far. -/
def onlyOne (k : Nat) : Nat → List (Ev K V) → List (Ev K V)
  | _, [] => []
  | n, .subscribe :: es =>
    if n = k then .subscribe :: onlyOne k (n + 1) es else onlyOne k (n + 1) es
  | n, .poll id cx :: es => if id = k then .poll 0 cx :: onlyOne k n es else onlyOne k n es
  | n, .dropRx id :: es => if id = k then .dropRx 0 :: onlyOne k n es else onlyOne k n es
  | n, .op o :: es => .op o :: onlyOne k n es
  | n, .cloneHandle :: es => .cloneHandle :: onlyOne k n es
  | n, .dropHandle :: es => .dropHandle :: onlyOne k n es

/-- Hub `h` seen by subscriber `k` looks like hub `g` whose only subscriber is number 0. -/
structure HSim (k : Nat) (h g : Hub D) : Prop where
  handles : g.handles = h.handles
  senders : g.senders = sel k h.senders
  link : g.links[0]? = h.links[k]?
  only : g.links.length ≤ 1

theorem hubRetain_sim {k : Nat} (d : D) (ss : List Nat) {h g : Hub D} (hs : HSim k h g) :
    (hubRetain d (sel k ss) g).1 = sel k (hubRetain d ss h).1 ∧
    HSim k (hubRetain d ss h).2 (hubRetain d (sel k ss) g).2 ∧
    (hubRetain d ss h).2.links.length = h.links.length := by
  induction ss generalizing h g with
  | nil => exact ⟨rfl, hs, rfl⟩
  | cons s ss ih =>
    by_cases hk : s = k
    · subst hk
      obtain ⟨a0, a1, a2, a3, a4⟩ := send_same hs.link d
      obtain ⟨-, -, b2, b3, b4⟩ := send_same (h := g) (k := 0) (g := g) rfl d
      have hs' : HSim s (h.send s d).2 (g.send 0 d).2 :=
        ⟨by rw [b3, a3]; exact hs.handles, by rw [b4, a4]; exact hs.senders, a1,
          by rw [b2]; exact hs.only⟩
      obtain ⟨i1, i2, i3⟩ := ih hs'
      rw [sel_self]
      simp only [hubRetain, a0]
      refine ⟨?_, i2, i3.trans a2⟩
      split
      · rw [sel_self, i1]
      · exact i1
    · obtain ⟨a1, a2, a3, a4⟩ := send_other h hk d
      have hs' : HSim k (h.send s d).2 g :=
        ⟨by rw [a3]; exact hs.handles, by rw [a4]; exact hs.senders, by rw [a1]; exact hs.link,
          hs.only⟩
      obtain ⟨i1, i2, i3⟩ := ih hs'
      rw [sel_ne hk]
      simp only [hubRetain]
      refine ⟨?_, i2, i3.trans a2⟩
      split
      · rw [sel_ne hk, i1]
      · exact i1

theorem notify_sim {k : Nat} (d : D) {h g : Hub D} (hs : HSim k h g) :
    HSim k (h.notify d) (g.notify d) ∧ (h.notify d).links.length = h.links.length := by
  obtain ⟨i1, i2, i3⟩ := hubRetain_sim d h.senders hs
  unfold Hub.notify
  rw [hs.senders]
  exact ⟨⟨i2.handles, i1, i2.link, i2.only⟩, i3⟩

theorem notifies_sim {k : Nat} (ds : List D) {h g : Hub D} (hs : HSim k h g) :
    HSim k (ds.foldl Hub.notify h) (ds.foldl Hub.notify g) ∧
    (ds.foldl Hub.notify h).links.length = h.links.length := by
  induction ds generalizing h g with
  | nil => exact ⟨hs, rfl⟩
  | cons d ds ih =>
    obtain ⟨h1, h2⟩ := notify_sim d hs
    obtain ⟨h3, h4⟩ := ih h1
    exact ⟨h3, h4.trans h2⟩

theorem dropSenders_sim {k : Nat} (ss : List Nat) {h g : Hub D} (hs : HSim k h g) :
    HSim k (hubDropSenders ss h) (hubDropSenders (sel k ss) g) ∧
    (hubDropSenders ss h).links.length = h.links.length := by
  induction ss generalizing h g with
  | nil => exact ⟨hs, rfl⟩
  | cons s ss ih =>
    by_cases hk : s = k
    · subst hk
      obtain ⟨a1, a2, a3, a4⟩ := dropTx_same hs.link
      obtain ⟨-, b2, b3, b4⟩ := dropTx_same (h := g) (k := 0) (g := g) rfl
      have hs' : HSim s (h.dropTx s) (g.dropTx 0) :=
        ⟨by rw [b3, a3]; exact hs.handles, by rw [b4, a4]; exact hs.senders, a1,
          by rw [b2]; exact hs.only⟩
      obtain ⟨i1, i2⟩ := ih hs'
      rw [sel_self]
      exact ⟨i1, i2.trans a2⟩
    · obtain ⟨a1, a2, a3, a4⟩ := dropTx_other h hk
      have hs' : HSim k (h.dropTx s) g :=
        ⟨by rw [a3]; exact hs.handles, by rw [a4]; exact hs.senders, by rw [a1]; exact hs.link,
          hs.only⟩
      obtain ⟨i1, i2⟩ := ih hs'
      rw [sel_ne hk]
      exact ⟨i1, i2.trans a2⟩

theorem dropHandle_sim {k : Nat} {h g : Hub D} (hs : HSim k h g) :
    HSim k h.dropHandle g.dropHandle ∧ h.dropHandle.links.length = h.links.length := by
  have hs' : HSim k { h with handles := h.handles - 1 } { g with handles := g.handles - 1 } :=
    ⟨by simp only [hs.handles], hs.senders, hs.link, hs.only⟩
  unfold Hub.dropHandle
  simp only [hs.handles]
  split
  · have := dropSenders_sim h.senders hs'
    rw [← hs.senders] at this
    simp only [hs.handles] at this
    exact ⟨⟨this.1.handles, rfl, this.1.link, this.1.only⟩, this.2⟩
  · simp only [hs.handles] at hs'
    exact ⟨hs', rfl⟩

/-- World `w` seen by subscriber `k` looks like world `v` whose only subscriber is number 0. -/
structure Sim (k n : Nat) (w v : World K V) : Prop where
  values : v.values = w.values
  hub : HSim k w.hub v.hub
  count : w.hub.handles ≠ 0 → w.hub.links.length = n

theorem rxLive_sim {k : Nat} {h g : Hub D} (hs : HSim k h g) : g.rxLive 0 = h.rxLive k := by
  simp only [Hub.rxLive, hs.link]

theorem sim_runs {k n : Nat} {w v w' : World K V} (hs : Sim k n w v) {es : List (Ev K V)}
    (h : w.runs es = some w') :
    ∃ v' m, v.runs (onlyOne k n es) = some v' ∧ Sim k m w' v' ∧
      received 0 v (onlyOne k n es) = received k w es := by
  induction es generalizing n w v with
  | nil => cases h; exact ⟨v, n, rfl, hs, rfl⟩
  | cons e es ih =>
    simp only [World.runs] at h
    cases hstep : w.step e with
    | none => simp [hstep] at h
    | some w1 =>
      simp only [hstep] at h
      have keep : ∀ (e' : Ev K V) (v1 : World K V) (n' : Nat),
          v.step e' = some v1 → Sim k n' w1 v1 →
          onlyOne k n (e :: es) = e' :: onlyOne k n' es →
          received 0 v [e'] = received k w [e] →
          ∃ v' m, v.runs (onlyOne k n (e :: es)) = some v' ∧ Sim k m w' v' ∧
            received 0 v (onlyOne k n (e :: es)) = received k w (e :: es) := by
        intro e' v1 n' hv1 hs1 ho hrec
        obtain ⟨v', m, g1, g2, g3⟩ := ih hs1 h
        refine ⟨v', m, by rw [ho]; simp [World.runs, hv1, g1], g2, ?_⟩
        rw [ho]
        simp only [received, hstep, hv1, List.append_nil] at hrec ⊢
        rw [g3, hrec]
      have skip : ∀ (n' : Nat), Sim k n' w1 v → onlyOne k n (e :: es) = onlyOne k n' es →
          received k w [e] = [] →
          ∃ v' m, v.runs (onlyOne k n (e :: es)) = some v' ∧ Sim k m w' v' ∧
            received 0 v (onlyOne k n (e :: es)) = received k w (e :: es) := by
        intro n' hs1 ho hrec
        obtain ⟨v', m, g1, g2, g3⟩ := ih hs1 h
        refine ⟨v', m, by rw [ho]; exact g1, g2, ?_⟩
        rw [ho, g3]
        simp only [received, hstep, List.append_nil] at hrec ⊢
        rw [hrec]; rfl
      have hha := hs.hub.handles
      cases e with
      | op o =>
        simp only [World.step] at hstep
        by_cases hh : w.hub.handles = 0
        · simp only [hh, ↓reduceIte, Option.some.injEq] at hstep; subst hstep
          exact keep (.op o) v n (by simp [World.step, hha, hh]) hs rfl
            (by simp [received, World.step, hha, hh])
        · simp only [hh, ↓reduceIte, exec_eq, Option.map_some, Option.some.injEq] at hstep
          subst hstep
          obtain ⟨a1, a2⟩ := notifies_sim (o.diffs w.values) hs.hub
          refine keep (.op o) ⟨o.next v.values, (o.diffs v.values).foldl Hub.notify v.hub⟩ n
            (by simp [World.step, hha, hh, exec_eq]) ⟨by simp only [hs.values], ?_, ?_⟩ rfl
            (by simp [received, World.step, hha, hh, exec_eq])
          · rw [hs.values]; exact a1
          · intro _; exact a2.trans (hs.count hh)
      | subscribe =>
        simp only [World.step] at hstep
        by_cases hh : w.hub.handles = 0
        · simp only [hh, ↓reduceIte, Option.some.injEq] at hstep; subst hstep
          have hs' : Sim k (n+1) w v := { hs with count := fun h => absurd hh h }
          by_cases hn : n = k
          · exact keep .subscribe v (n+1) (by simp [World.step, hha, hh]) hs'
              (by simp [onlyOne, hn]) (by simp [received, World.step, hha, hh])
          · exact skip (n+1) hs' (by simp [onlyOne, hn]) (by simp [received, World.step, hh])
        · simp only [hh, ↓reduceIte, Option.some.injEq] at hstep; subst hstep
          have hcount := hs.count hh
          by_cases hn : n = k
          · have hvlen : v.hub.links = [] := by
              have hch := hs.hub.link
              rw [List.getElem?_eq_none (l := w.hub.links) (by omega)] at hch
              cases hv : v.hub.links with
              | nil => rfl
              | cons a l => simp [hv] at hch
            refine keep .subscribe v.signalMap (n+1) (by simp [World.step, hha, hh]) ?_
              (by simp [onlyOne, hn]) (by simp [received, World.step, hh, hha])
            refine ⟨hs.values, ⟨hs.hub.handles, ?_, ?_, ?_⟩, ?_⟩
            · simp only [World.signalMap, Hub.subscribe, sel_append, hvlen, hcount, hn, sel_self,
                hs.hub.senders]
              rfl
            · rw [← hn, ← hcount]
              simp [World.signalMap, Hub.subscribe, hvlen, hs.values]
            · simp [World.signalMap, Hub.subscribe, hvlen]
            · intro _; simp [World.signalMap, Hub.subscribe, hcount]
          · refine skip (n+1) ?_ (by simp [onlyOne, hn]) (by simp [received, World.step, hh])
            refine ⟨hs.values, ⟨hs.hub.handles, ?_, ?_, hs.hub.only⟩, ?_⟩
            · simp only [World.signalMap, Hub.subscribe, sel_append, hcount, sel_ne hn,
                hs.hub.senders]
              simp [sel]
            · rw [hs.hub.link]
              simp only [World.signalMap, Hub.subscribe]
              rcases Nat.lt_or_ge k w.hub.links.length with hk | hk
              · rw [List.getElem?_append_left hk]
              · rw [List.getElem?_eq_none hk, List.getElem?_eq_none]
                simp; omega
            · intro _; simp [World.signalMap, Hub.subscribe, hcount]
      | poll id cx =>
        simp only [World.step] at hstep
        by_cases hid : id = k
        · subst hid
          have hlv := rxLive_sim hs.hub
          by_cases hl : w.hub.rxLive id = true
          · simp only [hl, ↓reduceIte, Option.some.injEq] at hstep; subst hstep
            obtain ⟨a0, a1, a2, a3, a4⟩ := pollRx_same hs.hub.link cx
            obtain ⟨-, -, b2, b3, b4⟩ := pollRx_same (h := v.hub) (k := 0) (g := v.hub) rfl cx
            refine keep (.poll 0 cx) { v with hub := (v.hub.pollRx 0 cx).2 } n
              (by simp [World.step, hlv, hl])
              ⟨hs.values, ⟨?_, ?_, a1, ?_⟩, ?_⟩ (by simp [onlyOne])
              (by simp [received, World.step, hl, hlv, a0])
            · simp only [b3, a3]; exact hha
            · simp only [b4, a4]; exact hs.hub.senders
            · simp only [b2]; exact hs.hub.only
            · simp only [a3, a2]; exact hs.count
          · simp only [hl] at hstep
            cases hstep
            exact keep (.poll 0 cx) v n (by simp [World.step, hlv, hl]) hs (by simp [onlyOne])
              (by simp [received, World.step, hlv, hl])
        · have hrec : received k w [.poll id cx] = [] := by
            simp only [received, hid, false_and, ↓reduceIte]
            split <;> simp
          by_cases hl : w.hub.rxLive id = true
          · simp only [hl, ↓reduceIte, Option.some.injEq] at hstep; subst hstep
            obtain ⟨e1, e2, e3, e4⟩ := pollRx_other w.hub hid cx
            refine skip n ⟨hs.values, ⟨?_, ?_, ?_, hs.hub.only⟩, ?_⟩ (by simp [onlyOne, hid]) hrec
            · simp only [e3]; exact hha
            · simp only [e4]; exact hs.hub.senders
            · simp only [e1]; exact hs.hub.link
            · simp only [e3, e2]; exact hs.count
          · simp only [hl] at hstep
            cases hstep
            exact skip n hs (by simp [onlyOne, hid]) hrec
      | dropRx id =>
        simp only [World.step] at hstep
        have hrec : received k w [.dropRx id] = [] := by
          simp only [received]
          split <;> simp
        by_cases hid : id = k
        · subst hid
          have hlv := rxLive_sim hs.hub
          by_cases hl : w.hub.rxLive id = true
          · simp only [hl, ↓reduceIte, Option.some.injEq] at hstep; subst hstep
            obtain ⟨a1, a2, a3, a4⟩ := dropRx_same hs.hub.link
            obtain ⟨-, b2, b3, b4⟩ := dropRx_same (h := v.hub) (k := 0) (g := v.hub) rfl
            refine keep (.dropRx 0) { v with hub := v.hub.dropRx 0 } n
              (by simp [World.step, hlv, hl])
              ⟨hs.values, ⟨?_, ?_, a1, ?_⟩, ?_⟩ (by simp [onlyOne])
              (by rw [hrec]; simp [received, World.step, hl, hlv])
            · simp only [b3, a3]; exact hha
            · simp only [b4, a4]; exact hs.hub.senders
            · simp only [b2]; exact hs.hub.only
            · simp only [a3, a2]; exact hs.count
          · simp only [hl] at hstep
            cases hstep
            exact keep (.dropRx 0) v n (by simp [World.step, hlv, hl]) hs (by simp [onlyOne])
              (by rw [hrec]; simp [received, World.step, hlv, hl])
        · by_cases hl : w.hub.rxLive id = true
          · simp only [hl, ↓reduceIte, Option.some.injEq] at hstep; subst hstep
            obtain ⟨e1, e2, e3, e4⟩ := dropRx_other w.hub hid
            refine skip n ⟨hs.values, ⟨?_, ?_, ?_, hs.hub.only⟩, ?_⟩ (by simp [onlyOne, hid]) hrec
            · simp only [e3]; exact hha
            · simp only [e4]; exact hs.hub.senders
            · simp only [e1]; exact hs.hub.link
            · simp only [e3, e2]; exact hs.count
          · simp only [hl] at hstep
            cases hstep
            exact skip n hs (by simp [onlyOne, hid]) hrec
      | cloneHandle =>
        simp only [World.step] at hstep
        by_cases hh : w.hub.handles = 0
        · simp only [hh, ↓reduceIte, Option.some.injEq] at hstep; subst hstep
          exact keep .cloneHandle v n (by simp [World.step, hha, hh]) hs rfl
            (by simp [received, World.step, hha, hh])
        · simp only [hh, ↓reduceIte, Option.some.injEq] at hstep; subst hstep
          exact keep .cloneHandle { v with hub := { v.hub with handles := v.hub.handles + 1 } } n
            (by simp [World.step, hha, hh])
            ⟨hs.values, ⟨by simp only [hha], hs.hub.senders, hs.hub.link, hs.hub.only⟩,
              fun _ => hs.count hh⟩ rfl
            (by simp [received, World.step, hha, hh])
      | dropHandle =>
        simp only [World.step] at hstep
        by_cases hh : w.hub.handles = 0
        · simp only [hh, ↓reduceIte, Option.some.injEq] at hstep; subst hstep
          exact keep .dropHandle v n (by simp [World.step, hha, hh]) hs rfl
            (by simp [received, World.step, hha, hh])
        · simp only [hh, ↓reduceIte, Option.some.injEq] at hstep; subst hstep
          obtain ⟨a1, a2⟩ := dropHandle_sim hs.hub
          exact keep .dropHandle { v with hub := v.hub.dropHandle } n
            (by simp [World.step, hha, hh])
            ⟨hs.values, a1, fun _ => a2.trans (hs.count hh)⟩ rfl
            (by simp [received, World.step, hha, hh])

theorem sim_init (k : Nat) (vs : BMap K V) : Sim k 0 (World.init vs) (World.init vs) :=
  ⟨rfl, ⟨rfl, rfl, by simp [World.init], by simp [World.init]⟩, fun _ => rfl⟩

end Verif.MutMap
