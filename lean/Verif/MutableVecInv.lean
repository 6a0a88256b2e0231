import Verif.MutableVecProofs

/-!
# Invariants of the `MutableVec` world
-/

namespace Verif.MutVec

variable {α : Type}

/-- Senders are distinct and every live receiver still has its sender registered
(as long as a handle is alive). -/
structure WF (w : World α) : Prop where
  nodup : w.senders.Nodup
  bound : ∀ s ∈ w.senders, s < w.chans.length
  live : ∀ (i : Nat) c, w.chans[i]? = some c → c.rxAlive = true → w.handles ≠ 0 → i ∈ w.senders
  tx : ∀ (i : Nat) c, w.chans[i]? = some c → c.rxAlive = true →
    (c.txAlive = true ↔ w.handles ≠ 0)

/-- Effect of broadcasting `ds` on a channel. -/
def pushAll (ds : List (VecDiff α)) (c : Chan α) : Chan α :=
  if c.rxAlive = true ∧ ds ≠ [] then { c with queue := c.queue ++ ds, waker := none } else c

theorem pushAll_rxAlive (ds : List (VecDiff α)) (c : Chan α) :
    (pushAll ds c).rxAlive = c.rxAlive := by unfold pushAll; split <;> rfl
theorem pushAll_txAlive (ds : List (VecDiff α)) (c : Chan α) :
    (pushAll ds c).txAlive = c.txAlive := by unfold pushAll; split <;> rfl
theorem pushAll_delivered (ds : List (VecDiff α)) (c : Chan α) :
    (pushAll ds c).delivered = c.delivered := by unfold pushAll; split <;> rfl
theorem pushAll_queue (ds : List (VecDiff α)) (c : Chan α) (h : c.rxAlive = true) :
    (pushAll ds c).queue = c.queue ++ ds := by
  unfold pushAll
  by_cases hd : ds = [] <;> simp [hd, h]

theorem pushAll_cons (d : VecDiff α) (ds : List (VecDiff α)) (c : Chan α) :
    pushAll ds (pushAll [d] c) = pushAll (d :: ds) c := by
  unfold pushAll
  by_cases h : c.rxAlive = true <;> by_cases hd : ds = [] <;> simp [h, hd]

theorem wf_notify {w : World α} (hw : WF w) (hh : w.handles ≠ 0) (d : VecDiff α) :
    WF (w.notify d) ∧ (∀ i : Nat, (w.notify d).chans[i]? = w.chans[i]?.map (pushAll [d])) ∧
    (w.notify d).handles = w.handles ∧ (w.notify d).chans.length = w.chans.length ∧
    (w.notify d).senders = w.senders.filter w.rxLive ∧
    (w.notify d).woken = w.woken ++ w.senders.flatMap (wakes w.chans) := by
  obtain ⟨h1, h2, h3, h4, h5, h6, h7⟩ := retainSend_spec d w.senders hw.nodup w
  have hc : ∀ i : Nat, (w.notify d).chans[i]? = w.chans[i]?.map (pushAll [d]) := by
    intro i
    show (retainSend d w.senders w).2.chans[i]? = _
    rw [h1]
    cases hx : w.chans[i]? with
    | none => rfl
    | some c =>
      simp only [Option.map_some, Option.some.injEq, hit, pushAll]
      by_cases ha : c.rxAlive = true
      · have := hw.live i c hx ha hh
        simp [ha, this]
      · simp [ha]
  refine ⟨⟨?_, ?_, ?_, ?_⟩, hc, h5, h7, h2, h6⟩
  · show (retainSend d w.senders w).1.Nodup
    rw [h2]; exact hw.nodup.filter _
  · show ∀ s ∈ (retainSend d w.senders w).1, s < (retainSend d w.senders w).2.chans.length
    rw [h2, h7]
    intro s hs
    exact hw.bound s (List.mem_filter.1 hs).1
  · intro i c hx ha _
    show i ∈ (retainSend d w.senders w).1
    rw [h2]
    rw [hc] at hx
    cases hx' : w.chans[i]? with
    | none => simp [hx'] at hx
    | some c' =>
      simp [hx'] at hx
      have ha' : c'.rxAlive = true := by rw [← hx, pushAll_rxAlive] at ha; exact ha
      exact List.mem_filter.2 ⟨hw.live i c' hx' ha' hh, by simp [World.rxLive, hx', ha']⟩
  · intro i c hx ha
    rw [hc] at hx
    cases hx' : w.chans[i]? with
    | none => simp [hx'] at hx
    | some c' =>
      simp [hx'] at hx
      have ha' : c'.rxAlive = true := by rw [← hx, pushAll_rxAlive] at ha; exact ha
      have : (w.notify d).handles = w.handles := h5
      rw [this, ← hx, pushAll_txAlive]
      exact hw.tx i c' hx' ha'

theorem wf_notifyAll {w : World α} (hw : WF w) (hh : w.handles ≠ 0) (ds : List (VecDiff α)) :
    WF (notifyAll w ds) ∧ (∀ i : Nat, (notifyAll w ds).chans[i]? = w.chans[i]?.map (pushAll ds)) ∧
    (notifyAll w ds).handles = w.handles ∧ (notifyAll w ds).chans.length = w.chans.length := by
  induction ds generalizing w with
  | nil =>
    refine ⟨hw, fun i => ?_, rfl, rfl⟩
    have : pushAll (α := α) [] = id := by funext c; simp [pushAll]
    simp [this]
  | cons d ds ih =>
    obtain ⟨h1, h2, h3, h4, -⟩ := wf_notify hw hh d
    obtain ⟨g1, g2, g3, g4⟩ := ih h1 (by rw [h3]; exact hh)
    refine ⟨g1, fun i => ?_, by simp [g3, h3], by simp [g4, h4]⟩
    simp only [notifyAll_cons, g2, h2, Option.map_map]
    cases w.chans[i]? with
    | none => rfl
    | some c => simp [pushAll_cons]

theorem wf_values {w : World α} (hw : WF w) (vs : List α) : WF { w with values := vs } :=
  ⟨hw.nodup, hw.bound, hw.live, hw.tx⟩

/-- Each registered waker that a broadcast wakes is logged. -/
theorem woken_notify {w : World α} (hw : WF w) (hh : w.handles ≠ 0) (d : VecDiff α)
    {i : Nat} {c : Chan α} {x : Waker} (hc : w.chans[i]? = some c) (ha : c.rxAlive = true)
    (hx : c.waker = some x) :
    ∃ new, (w.notify d).woken = w.woken ++ new ∧ x ∈ new := by
  obtain ⟨-, -, -, -, -, h⟩ := wf_notify hw hh d
  refine ⟨_, h, ?_⟩
  rw [List.mem_flatMap]
  exact ⟨i, hw.live i c hc ha hh, by simp [wakes, hc, ha, hx]⟩

theorem woken_mono_notifyAll {w : World α} (hw : WF w) (hh : w.handles ≠ 0)
    (ds : List (VecDiff α)) : ∃ new, (notifyAll w ds).woken = w.woken ++ new := by
  induction ds generalizing w with
  | nil => exact ⟨[], by simp⟩
  | cons d ds ih =>
    obtain ⟨h1, -, h3, -, -, h6⟩ := wf_notify hw hh d
    obtain ⟨new, hn⟩ := ih h1 (by rw [h3]; exact hh)
    exact ⟨_, by rw [notifyAll_cons, hn, h6, List.append_assoc]⟩

theorem woken_notifyAll {w : World α} (hw : WF w) (hh : w.handles ≠ 0) (ds : List (VecDiff α))
    (hds : ds ≠ []) {i : Nat} {c : Chan α} {x : Waker} (hc : w.chans[i]? = some c)
    (ha : c.rxAlive = true) (hx : c.waker = some x) :
    ∃ new, (notifyAll w ds).woken = w.woken ++ new ∧ x ∈ new := by
  cases ds with
  | nil => exact absurd rfl hds
  | cons d ds =>
    obtain ⟨new1, h1, hm⟩ := woken_notify hw hh d hc ha hx
    obtain ⟨hw', -, h3, -⟩ := wf_notify hw hh d
    obtain ⟨new2, h2⟩ := woken_mono_notifyAll hw' (by rw [h3]; exact hh) ds
    exact ⟨new1 ++ new2, by rw [notifyAll_cons, h2, h1, List.append_assoc], by simp [hm]⟩

/-! ## Dropping the last handle -/

/-- Effect of dropping a sender on its channel. -/
def closed (c : Chan α) : Chan α := { c with txAlive := false, waker := none }

theorem dropSenders_spec (ss : List Nat) (w : World α) :
    (∀ i : Nat, (dropSenders ss w).chans[i]? = w.chans[i]?.map
      (fun c => if i ∈ ss then closed c else c)) ∧
    (dropSenders ss w).values = w.values ∧ (dropSenders ss w).handles = w.handles ∧
    (dropSenders ss w).chans.length = w.chans.length ∧
    (∃ new, (dropSenders ss w).woken = w.woken ++ new ∧
      ∀ (i : Nat) c x, i ∈ ss → w.chans[i]? = some c → c.waker = some x → x ∈ new) := by
  induction ss generalizing w with
  | nil => exact ⟨fun i => by simp [dropSenders], rfl, rfl, rfl, [], by simp [dropSenders]⟩
  | cons s ss ih =>
    obtain ⟨h1, h2, h3, h4, new, h5, h6⟩ := ih (w.dropTx s)
    have hc : ∀ i : Nat, (w.dropTx s).chans[i]? = w.chans[i]?.map
        (fun c => if i = s then closed c else c) := by
      intro i
      unfold World.dropTx
      split
      · rename_i hx
        by_cases hi : i = s
        · subst hi; simp [hx]
        · simp [hi]
      · rename_i c hx
        simp only [List.getElem?_set]
        by_cases hi : s = i
        · subst hi
          have := (List.getElem?_eq_some_iff.1 hx).1
          rw [hx]; simp [this, closed]
        · simp [hi, Ne.symm hi]
    have hv : (w.dropTx s).values = w.values ∧ (w.dropTx s).handles = w.handles ∧
        (w.dropTx s).chans.length = w.chans.length := by
      unfold World.dropTx; split <;> simp
    refine ⟨fun i => ?_, by simp [dropSenders, h2, hv], by simp [dropSenders, h3, hv],
      by simp [dropSenders, h4, hv], ?_⟩
    · simp only [dropSenders, h1, hc, Option.map_map]
      cases w.chans[i]? with
      | none => rfl
      | some c =>
        by_cases hi : i = s <;> by_cases hm : i ∈ ss <;> simp [hi, hm, closed]
    · have hwk : ∃ n1, (w.dropTx s).woken = w.woken ++ n1 ∧
          ∀ c x, w.chans[s]? = some c → c.waker = some x → x ∈ n1 := by
        unfold World.dropTx
        split
        · rename_i hx; exact ⟨[], by simp, by simp [hx]⟩
        · rename_i c hx
          refine ⟨c.waker.toList, rfl, ?_⟩
          intro c' x hc' hw'
          rw [hx] at hc'; cases hc'
          simp [hw']
      obtain ⟨n1, e1, e2⟩ := hwk
      refine ⟨n1 ++ new, by simp [dropSenders, h5, e1], ?_⟩
      intro i c x hi hcx hwx
      by_cases his : i = s
      · subst his; simp [e2 c x hcx hwx]
      · have hi' : i ∈ ss := by simpa [his] using hi
        have := h6 i c x hi' (by simp [hc, hcx, his]) hwx
        simp [this]

/-! ## The mirror invariant -/

/-- Everything known about a reachable world. -/
structure Inv (w : World α) : Prop extends WF w where
  mirror : ∀ (i : Nat) c, w.chans[i]? = some c → c.rxAlive = true →
    replay (c.delivered ++ c.queue) [] = some w.values
  sound : ∀ (i : Nat) c, w.chans[i]? = some c → ∃ ys, replay c.delivered [] = some ys
  waiting : ∀ (i : Nat) c x, w.chans[i]? = some c → c.waker = some x →
    c.queue = [] ∧ c.txAlive = true ∧ c.rxAlive = true
  gone : w.handles = 0 → w.senders = []

theorem inv_init (vs : List α) : Inv (World.init vs) where
  nodup := by simp [World.init]
  bound := by simp [World.init]
  live := by simp [World.init]
  tx := by simp [World.init]
  mirror := by simp [World.init]
  sound := by simp [World.init]
  waiting := by simp [World.init]
  gone := by simp [World.init]

theorem inv_exec {w w' : World α} (hw : Inv w) (hh : w.handles ≠ 0) {o : Op α} {r : Ret α}
    (h : w.exec o = some (r, w')) : Inv w' := by
  rw [exec_eq] at h
  cases hs : o.spec w.values with
  | none => simp [hs] at h
  | some sp =>
    simp only [hs, Option.map_some, Option.some.injEq, Prod.mk.injEq] at h
    obtain ⟨-, rfl⟩ := h
    obtain ⟨h1, h2, h3, h4⟩ := wf_notifyAll hw.toWF hh (o.diffs w.values)
    refine ⟨wf_values h1 _, ?_, ?_, ?_, ?_⟩
    · intro i c hc ha
      simp only at hc ⊢
      rw [h2] at hc
      cases hx : w.chans[i]? with
      | none => simp [hx] at hc
      | some c' =>
        simp [hx] at hc; subst hc
        rw [pushAll_rxAlive] at ha
        rw [pushAll_queue _ _ ha, pushAll_delivered, ← List.append_assoc]
        exact replay_append_some (hw.mirror i c' hx ha) (replay_diffs o _ sp hs)
    · intro i c hc
      simp only at hc
      rw [h2] at hc
      cases hx : w.chans[i]? with
      | none => simp [hx] at hc
      | some c' =>
        simp [hx] at hc; subst hc
        rw [pushAll_delivered]
        exact hw.sound i c' hx
    · intro i c x hc hwk
      simp only at hc
      rw [h2] at hc
      cases hx : w.chans[i]? with
      | none => simp [hx] at hc
      | some c' =>
        simp [hx] at hc; subst hc
        unfold pushAll at hwk ⊢
        split at hwk
        · cases hwk
        · rename_i hn
          simp only [hn, ↓reduceIte]
          exact hw.waiting i c' x hx hwk
    · intro h0
      simp only [h3] at h0
      exact absurd h0 hh

theorem getElem?_set_some {l : List α} {i j : Nat} {a b : α} (h : (l.set i a)[j]? = some b) :
    (i = j ∧ b = a ∧ i < l.length) ∨ (i ≠ j ∧ l[j]? = some b) := by
  rw [List.getElem?_set] at h
  by_cases hij : i = j
  · simp only [hij, ↓reduceIte] at h
    by_cases hl : j < l.length
    · simp [hl] at h; exact .inl ⟨hij, h.symm, hij ▸ hl⟩
    · simp [hl] at h
  · simp only [hij, ↓reduceIte] at h
    exact .inr ⟨hij, h⟩

theorem inv_subscribe {w : World α} (hw : Inv w) (hh : w.handles ≠ 0) : Inv w.signalVec := by
  have hcases : ∀ (i : Nat) c, (w.chans ++ [Chan.new (if w.values.length > 0 then
      [VecDiff.replace w.values] else [])])[i]? = some c →
      w.chans[i]? = some c ∨ (i = w.chans.length ∧ c = Chan.new (if w.values.length > 0 then
      [VecDiff.replace w.values] else [])) := by
    intro i c h
    rcases Nat.lt_or_ge i w.chans.length with hi | hi
    · rw [List.getElem?_append_left hi] at h; exact .inl h
    · rw [List.getElem?_append_right hi] at h
      have : i - w.chans.length = 0 := by
        cases hk : i - w.chans.length with
        | zero => rfl
        | succ n => simp [hk] at h
      rw [this] at h
      simp at h
      exact .inr ⟨by omega, h.symm⟩
  refine ⟨⟨?_, ?_, ?_, ?_⟩, ?_, ?_, ?_, ?_⟩ <;> simp only [World.signalVec]
  · rw [List.nodup_append]
    refine ⟨hw.nodup, by simp, ?_⟩
    intro a ha b hb
    simp at hb
    have := hw.bound a ha
    omega
  · intro s hs
    simp only [List.mem_append, List.mem_singleton, List.length_append, List.length_cons,
      List.length_nil] at hs ⊢
    rcases hs with hs | hs
    · have := hw.bound s hs; omega
    · omega
  · intro i c hc ha _
    rcases hcases i c hc with h | ⟨rfl, -⟩
    · exact List.mem_append_left _ (hw.live i c h ha hh)
    · simp
  · intro i c hc ha
    rcases hcases i c hc with h | ⟨rfl, rfl⟩
    · exact hw.tx i c h ha
    · simp [Chan.new, hh]
  · intro i c hc ha
    rcases hcases i c hc with h | ⟨rfl, rfl⟩
    · exact hw.mirror i c h ha
    · simp only [Chan.new, List.nil_append]
      cases hv : w.values with
      | nil => simp [replay]
      | cons a l => simp [replay, VecDiff.apply]
  · intro i c hc
    rcases hcases i c hc with h | ⟨rfl, rfl⟩
    · exact hw.sound i c h
    · exact ⟨[], rfl⟩
  · intro i c x hc hx
    rcases hcases i c hc with h | ⟨rfl, rfl⟩
    · exact hw.waiting i c x h hx
    · simp [Chan.new] at hx
  · intro h0; exact absurd h0 hh

theorem inv_poll {w : World α} (hw : Inv w) (id : Nat) (cx : Waker) (hl : w.rxLive id = true) :
    Inv (w.pollRx id cx).2 := by
  unfold World.rxLive at hl
  unfold World.pollRx
  split
  · exact hw
  · rename_i c hc
    simp only [hc] at hl
    have hm := hw.mirror id c hc hl
    split
    · rename_i d ds hq
      refine ⟨⟨hw.nodup, ?_, ?_, ?_⟩, ?_, ?_, ?_, hw.gone⟩
      · simpa using hw.bound
      · intro i c' h ha hh
        rcases getElem?_set_some h with ⟨rfl, rfl, -⟩ | ⟨-, h⟩
        · exact hw.live id c hc hl hh
        · exact hw.live i c' h ha hh
      · intro i c' h ha
        rcases getElem?_set_some h with ⟨rfl, rfl, -⟩ | ⟨-, h⟩
        · exact hw.tx id c hc hl
        · exact hw.tx i c' h ha
      · intro i c' h ha
        rcases getElem?_set_some h with ⟨rfl, rfl, -⟩ | ⟨-, h⟩
        · rw [hq] at hm; simpa using hm
        · exact hw.mirror i c' h ha
      · intro i c' h
        rcases getElem?_set_some h with ⟨rfl, rfl, -⟩ | ⟨-, h⟩
        · rw [hq] at hm
          have hm' : (replay ((c.delivered ++ [d]) ++ ds) []).isSome := by
            simp only [List.append_assoc, List.cons_append, List.nil_append, hm, Option.isSome_some]
          exact replay_prefix hm'
        · exact hw.sound i c' h
      · intro i c' x h hx
        rcases getElem?_set_some h with ⟨rfl, rfl, -⟩ | ⟨-, h⟩
        · have := (hw.waiting id c x hc hx).1
          rw [hq] at this; cases this
        · exact hw.waiting i c' x h hx
    · rename_i hq
      split
      · rename_i htx
        refine ⟨⟨hw.nodup, ?_, ?_, ?_⟩, ?_, ?_, ?_, hw.gone⟩
        · simpa using hw.bound
        · intro i c' h ha hh
          rcases getElem?_set_some h with ⟨rfl, rfl, -⟩ | ⟨-, h⟩
          · exact hw.live id c hc hl hh
          · exact hw.live i c' h ha hh
        · intro i c' h ha
          rcases getElem?_set_some h with ⟨rfl, rfl, -⟩ | ⟨-, h⟩
          · exact hw.tx id c hc hl
          · exact hw.tx i c' h ha
        · intro i c' h ha
          rcases getElem?_set_some h with ⟨rfl, rfl, -⟩ | ⟨-, h⟩
          · exact hm
          · exact hw.mirror i c' h ha
        · intro i c' h
          rcases getElem?_set_some h with ⟨rfl, rfl, -⟩ | ⟨-, h⟩
          · exact hw.sound id c hc
          · exact hw.sound i c' h
        · intro i c' x h hx
          rcases getElem?_set_some h with ⟨rfl, rfl, -⟩ | ⟨-, h⟩
          · exact ⟨hq, htx, hl⟩
          · exact hw.waiting i c' x h hx
      · exact hw

theorem inv_dropRx {w : World α} (hw : Inv w) (id : Nat) : Inv (w.dropRx id) := by
  unfold World.dropRx
  split
  · exact hw
  · rename_i c hc
    refine ⟨⟨hw.nodup, ?_, ?_, ?_⟩, ?_, ?_, ?_, hw.gone⟩
    · simpa using hw.bound
    · intro i c' h ha hh
      rcases getElem?_set_some h with ⟨rfl, rfl, -⟩ | ⟨-, h⟩
      · cases ha
      · exact hw.live i c' h ha hh
    · intro i c' h ha
      rcases getElem?_set_some h with ⟨rfl, rfl, -⟩ | ⟨-, h⟩
      · cases ha
      · exact hw.tx i c' h ha
    · intro i c' h ha
      rcases getElem?_set_some h with ⟨rfl, rfl, -⟩ | ⟨-, h⟩
      · cases ha
      · exact hw.mirror i c' h ha
    · intro i c' h
      rcases getElem?_set_some h with ⟨rfl, rfl, -⟩ | ⟨-, h⟩
      · exact hw.sound id c hc
      · exact hw.sound i c' h
    · intro i c' x h hx
      rcases getElem?_set_some h with ⟨rfl, rfl, -⟩ | ⟨-, h⟩
      · cases hx
      · exact hw.waiting i c' x h hx

theorem inv_dropHandle {w : World α} (hw : Inv w) (hh : w.handles ≠ 0) : Inv w.dropHandle := by
  unfold World.dropHandle
  simp only
  split
  · rename_i h0
    obtain ⟨h1, h2, h3, h4, -⟩ :=
      dropSenders_spec w.senders { w with handles := w.handles - 1 }
    have hget : ∀ (i : Nat) c, (dropSenders w.senders { w with handles := w.handles - 1 }).chans[i]?
        = some c → ∃ c', w.chans[i]? = some c' ∧ c.rxAlive = c'.rxAlive ∧ c.queue = c'.queue ∧
          c.delivered = c'.delivered ∧ (c'.rxAlive = true → c.txAlive = false ∧ c.waker = none) ∧
          (c' = c ∨ c.waker = none) := by
      intro i c hc
      rw [h1] at hc
      simp only at hc
      cases hx : w.chans[i]? with
      | none => simp [hx] at hc
      | some c' =>
        simp only [hx, Option.map_some, Option.some.injEq] at hc
        by_cases hi : i ∈ w.senders
        · simp only [hi, ↓reduceIte] at hc; subst hc
          exact ⟨c', rfl, rfl, rfl, rfl, fun _ => ⟨rfl, rfl⟩, .inr rfl⟩
        · simp only [hi, ↓reduceIte] at hc; subst hc
          exact ⟨c', rfl, rfl, rfl, rfl, fun ha => absurd (hw.live i c' hx ha hh) hi, .inl rfl⟩
    refine ⟨⟨by simp, by simp, ?_, ?_⟩, ?_, ?_, ?_, ?_⟩
    · intro i c hc ha hn
      simp only [h3] at hn
      exact absurd h0 hn
    · intro i c hc ha
      obtain ⟨c', hx, e1, e2, e3, e4, -⟩ := hget i c hc
      simp only [h3]
      have := (e4 (e1 ▸ ha)).1
      simp [this, h0]
    · intro i c hc ha
      obtain ⟨c', hx, e1, e2, e3, e4, -⟩ := hget i c hc
      simp only [h2]
      rw [e2, e3]
      exact hw.mirror i c' hx (e1 ▸ ha)
    · intro i c hc
      obtain ⟨c', hx, e1, e2, e3, e4, -⟩ := hget i c hc
      rw [e3]; exact hw.sound i c' hx
    · intro i c x hc hwk
      obtain ⟨c', hx, e1, e2, e3, e4, e5⟩ := hget i c hc
      rcases e5 with rfl | e5
      · obtain ⟨-, -, ha⟩ := hw.waiting i c' x hx hwk
        have := (e4 ha).2
        rw [this] at hwk; cases hwk
      · rw [e5] at hwk; cases hwk
    · intro _; rfl
  · rename_i h0
    refine ⟨⟨hw.nodup, hw.bound, fun i c hc ha _ => hw.live i c hc ha hh, ?_⟩, hw.mirror, hw.sound,
      hw.waiting, fun h => absurd h h0⟩
    intro i c hc ha
    have := hw.tx i c hc ha
    simp only [ne_eq, hh, not_false_eq_true, iff_true] at this
    simp [this, h0]

theorem inv_step {w w' : World α} (hw : Inv w) {e : Ev α} (h : w.step e = some w') : Inv w' := by
  cases e with
  | op o =>
    simp only [World.step] at h
    split at h
    · cases h; exact hw
    · rename_i hh
      cases hx : w.exec o with
      | none => simp [hx] at h
      | some r =>
        simp [hx] at h; subst h
        exact inv_exec hw hh (r := r.1) (by rw [hx])
  | subscribe =>
    simp only [World.step] at h
    split at h
    · cases h; exact hw
    · cases h; exact inv_subscribe hw (by assumption)
  | poll id cx =>
    simp only [World.step] at h
    split at h
    · cases h; exact inv_poll hw id cx (by assumption)
    · cases h; exact hw
  | dropRx id =>
    simp only [World.step] at h
    split at h
    · cases h; exact inv_dropRx hw id
    · cases h; exact hw
  | cloneHandle =>
    simp only [World.step] at h
    split at h
    · cases h; exact hw
    · rename_i hh
      cases h
      refine ⟨⟨hw.nodup, hw.bound, fun i c hc ha _ => hw.live i c hc ha hh, ?_⟩, hw.mirror,
        hw.sound, hw.waiting, fun h => by simp at h⟩
      intro i c hc ha
      have := hw.tx i c hc ha
      simp only [ne_eq, hh, not_false_eq_true, iff_true] at this
      simp [this]
  | dropHandle =>
    simp only [World.step] at h
    split at h
    · cases h; exact hw
    · cases h; exact inv_dropHandle hw (by assumption)

theorem inv_runs {w w' : World α} (hw : Inv w) {es : List (Ev α)} (h : w.runs es = some w') :
    Inv w' := by
  induction es generalizing w with
  | nil => cases h; exact hw
  | cons e es ih =>
    simp only [World.runs] at h
    split at h
    · cases h
    · rename_i w1 h1
      exact ih (inv_step hw h1) h

end Verif.MutVec
