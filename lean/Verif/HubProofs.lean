import Verif.Hub

/-!
# Facts about `Hub`
-/

namespace Verif

variable {D β : Type}

theorem getElem?_set_some' {α : Type} {l : List α} {i j : Nat} {a b : α}
    (h : (l.set i a)[j]? = some b) :
    (i = j ∧ b = a ∧ i < l.length) ∨ (i ≠ j ∧ l[j]? = some b) := by
  rw [List.getElem?_set] at h
  by_cases hij : i = j
  · simp only [hij, ↓reduceIte] at h
    by_cases hl : j < l.length
    · simp [hl] at h; exact .inl ⟨hij, h.symm, hij ▸ hl⟩
    · simp [hl] at h
  · simp only [hij, ↓reduceIte] at h
    exact .inr ⟨hij, h⟩

/-- Effect of one broadcast on channel number `i`. -/
def hubHit (ss : List Nat) (d : D) (i : Nat) (c : Link D) : Link D :=
  if i ∈ ss ∧ c.rxAlive = true then { c with queue := c.queue ++ [d], waker := none } else c

/-- The wakers woken by one broadcast. -/
def hubWakes (links : List (Link D)) (s : Nat) : List Waker :=
  match links[s]? with
  | some c => if c.rxAlive then c.waker.toList else []
  | none => []

theorem hub_send_links (h : Hub D) (s : Nat) (d : D) (i : Nat) :
    (h.send s d).2.links[i]? = h.links[i]?.map (hubHit [s] d i) := by
  unfold Hub.send
  split
  · rename_i hn
    by_cases hi : i = s
    · subst hi; simp [hn]
    · cases h' : h.links[i]? <;> simp [hubHit, hi]
  · rename_i c hc
    split
    · rename_i ha
      simp only [List.getElem?_set]
      by_cases hi : s = i
      · subst hi
        have := (List.getElem?_eq_some_iff.1 hc).1
        rw [hc]
        simp [hubHit, ha, this]
      · simp only [hi, ↓reduceIte]
        cases h' : h.links[i]? <;> simp [hubHit, Ne.symm hi]
    · rename_i ha
      by_cases hi : i = s
      · subst hi; simp [hc, hubHit, ha]
      · cases h' : h.links[i]? <;> simp [hubHit, hi]

theorem hub_send_fst (h : Hub D) (s : Nat) (d : D) : (h.send s d).1 = h.rxLive s := by
  unfold Hub.send Hub.rxLive
  split <;> simp_all
  split <;> simp_all

theorem hub_send_rest (h : Hub D) (s : Nat) (d : D) :
    (h.send s d).2.senders = h.senders ∧ (h.send s d).2.handles = h.handles ∧
    (h.send s d).2.woken = h.woken ++ hubWakes h.links s ∧
    (h.send s d).2.links.length = h.links.length := by
  unfold Hub.send hubWakes
  split
  · simp_all
  · split <;> simp_all

theorem hubHit_rxAlive (ss : List Nat) (d : D) (i : Nat) (c : Link D) :
    (hubHit ss d i c).rxAlive = c.rxAlive := by
  unfold hubHit; split <;> rfl

theorem hub_rxLive_congr {h h' : Hub D} {i : Nat} {ss d}
    (e : h'.links[i]? = h.links[i]?.map (hubHit ss d i)) : h'.rxLive i = h.rxLive i := by
  unfold Hub.rxLive
  rw [e]
  cases h.links[i]? <;> simp [hubHit_rxAlive]

theorem hubHit_cons (s : Nat) (ss : List Nat) (d : D) (i : Nat) (hs : s ∉ ss) (c : Link D) :
    hubHit ss d i (hubHit [s] d i c) = hubHit (s :: ss) d i c := by
  by_cases h : i = s
  · subst h
    by_cases ha : c.rxAlive = true <;> simp [hubHit, hs, ha]
  · by_cases ha : c.rxAlive = true <;> by_cases hm : i ∈ ss <;> simp [hubHit, h, ha, hm]

theorem hubRetain_spec (d : D) (ss : List Nat) (hnd : ss.Nodup) (h : Hub D) :
    (∀ i : Nat, (hubRetain d ss h).2.links[i]? = h.links[i]?.map (hubHit ss d i)) ∧
    (hubRetain d ss h).1 = ss.filter h.rxLive ∧
    (hubRetain d ss h).2.handles = h.handles ∧
    (hubRetain d ss h).2.woken = h.woken ++ ss.flatMap (hubWakes h.links) ∧
    (hubRetain d ss h).2.links.length = h.links.length := by
  induction ss generalizing h with
  | nil =>
    refine ⟨fun i => ?_, rfl, rfl, by simp [hubRetain], rfl⟩
    have : hubHit (D := D) [] d i = id := by funext c; simp [hubHit]
    simp [hubRetain, this]
  | cons s ss ih =>
    obtain ⟨hs, hnd'⟩ := List.nodup_cons.1 hnd
    obtain ⟨h1, h2, h5, h6, h7⟩ := ih hnd' (h.send s d).2
    obtain ⟨e2, e3, e4, e5⟩ := hub_send_rest h s d
    refine ⟨fun i => ?_, ?_, by simp [hubRetain, h5, e3], ?_, by simp [hubRetain, h7, e5]⟩
    · simp only [hubRetain, h1, hub_send_links, Option.map_map]
      cases h.links[i]? with
      | none => rfl
      | some c => simp [hubHit_cons s ss d i hs]
    · simp only [hubRetain, h2, hub_send_fst, List.filter_cons]
      have : List.filter (h.send s d).2.rxLive ss = List.filter h.rxLive ss := by
        apply List.filter_congr
        intro i _
        exact hub_rxLive_congr (hub_send_links h s d i)
      rw [this]
    · simp only [hubRetain, h6, e4, List.flatMap_cons, List.append_assoc]
      congr 2
      have hc : ∀ i ∈ ss, hubWakes (h.send s d).2.links i = hubWakes h.links i := by
        intro i hi
        unfold hubWakes
        rw [hub_send_links]
        have : i ≠ s := by rintro rfl; exact hs hi
        cases h.links[i]? <;> simp [hubHit, this]
      have : ∀ l : List Nat, (∀ i ∈ l, i ∈ ss) →
          List.flatMap (hubWakes (h.send s d).2.links) l = List.flatMap (hubWakes h.links) l := by
        intro l hl
        induction l with
        | nil => rfl
        | cons x l ihl =>
          simp only [List.flatMap_cons]
          rw [hc x (hl x (by simp)), ihl (fun i hi => hl i (by simp [hi]))]
      exact this ss (fun _ h => h)

theorem hubRetainWith_eq (mk : β → D) (v : β) (ss : List Nat) (copy : Option β)
    (hcopy : ss ≠ [] → copy = some v) (h : Hub D) :
    hubRetainWith mk ss ss.length copy h = some (hubRetain (mk v) ss h) := by
  induction ss generalizing copy h with
  | nil => rfl
  | cons s ss ih =>
    obtain rfl := hcopy (by simp)
    simp only [hubRetainWith, List.length_cons, Nat.add_eq_zero_iff, Nat.one_ne_zero, and_false,
      ↓reduceIte, Nat.add_one_sub_one]
    rw [ih]
    · simp [hubRetain]
    · intro hne
      have : ss.length ≠ 0 := by simpa using hne
      simp [this]

/-- `notify_clone` of a value computed by `change` is `notify`. -/
theorem notifyClone_change (h : Hub D) (v : β) (mk : β → D) :
    h.notifyClone (h.change v) mk = some (h.notify (mk v)) := by
  unfold Hub.notifyClone Hub.change
  by_cases hs : h.senders = []
  · obtain ⟨ss, l, n, w⟩ := h
    simp only at hs
    subst hs
    simp [Hub.notify, hubRetain]
  · have : h.senders.length > 0 := List.length_pos_iff.2 hs
    simp only [hs, ↓reduceIte, this]
    rw [hubRetainWith_eq mk v h.senders (some v) (fun _ => rfl)]
    simp [Hub.notify]

/-! ## Well-formed hubs -/

/-- Senders are distinct; every live receiver still has its sender registered as long as a handle
is alive; a waker is registered only while there is something to wait for. -/
structure HubWF (h : Hub D) : Prop where
  nodup : h.senders.Nodup
  bound : ∀ s ∈ h.senders, s < h.links.length
  live : ∀ (i : Nat) c, h.links[i]? = some c → c.rxAlive = true → h.handles ≠ 0 → i ∈ h.senders
  tx : ∀ (i : Nat) c, h.links[i]? = some c → c.rxAlive = true →
    (c.txAlive = true ↔ h.handles ≠ 0)
  waiting : ∀ (i : Nat) c x, h.links[i]? = some c → c.waker = some x →
    c.queue = [] ∧ c.txAlive = true ∧ c.rxAlive = true
  gone : h.handles = 0 → h.senders = []

/-- What every channel has received so far satisfies `S`, and together with its queue, if the
receiver is live, `R`. -/
structure Tracks (R S : List D → Prop) (h : Hub D) : Prop where
  mirror : ∀ (i : Nat) c, h.links[i]? = some c → c.rxAlive = true → R (c.delivered ++ c.queue)
  sound : ∀ (i : Nat) c, h.links[i]? = some c → S c.delivered

/-- Effect of a broadcast on a channel. -/
def hubPush (d : D) (c : Link D) : Link D :=
  if c.rxAlive = true then { c with queue := c.queue ++ [d], waker := none } else c

theorem hubPush_rxAlive (d : D) (c : Link D) : (hubPush d c).rxAlive = c.rxAlive := by
  unfold hubPush; split <;> rfl
theorem hubPush_txAlive (d : D) (c : Link D) : (hubPush d c).txAlive = c.txAlive := by
  unfold hubPush; split <;> rfl
theorem hubPush_delivered (d : D) (c : Link D) : (hubPush d c).delivered = c.delivered := by
  unfold hubPush; split <;> rfl

theorem hub_notify {h : Hub D} (hw : HubWF h) (hh : h.handles ≠ 0) (d : D) :
    HubWF (h.notify d) ∧ (∀ i : Nat, (h.notify d).links[i]? = h.links[i]?.map (hubPush d)) ∧
    (h.notify d).handles = h.handles ∧
    (h.notify d).senders = h.senders.filter h.rxLive ∧
    (h.notify d).woken = h.woken ++ h.senders.flatMap (hubWakes h.links) := by
  obtain ⟨h1, h2, h5, h6, h7⟩ := hubRetain_spec d h.senders hw.nodup h
  have hc : ∀ i : Nat, (h.notify d).links[i]? = h.links[i]?.map (hubPush d) := by
    intro i
    show (hubRetain d h.senders h).2.links[i]? = _
    rw [h1]
    cases hx : h.links[i]? with
    | none => rfl
    | some c =>
      simp only [Option.map_some, Option.some.injEq, hubHit, hubPush]
      by_cases ha : c.rxAlive = true
      · have := hw.live i c hx ha hh
        simp [ha, this]
      · simp [ha]
  have inv : ∀ (i : Nat) c, (h.notify d).links[i]? = some c →
      ∃ c', h.links[i]? = some c' ∧ c = hubPush d c' := by
    intro i c hx
    rw [hc] at hx
    cases hx' : h.links[i]? with
    | none => simp [hx'] at hx
    | some c' => simp [hx'] at hx; exact ⟨c', rfl, hx.symm⟩
  refine ⟨⟨?_, ?_, ?_, ?_, ?_, ?_⟩, hc, h5, h2, h6⟩
  · show (hubRetain d h.senders h).1.Nodup
    rw [h2]; exact hw.nodup.filter _
  · show ∀ s ∈ (hubRetain d h.senders h).1, s < (hubRetain d h.senders h).2.links.length
    rw [h2, h7]
    intro s hs
    exact hw.bound s (List.mem_filter.1 hs).1
  · intro i c hx ha _
    show i ∈ (hubRetain d h.senders h).1
    rw [h2]
    obtain ⟨c', hx', rfl⟩ := inv i c hx
    rw [hubPush_rxAlive] at ha
    exact List.mem_filter.2 ⟨hw.live i c' hx' ha hh, by simp [Hub.rxLive, hx', ha]⟩
  · intro i c hx ha
    obtain ⟨c', hx', rfl⟩ := inv i c hx
    rw [hubPush_rxAlive] at ha
    have : (h.notify d).handles = h.handles := h5
    rw [this, hubPush_txAlive]
    exact hw.tx i c' hx' ha
  · intro i c x hx hwk
    obtain ⟨c', hx', rfl⟩ := inv i c hx
    unfold hubPush at hwk ⊢
    split at hwk
    · cases hwk
    · rename_i hn
      rw [if_neg hn]
      exact hw.waiting i c' x hx' hwk
  · intro h0
    have : (h.notify d).handles = h.handles := h5
    rw [this] at h0
    exact absurd h0 hh

theorem tracks_notify {R R' S : List D → Prop} {h : Hub D} (hw : HubWF h) (hh : h.handles ≠ 0)
    {d : D} (ht : Tracks R S h) (hR : ∀ l, R l → R' (l ++ [d])) : Tracks R' S (h.notify d) := by
  obtain ⟨-, h2, -⟩ := hub_notify hw hh d
  have inv : ∀ (i : Nat) c, (h.notify d).links[i]? = some c →
      ∃ c', h.links[i]? = some c' ∧ c = hubPush d c' := by
    intro i c hx
    rw [h2] at hx
    cases hx' : h.links[i]? with
    | none => simp [hx'] at hx
    | some c' => simp [hx'] at hx; exact ⟨c', rfl, hx.symm⟩
  refine ⟨fun i c hc ha => ?_, fun i c hc => ?_⟩
  · obtain ⟨c', hx', rfl⟩ := inv i c hc
    rw [hubPush_rxAlive] at ha
    have := hR _ (ht.mirror i c' hx' ha)
    simpa [hubPush, ha] using this
  · obtain ⟨c', hx', rfl⟩ := inv i c hc
    rw [hubPush_delivered]
    exact ht.sound i c' hx'

theorem tracks_mono {R R' S : List D → Prop} {h : Hub D} (ht : Tracks R S h)
    (hR : ∀ l, R l → R' l) : Tracks R' S h :=
  ⟨fun i c hc ha => hR _ (ht.mirror i c hc ha), ht.sound⟩

theorem subscribe_cases {h : Hub D} {first : List D} {i : Nat} {c : Link D}
    (hc : (h.subscribe first).links[i]? = some c) :
    h.links[i]? = some c ∨ (i = h.links.length ∧ c = ⟨first, true, true, none, []⟩) := by
  simp only [Hub.subscribe] at hc
  rcases Nat.lt_or_ge i h.links.length with hi | hi
  · rw [List.getElem?_append_left hi] at hc; exact .inl hc
  · rw [List.getElem?_append_right hi] at hc
    have : i - h.links.length = 0 := by
      cases hk : i - h.links.length with
      | zero => rfl
      | succ n => simp [hk] at hc
    rw [this] at hc
    simp at hc
    exact .inr ⟨by omega, hc.symm⟩

theorem hub_subscribe {h : Hub D} (hw : HubWF h) (hh : h.handles ≠ 0) (first : List D) :
    HubWF (h.subscribe first) := by
  refine ⟨?_, ?_, ?_, ?_, ?_, ?_⟩
  · simp only [Hub.subscribe]
    rw [List.nodup_append]
    refine ⟨hw.nodup, by simp, ?_⟩
    intro a ha b hb
    simp at hb
    have := hw.bound a ha
    omega
  · intro s hs
    simp only [Hub.subscribe, List.mem_append, List.mem_singleton, List.length_append,
      List.length_cons, List.length_nil] at hs ⊢
    rcases hs with hs | hs
    · have := hw.bound s hs; omega
    · omega
  · intro i c hc ha _
    simp only [Hub.subscribe]
    rcases subscribe_cases hc with h' | ⟨rfl, -⟩
    · exact List.mem_append_left _ (hw.live i c h' ha hh)
    · simp
  · intro i c hc ha
    rcases subscribe_cases hc with h' | ⟨rfl, rfl⟩
    · exact hw.tx i c h' ha
    · simp [Hub.subscribe, hh]
  · intro i c x hc hx
    rcases subscribe_cases hc with h' | ⟨rfl, rfl⟩
    · exact hw.waiting i c x h' hx
    · simp at hx
  · intro h0; exact absurd h0 hh

theorem tracks_subscribe {R S : List D → Prop} {h : Hub D} (ht : Tracks R S h) {first : List D}
    (hR : R first) (hS : S []) : Tracks R S (h.subscribe first) := by
  refine ⟨fun i c hc ha => ?_, fun i c hc => ?_⟩
  · rcases subscribe_cases hc with h' | ⟨rfl, rfl⟩
    · exact ht.mirror i c h' ha
    · exact hR
  · rcases subscribe_cases hc with h' | ⟨rfl, rfl⟩
    · exact ht.sound i c h'
    · exact hS

theorem hub_poll {h : Hub D} (hw : HubWF h) (id : Nat) (cx : Waker) (hl : h.rxLive id = true) :
    HubWF (h.pollRx id cx).2 := by
  unfold Hub.rxLive at hl
  unfold Hub.pollRx
  split
  · exact hw
  · rename_i c hc
    simp only [hc] at hl
    have key : ∀ c' : Link D, c'.rxAlive = c.rxAlive → c'.txAlive = c.txAlive →
        (∀ x, c'.waker = some x → c'.queue = [] ∧ c'.txAlive = true ∧ c'.rxAlive = true) →
        HubWF { h with links := h.links.set id c' } := by
      intro c0 e1 e2 e3
      refine ⟨hw.nodup, by simpa using hw.bound, ?_, ?_, ?_, hw.gone⟩
      · intro i c' h' ha hh
        rcases getElem?_set_some' h' with ⟨rfl, rfl, -⟩ | ⟨-, h'⟩
        · exact hw.live id c hc hl hh
        · exact hw.live i c' h' ha hh
      · intro i c' h' ha
        rcases getElem?_set_some' h' with ⟨rfl, rfl, -⟩ | ⟨-, h'⟩
        · rw [e2]; exact hw.tx id c hc hl
        · exact hw.tx i c' h' ha
      · intro i c' x h' hx
        rcases getElem?_set_some' h' with ⟨rfl, rfl, -⟩ | ⟨-, h'⟩
        · exact e3 x hx
        · exact hw.waiting i c' x h' hx
    split
    · rename_i d ds hq
      refine key { c with queue := ds, delivered := c.delivered ++ [d] } rfl rfl ?_
      intro x hx
      have := (hw.waiting id c x hc hx).1
      rw [hq] at this; cases this
    · rename_i hq
      split
      · rename_i htx
        exact key { c with waker := some cx } rfl rfl (fun x _ => ⟨hq, htx, hl⟩)
      · exact hw

theorem tracks_poll {R S : List D → Prop} {h : Hub D} (ht : Tracks R S h) (id : Nat) (cx : Waker)
    (hl : h.rxLive id = true) (hS : ∀ l m, R (l ++ m) → S l) : Tracks R S (h.pollRx id cx).2 := by
  unfold Hub.rxLive at hl
  unfold Hub.pollRx
  split
  · exact ht
  · rename_i c hc
    simp only [hc] at hl
    have hm := ht.mirror id c hc hl
    have key : ∀ c' : Link D, R (c'.delivered ++ c'.queue) → S c'.delivered →
        Tracks R S { h with links := h.links.set id c' } := by
      intro c0 e1 e2
      refine ⟨fun i c' h' ha => ?_, fun i c' h' => ?_⟩
      · rcases getElem?_set_some' h' with ⟨rfl, rfl, -⟩ | ⟨-, h'⟩
        · exact e1
        · exact ht.mirror i c' h' ha
      · rcases getElem?_set_some' h' with ⟨rfl, rfl, -⟩ | ⟨-, h'⟩
        · exact e2
        · exact ht.sound i c' h'
    split
    · rename_i d ds hq
      rw [hq] at hm
      have hm' : R ((c.delivered ++ [d]) ++ ds) := by simpa using hm
      exact key { c with queue := ds, delivered := c.delivered ++ [d] } hm' (hS _ _ hm')
    · rename_i hq
      split
      · exact key { c with waker := some cx } hm (ht.sound id c hc)
      · exact ht

theorem hub_dropRx {h : Hub D} (hw : HubWF h) (id : Nat) : HubWF (h.dropRx id) := by
  unfold Hub.dropRx
  split
  · exact hw
  · rename_i c hc
    refine ⟨hw.nodup, ?_, ?_, ?_, ?_, hw.gone⟩
    · simpa using hw.bound
    · intro i c' h ha hh
      rcases getElem?_set_some' h with ⟨rfl, rfl, -⟩ | ⟨-, h⟩
      · cases ha
      · exact hw.live i c' h ha hh
    · intro i c' h ha
      rcases getElem?_set_some' h with ⟨rfl, rfl, -⟩ | ⟨-, h⟩
      · cases ha
      · exact hw.tx i c' h ha
    · intro i c' x h hx
      rcases getElem?_set_some' h with ⟨rfl, rfl, -⟩ | ⟨-, h⟩
      · cases hx
      · exact hw.waiting i c' x h hx

theorem tracks_dropRx {R S : List D → Prop} {h : Hub D} (ht : Tracks R S h) (id : Nat) :
    Tracks R S (h.dropRx id) := by
  unfold Hub.dropRx
  split
  · exact ht
  · rename_i c hc
    refine ⟨fun i c' h ha => ?_, fun i c' h => ?_⟩
    · rcases getElem?_set_some' h with ⟨rfl, rfl, -⟩ | ⟨-, h⟩
      · cases ha
      · exact ht.mirror i c' h ha
    · rcases getElem?_set_some' h with ⟨rfl, rfl, -⟩ | ⟨-, h⟩
      · exact ht.sound id c hc
      · exact ht.sound i c' h

/-! ## Dropping the last handle -/

/-- Effect of dropping a sender on its channel. -/
def hubClosed (c : Link D) : Link D := { c with txAlive := false, waker := none }

theorem hubDropSenders_spec (ss : List Nat) (h : Hub D) :
    (∀ i : Nat, (hubDropSenders ss h).links[i]? = h.links[i]?.map
      (fun c => if i ∈ ss then hubClosed c else c)) ∧
    (hubDropSenders ss h).handles = h.handles ∧
    (∃ new, (hubDropSenders ss h).woken = h.woken ++ new ∧
      ∀ (i : Nat) c x, i ∈ ss → h.links[i]? = some c → c.waker = some x → x ∈ new) := by
  induction ss generalizing h with
  | nil => exact ⟨fun i => by simp [hubDropSenders], rfl, [], by simp [hubDropSenders]⟩
  | cons s ss ih =>
    obtain ⟨h1, h3, new, h5, h6⟩ := ih (h.dropTx s)
    have hc : ∀ i : Nat, (h.dropTx s).links[i]? = h.links[i]?.map
        (fun c => if i = s then hubClosed c else c) := by
      intro i
      unfold Hub.dropTx
      split
      · rename_i hx
        by_cases hi : i = s
        · subst hi; simp [hx]
        · simp [hi]
      · rename_i c hx
        simp only [List.getElem?_set]
        by_cases hi : s = i
        · subst hi
          have := (List.getElem?_eq_some_iff.1 hx).1
          rw [hx]; simp [this, hubClosed]
        · simp [hi, Ne.symm hi]
    have hv : (h.dropTx s).handles = h.handles := by
      unfold Hub.dropTx; split <;> simp
    refine ⟨fun i => ?_, by simp [hubDropSenders, h3, hv], ?_⟩
    · simp only [hubDropSenders, h1, hc, Option.map_map]
      cases h.links[i]? with
      | none => rfl
      | some c =>
        by_cases hi : i = s <;> by_cases hm : i ∈ ss <;> simp [hi, hm, hubClosed]
    · have hwk : ∃ n1, (h.dropTx s).woken = h.woken ++ n1 ∧
          ∀ c x, h.links[s]? = some c → c.waker = some x → x ∈ n1 := by
        unfold Hub.dropTx
        split
        · rename_i hx; exact ⟨[], by simp, by simp [hx]⟩
        · rename_i c hx
          refine ⟨c.waker.toList, rfl, ?_⟩
          intro c' x hc' hw'
          rw [hx] at hc'; cases hc'
          simp [hw']
      obtain ⟨n1, e1, e2⟩ := hwk
      refine ⟨n1 ++ new, by simp [hubDropSenders, h5, e1], ?_⟩
      intro i c x hi hcx hwx
      by_cases his : i = s
      · subst his; simp [e2 c x hcx hwx]
      · have hi' : i ∈ ss := by simpa [his] using hi
        have := h6 i c x hi' (by simp [hc, hcx, his]) hwx
        simp [this]

/-- The channels after dropping a handle. -/
theorem dropHandle_links {h : Hub D} {i : Nat} {c : Link D} (hc : h.dropHandle.links[i]? = some c) :
    ∃ c', h.links[i]? = some c' ∧ c.rxAlive = c'.rxAlive ∧ c.queue = c'.queue ∧
      c.delivered = c'.delivered ∧ (c = c' ∨ c = hubClosed c') ∧
      (h.handles - 1 = 0 → i ∈ h.senders → c = hubClosed c') ∧
      (h.handles - 1 ≠ 0 → c = c') := by
  unfold Hub.dropHandle at hc
  simp only at hc
  split at hc
  · rename_i h0
    obtain ⟨h1, -⟩ := hubDropSenders_spec h.senders { h with handles := h.handles - 1 }
    rw [h1] at hc
    simp only at hc
    cases hx : h.links[i]? with
    | none => simp [hx] at hc
    | some c' =>
      simp only [hx, Option.map_some, Option.some.injEq] at hc
      refine ⟨c', rfl, ?_⟩
      by_cases hi : i ∈ h.senders
      · simp only [hi, ↓reduceIte] at hc; subst hc
        exact ⟨rfl, rfl, rfl, .inr rfl, fun _ _ => rfl, fun hn => absurd h0 hn⟩
      · simp only [hi, ↓reduceIte] at hc; subst hc
        exact ⟨rfl, rfl, rfl, .inl rfl, fun _ h => absurd h hi, fun hn => absurd h0 hn⟩
  · rename_i h0
    exact ⟨c, hc, rfl, rfl, rfl, .inl rfl, fun h => absurd h h0, fun _ => rfl⟩

theorem dropHandle_handles (h : Hub D) : h.dropHandle.handles = h.handles - 1 := by
  unfold Hub.dropHandle
  simp only
  split
  · exact (hubDropSenders_spec h.senders { h with handles := h.handles - 1 }).2.1
  · rfl

theorem hub_dropHandle {h : Hub D} (hw : HubWF h) (hh : h.handles ≠ 0) : HubWF h.dropHandle := by
  have hsend : h.handles - 1 = 0 → h.dropHandle.senders = [] := by
    intro h0; unfold Hub.dropHandle; simp [h0]
  have hsend' : h.handles - 1 ≠ 0 → h.dropHandle.senders = h.senders ∧
      h.dropHandle.links = h.links := by
    intro h0; unfold Hub.dropHandle; simp [h0]
  by_cases h0 : h.handles - 1 = 0
  · refine ⟨by simp [hsend h0], by simp [hsend h0], ?_, ?_, ?_, fun _ => hsend h0⟩
    · intro i c hc ha hn
      rw [dropHandle_handles] at hn
      exact absurd h0 hn
    · intro i c hc ha
      obtain ⟨c', hx, e1, -, -, -, e5, -⟩ := dropHandle_links hc
      rw [dropHandle_handles]
      rw [e5 h0 (hw.live i c' hx (e1 ▸ ha) hh)]
      simp [hubClosed, h0]
    · intro i c x hc hwk
      obtain ⟨c', hx, e1, e2, -, e4, e5, -⟩ := dropHandle_links hc
      rcases e4 with rfl | rfl
      · have := (hw.waiting i c x hx hwk).2.2
        have := e5 h0 (hw.live i c hx this hh)
        rw [this] at hwk
        cases hwk
      · cases hwk
  · obtain ⟨s1, s2⟩ := hsend' h0
    refine ⟨s1 ▸ hw.nodup, by rw [s1, s2]; exact hw.bound, ?_, ?_, ?_, ?_⟩
    · intro i c hc ha _
      rw [s2] at hc; rw [s1]
      exact hw.live i c hc ha hh
    · intro i c hc ha
      rw [s2] at hc
      rw [dropHandle_handles]
      have := hw.tx i c hc ha
      simp only [ne_eq, hh, not_false_eq_true, iff_true] at this
      simp [this, h0]
    · rw [s2]; exact hw.waiting
    · intro h1; rw [dropHandle_handles] at h1; exact absurd h1 h0

theorem tracks_dropHandle {R S : List D → Prop} {h : Hub D} (ht : Tracks R S h) :
    Tracks R S h.dropHandle := by
  refine ⟨fun i c hc ha => ?_, fun i c hc => ?_⟩
  · obtain ⟨c', hx, e1, e2, e3, -⟩ := dropHandle_links hc
    rw [e2, e3]; exact ht.mirror i c' hx (e1 ▸ ha)
  · obtain ⟨c', hx, e1, e2, e3, -⟩ := dropHandle_links hc
    rw [e3]; exact ht.sound i c' hx

theorem hub_clone {h : Hub D} (hw : HubWF h) (hh : h.handles ≠ 0) :
    HubWF { h with handles := h.handles + 1 } := by
  refine ⟨hw.nodup, hw.bound, fun i c hc ha _ => hw.live i c hc ha hh, ?_, hw.waiting,
    fun h => by simp at h⟩
  intro i c hc ha
  have := hw.tx i c hc ha
  simp only [ne_eq, hh, not_false_eq_true, iff_true] at this
  simp [this]

/-! ## Event sequences and wake-ups -/

/-- What a user of a hub can do. -/
inductive HubEv (D : Type) where
  | notify (d : D)
  | subscribe (first : List D)
  | poll (id : Nat) (cx : Waker)
  | dropRx (id : Nat)
  | cloneHandle
  | dropHandle

/-- One event; events that need a handle or receiver that is gone do nothing. -/
def Hub.step (h : Hub D) : HubEv D → Hub D
  | .notify d => if h.handles = 0 then h else h.notify d
  | .subscribe first => if h.handles = 0 then h else h.subscribe first
  | .poll id cx => if h.rxLive id then (h.pollRx id cx).2 else h
  | .dropRx id => if h.rxLive id then h.dropRx id else h
  | .cloneHandle => if h.handles = 0 then h else { h with handles := h.handles + 1 }
  | .dropHandle => if h.handles = 0 then h else h.dropHandle

def Hub.steps (h : Hub D) (es : List (HubEv D)) : Hub D := es.foldl Hub.step h

theorem hub_step {h : Hub D} (hw : HubWF h) (e : HubEv D) : HubWF (h.step e) := by
  cases e with
  | notify d =>
    simp only [Hub.step]; split
    · exact hw
    · exact (hub_notify hw (by assumption) d).1
  | subscribe first =>
    simp only [Hub.step]; split
    · exact hw
    · exact hub_subscribe hw (by assumption) first
  | poll id cx =>
    simp only [Hub.step]; split
    · exact hub_poll hw id cx (by assumption)
    · exact hw
  | dropRx id =>
    simp only [Hub.step]; split
    · exact hub_dropRx hw id
    · exact hw
  | cloneHandle =>
    simp only [Hub.step]; split
    · exact hw
    · exact hub_clone hw (by assumption)
  | dropHandle =>
    simp only [Hub.step]; split
    · exact hw
    · exact hub_dropHandle hw (by assumption)

theorem hub_steps {h : Hub D} (hw : HubWF h) (es : List (HubEv D)) : HubWF (h.steps es) := by
  induction es generalizing h with
  | nil => exact hw
  | cons e es ih => exact ih (hub_step hw e)

theorem pollRx_woken (h : Hub D) (id : Nat) (cx : Waker) :
    (h.pollRx id cx).2.woken = h.woken := by
  unfold Hub.pollRx
  split
  · rfl
  · split
    · rfl
    · split <;> rfl

theorem pollRx_other' (h : Hub D) (id k : Nat) (cx : Waker) (hid : id ≠ k) :
    (h.pollRx id cx).2.links[k]? = h.links[k]? := by
  unfold Hub.pollRx
  split
  · rfl
  · split
    · simp [hid]
    · split
      · simp [hid]
      · rfl

/-- One event: the log of woken wakers only grows, and a waiting receiver is woken or still
waiting. -/
theorem hub_step_wake {h : Hub D} (hw : HubWF h) (e : HubEv D) :
    ∃ new, (h.step e).woken = h.woken ++ new ∧
      ∀ k c x, h.links[k]? = some c → c.waker = some x →
        (∀ cx, e ≠ .poll k cx) → e ≠ .dropRx k →
        (x ∈ new ∨ ∃ c', (h.step e).links[k]? = some c' ∧ c'.waker = some x) := by
  cases e with
  | notify d =>
    simp only [Hub.step]
    by_cases hh : h.handles = 0
    · simp only [hh, ↓reduceIte]
      exact ⟨[], by simp, fun k c x hc hx _ _ => .inr ⟨c, hc, hx⟩⟩
    · simp only [hh, ↓reduceIte]
      obtain ⟨-, h2, -, -, h5⟩ := hub_notify hw hh d
      refine ⟨_, h5, fun k c x hc hx _ _ => .inl ?_⟩
      have hl := (hw.waiting k c x hc hx).2.2
      rw [List.mem_flatMap]
      exact ⟨k, hw.live k c hc hl hh, by simp [hubWakes, hc, hl, hx]⟩
  | subscribe first =>
    simp only [Hub.step]
    by_cases hh : h.handles = 0
    · simp only [hh, ↓reduceIte]
      exact ⟨[], by simp, fun k c x hc hx _ _ => .inr ⟨c, hc, hx⟩⟩
    · simp only [hh, ↓reduceIte]
      refine ⟨[], by simp [Hub.subscribe], fun k c x hc hx _ _ => .inr ⟨c, ?_, hx⟩⟩
      have := (List.getElem?_eq_some_iff.1 hc).1
      simp only [Hub.subscribe]
      rw [List.getElem?_append_left this, hc]
  | poll id cx =>
    simp only [Hub.step]
    by_cases hl : h.rxLive id = true
    · simp only [hl, ↓reduceIte]
      refine ⟨[], by simp [pollRx_woken], fun k c x hc hx hp _ => .inr ⟨c, ?_, hx⟩⟩
      have hid : id ≠ k := fun h => hp cx (by rw [h])
      rw [pollRx_other' h id k cx hid, hc]
    · simp only [hl]
      exact ⟨[], by simp, fun k c x hc hx _ _ => .inr ⟨c, hc, hx⟩⟩
  | dropRx id =>
    simp only [Hub.step]
    by_cases hl : h.rxLive id = true
    · simp only [hl, ↓reduceIte]
      refine ⟨[], ?_, fun k c x hc hx _ hd => .inr ⟨c, ?_, hx⟩⟩
      · unfold Hub.dropRx; split <;> simp
      · have hid : id ≠ k := fun h => hd (by rw [h])
        unfold Hub.dropRx
        split
        · exact hc
        · simp [hid, hc]
    · simp only [hl]
      exact ⟨[], by simp, fun k c x hc hx _ _ => .inr ⟨c, hc, hx⟩⟩
  | cloneHandle =>
    simp only [Hub.step]
    by_cases hh : h.handles = 0
    · simp only [hh, ↓reduceIte]
      exact ⟨[], by simp, fun k c x hc hx _ _ => .inr ⟨c, hc, hx⟩⟩
    · simp only [hh, ↓reduceIte]
      exact ⟨[], by simp, fun k c x hc hx _ _ => .inr ⟨c, hc, hx⟩⟩
  | dropHandle =>
    simp only [Hub.step]
    by_cases hh : h.handles = 0
    · simp only [hh, ↓reduceIte]
      exact ⟨[], by simp, fun k c x hc hx _ _ => .inr ⟨c, hc, hx⟩⟩
    · simp only [hh, ↓reduceIte]
      unfold Hub.dropHandle
      simp only
      split
      · obtain ⟨-, -, new, h5, h6⟩ :=
          hubDropSenders_spec h.senders { h with handles := h.handles - 1 }
        refine ⟨new, h5, fun k c x hc hx _ _ => .inl ?_⟩
        exact h6 k c x (hw.live k c hc (hw.waiting k c x hc hx).2.2 hh) hc hx
      · exact ⟨[], by simp, fun k c x hc hx _ _ => .inr ⟨c, hc, hx⟩⟩

theorem hub_steps_wake {h : Hub D} (hw : HubWF h) (es : List (HubEv D)) :
    ∃ new, (h.steps es).woken = h.woken ++ new ∧
      ∀ k c x, h.links[k]? = some c → c.waker = some x →
        (∀ cx, .poll k cx ∉ es) → .dropRx k ∉ es →
        (x ∈ new ∨ ∃ c', (h.steps es).links[k]? = some c' ∧ c'.waker = some x) := by
  induction es generalizing h with
  | nil => exact ⟨[], by simp [Hub.steps], fun k c x hc hx _ _ => .inr ⟨c, hc, hx⟩⟩
  | cons e es ih =>
    obtain ⟨n1, h1, h2⟩ := hub_step_wake hw e
    obtain ⟨n2, h3, h4⟩ := ih (hub_step hw e)
    refine ⟨n1 ++ n2, ?_, fun k c x hc hx hp hd => ?_⟩
    · simp only [Hub.steps, List.foldl_cons] at h3 ⊢
      rw [h3, h1, List.append_assoc]
    · rcases h2 k c x hc hx (fun cx he => hp cx (by simp [he])) (fun he => hd (by simp [he]))
        with h' | ⟨c', hc', hx'⟩
      · exact .inl (by simp [h'])
      · rcases h4 k c' x hc' hx' (fun cx hm => hp cx (by simp [hm])) (fun hm => hd (by simp [hm]))
          with h' | h'
        · exact .inl (by simp [h'])
        · exact .inr h'

/-! ## The delivery log -/

/-- What a channel has delivered (nothing before the subscription). -/
def Hub.log (h : Hub D) (k : Nat) : List D :=
  match h.links[k]? with
  | some c => c.delivered
  | none => []

theorem hub_log_of_map {h h' : Hub D} {k : Nat} {f : Link D → Link D}
    (hf : ∀ c, (f c).delivered = c.delivered) (e : h'.links[k]? = h.links[k]?.map f) :
    h'.log k = h.log k := by
  unfold Hub.log
  rw [e]
  cases h.links[k]? <;> simp [hf]

/-- What one event delivers to receiver `k`. -/
def Hub.delivers (h : Hub D) (k : Nat) : HubEv D → List D
  | .poll id cx =>
    if id = k ∧ h.rxLive k = true then
      match (h.pollRx k cx).1 with
      | .ready (some d) => [d]
      | _ => []
    else []
  | _ => []

theorem hub_step_log {h : Hub D} (hw : HubWF h) (e : HubEv D) (k : Nat) :
    (h.step e).log k = h.log k ++ h.delivers k e := by
  cases e with
  | notify d =>
    simp only [Hub.step, Hub.delivers, List.append_nil]
    split
    · rfl
    · exact hub_log_of_map (hubPush_delivered d) ((hub_notify hw (by assumption) d).2.1 k)
  | subscribe first =>
    simp only [Hub.step, Hub.delivers, List.append_nil]
    split
    · rfl
    · unfold Hub.log Hub.subscribe
      simp only
      rcases Nat.lt_trichotomy k h.links.length with hk | hk | hk
      · rw [List.getElem?_append_left hk]
      · subst hk; simp
      · rw [List.getElem?_eq_none (by simp; omega), List.getElem?_eq_none (by omega)]
  | poll id cx =>
    simp only [Hub.step, Hub.delivers]
    by_cases hl : h.rxLive id = true
    · simp only [hl, ↓reduceIte]
      by_cases hid : id = k
      · subst hid
        simp only [hl, and_self, ↓reduceIte]
        unfold Hub.log Hub.pollRx
        cases hc : h.links[id]? with
        | none => simp [hc]
        | some c =>
          have := (List.getElem?_eq_some_iff.1 hc).1
          cases hq : c.queue with
          | cons d ds => simp [this, hq]
          | nil =>
            by_cases ht : c.txAlive = true
            · simp [ht, this, hq]
            · simp [ht, hq, hc]
      · simp only [hid, false_and, ↓reduceIte, List.append_nil]
        unfold Hub.log; rw [pollRx_other' h id k cx hid]
    · have : ¬ (id = k ∧ h.rxLive k = true) := by rintro ⟨rfl, h⟩; exact hl h
      simp [this, hl]
  | dropRx id =>
    simp only [Hub.step, Hub.delivers, List.append_nil]
    split
    · unfold Hub.dropRx
      split
      · rfl
      · rename_i c hc
        unfold Hub.log
        by_cases hid : id = k
        · subst hid
          obtain ⟨h1, h2⟩ := List.getElem?_eq_some_iff.1 hc
          simp [h1, h2]
        · simp [hid]
    · rfl
  | cloneHandle =>
    simp only [Hub.step, Hub.delivers, List.append_nil]
    split <;> rfl
  | dropHandle =>
    simp only [Hub.step, Hub.delivers, List.append_nil]
    split
    · rfl
    · unfold Hub.log
      cases hc : h.dropHandle.links[k]? with
      | some c =>
        obtain ⟨c', hx, -, -, e3, -⟩ := dropHandle_links hc
        simp [hx, e3]
      | none =>
        have : h.links[k]? = none := by
          unfold Hub.dropHandle at hc
          simp only at hc
          split at hc
          · obtain ⟨h1, -⟩ := hubDropSenders_spec h.senders { h with handles := h.handles - 1 }
            rw [h1] at hc
            simpa using hc
          · exact hc
        rw [this]

end Verif
