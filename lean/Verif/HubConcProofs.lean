import Verif.HubConc
import Verif.HubProofs
import Mathlib.Data.List.Perm.Subperm

/-!
# Invariants of broadcasting while subscribers run
-/

namespace Verif.HubConc

variable {S D O : Type}

/-- What the running call still has to send to subscriber `i`. -/
def Job.due (j : Job S D) (i : Nat) : List D :=
  (match j.cur with
    | some (d, todo, _) => if i ∈ todo then [d] else []
    | none => []) ++ j.rest

/-- The diffs of the running call not yet completely broadcast. -/
def Job.left (j : Job S D) : List D :=
  match j.cur with
  | some (d, _, _) => d :: j.rest
  | none => j.rest

/-- The running `retain` has not yet visited, or keeps, every live subscriber. -/
def Job.Fits (j : Job S D) (h : Hub D) : Prop :=
  ∀ d todo kept, j.cur = some (d, todo, kept) →
    (todo ++ kept).Nodup ∧ (∀ s ∈ todo ++ kept, s < h.links.length) ∧
    (∀ (i : Nat) c, h.links[i]? = some c → c.rxAlive = true → i ∈ todo ++ kept)

structure Inv (R : S → List D → Prop) (w : World S D) : Prop where
  nodup : w.hub.senders.Nodup
  bound : ∀ s ∈ w.hub.senders, s < w.hub.links.length
  live : ∀ (i : Nat) c, w.hub.links[i]? = some c → c.rxAlive = true → w.hub.handles ≠ 0 →
    i ∈ w.hub.senders
  tx : ∀ (i : Nat) c, w.hub.links[i]? = some c → c.rxAlive = true →
    (c.txAlive = true ↔ w.hub.handles ≠ 0 ∨ i ∈ w.closing)
  waiting : ∀ (i : Nat) c x, w.hub.links[i]? = some c → c.waker = some x →
    c.queue = [] ∧ c.txAlive = true ∧ c.rxAlive = true
  gone : w.hub.handles = 0 → w.hub.senders = [] ∧ w.job = none
  still : w.hub.handles ≠ 0 → w.closing = []
  cnodup : w.closing.Nodup
  sound : ∀ (i : Nat) c, w.hub.links[i]? = some c → c.rxAlive = false →
    ∃ s l, R s (c.delivered ++ l)
  free : w.job = none → ∀ (i : Nat) c, w.hub.links[i]? = some c → c.rxAlive = true →
    R w.values (c.delivered ++ c.queue)
  busy : ∀ j, w.job = some j → j.Fits w.hub ∧ (∃ p, j.all = p ++ j.left) ∧
    (∀ X, R j.old X → R w.values (X ++ j.all)) ∧
    ∀ (i : Nat) c, w.hub.links[i]? = some c → c.rxAlive = true →
      ∃ X, R j.old X ∧ c.delivered ++ c.queue ++ j.due i = X ++ j.all

variable {R : S → List D → Prop}

/-- The contents will be reached. -/
theorem Inv.reach {w : World S D} (hi : Inv R w) {i : Nat} {c : Link D}
    (hc : w.hub.links[i]? = some c) (ha : c.rxAlive = true) :
    ∃ l, R w.values (c.delivered ++ l) := by
  cases hj : w.job with
  | none => exact ⟨_, hi.free hj i c hc ha⟩
  | some j =>
    obtain ⟨-, -, h3, h4⟩ := hi.busy j hj
    obtain ⟨X, h5, h6⟩ := h4 i c hc ha
    refine ⟨c.queue ++ j.due i, ?_⟩
    rw [← List.append_assoc, h6]
    exact h3 X h5

theorem inv_init (s : S) : Inv R (World.init s : World S D) where
  nodup := by simp [World.init]
  bound := by simp [World.init]
  live := by simp [World.init]
  tx := by simp [World.init]
  waiting := by simp [World.init]
  gone := by simp [World.init]
  still := by simp [World.init]
  cnodup := by simp [World.init]
  sound := by simp [World.init]
  free := by simp [World.init]
  busy := by simp [World.init]

theorem inv_send {w : World S D} (hi : Inv R w) {j : Job S D} (hj : w.job = some j) {d : D} {s : Nat}
    {todo kept : List Nat} (hc : j.cur = some (d, s :: todo, kept)) :
    Inv R { w with
      hub := (w.hub.send s d).2,
      job := some { j with
        cur := some (d, todo, if (w.hub.send s d).1 then kept ++ [s] else kept) } } := by
  obtain ⟨h1, h2, h3, h4⟩ := hi.busy j hj
  obtain ⟨g1, g2, g3⟩ := h1 d _ _ hc
  obtain ⟨e1, e2, e3, e4⟩ := hub_send_rest w.hub s d
  have el := hub_send_links w.hub s d
  have inv : ∀ (i : Nat) c, (w.hub.send s d).2.links[i]? = some c →
      ∃ c', w.hub.links[i]? = some c' ∧ c = hubHit [s] d i c' := by
    intro i c hx
    rw [el] at hx
    cases hx' : w.hub.links[i]? with
    | none => simp [hx'] at hx
    | some c' => simp [hx'] at hx; exact ⟨c', rfl, hx.symm⟩
  have hh : w.hub.handles ≠ 0 := fun h0 => by have := (hi.gone h0).2; rw [hj] at this; cases this
  have hd : ∀ i (c : Link D), (hubHit [s] d i c).delivered = c.delivered := by
    intro i c; unfold hubHit; split <;> rfl
  have ht : ∀ i (c : Link D), (hubHit [s] d i c).txAlive = c.txAlive := by
    intro i c; unfold hubHit; split <;> rfl
  have hsub : ∀ x, x ∈ todo ++ (if (w.hub.send s d).1 then kept ++ [s] else kept) →
      x ∈ s :: todo ++ kept := by
    intro x hx
    split at hx <;> simp only [List.mem_append, List.mem_cons, List.mem_singleton,
      List.not_mem_nil, or_false] at hx ⊢ <;> grind
  refine ⟨by rw [e1]; exact hi.nodup, by rw [e1, e4]; exact hi.bound, ?_, ?_, ?_,
    by rw [e2]; exact fun h => absurd h hh, by rw [e2]; exact hi.still, hi.cnodup, ?_, by simp, ?_⟩
  · intro i c hx ha _
    obtain ⟨c', hx', rfl⟩ := inv i c hx
    rw [hubHit_rxAlive] at ha
    rw [e1]
    exact hi.live i c' hx' ha hh
  · intro i c hx ha
    obtain ⟨c', hx', rfl⟩ := inv i c hx
    rw [hubHit_rxAlive] at ha
    rw [e2, ht]
    exact hi.tx i c' hx' ha
  · intro i c x hx hk
    obtain ⟨c', hx', rfl⟩ := inv i c hx
    unfold hubHit at hk ⊢
    split at hk
    · cases hk
    · rename_i hn
      rw [if_neg hn]
      exact hi.waiting i c' x hx' hk
  · intro i c hx ha
    obtain ⟨c', hx', rfl⟩ := inv i c hx
    rw [hubHit_rxAlive] at ha
    rw [hd]
    exact hi.sound i c' hx' ha
  · intro j' hj'
    simp only [Option.some.injEq] at hj'
    subst hj'
    refine ⟨?_, ?_, h3, ?_⟩
    · intro d' t k hcur
      simp only [Option.some.injEq, Prod.mk.injEq] at hcur
      obtain ⟨rfl, rfl, rfl⟩ := hcur
      refine ⟨?_, ?_, ?_⟩
      · rw [List.cons_append, List.nodup_cons] at g1
        split
        · rw [← List.append_assoc, List.nodup_append]
          refine ⟨g1.2, by simp, ?_⟩
          intro a ha b hb
          simp only [List.mem_singleton] at hb
          rintro rfl
          exact g1.1 (hb ▸ ha)
        · exact g1.2
      · intro x hx
        rw [e4]
        exact g2 x (hsub x hx)
      · intro i c hx ha
        obtain ⟨c', hx', rfl⟩ := inv i c hx
        rw [hubHit_rxAlive] at ha
        have := g3 i c' hx' ha
        rw [hub_send_fst]
        by_cases his : i = s
        · subst his
          simp [Hub.rxLive, hx', ha]
        · simp only [List.mem_append, List.mem_cons, his, false_or] at this ⊢
          split <;> grind
    · simpa [Job.left, hc] using h2
    · intro i c hx ha
      obtain ⟨c', hx', rfl⟩ := inv i c hx
      rw [hubHit_rxAlive] at ha
      obtain ⟨X, h5, h6⟩ := h4 i c' hx' ha
      refine ⟨X, h5, ?_⟩
      rw [← h6, hd]
      simp only [Job.due, hc]
      by_cases his : i = s
      · subst his
        have : i ∉ todo := by
          rw [List.cons_append, List.nodup_cons] at g1
          exact fun h => g1.1 (List.mem_append_left _ h)
        simp [hubHit, ha, this]
      · simp [hubHit, his]

theorem inv_tick {w w' : World S D} (hi : Inv R w) (h : w.tick = some w') : Inv R w' := by
  unfold World.tick at h
  split at h
  · rename_i hj
    split at h
    · cases h
    · rename_i s ss hcl
      cases h
      have hh : w.hub.handles = 0 := by
        refine Decidable.byContradiction fun h0 => ?_
        have := hi.still h0
        rw [hcl] at this; cases this
      have hcn := hi.cnodup
      rw [hcl, List.nodup_cons] at hcn
      have hr : (w.hub.dropTx s).senders = w.hub.senders ∧
          (w.hub.dropTx s).handles = w.hub.handles ∧
          (w.hub.dropTx s).links.length = w.hub.links.length := by
        unfold Hub.dropTx; split <;> simp
      have inv : ∀ (i : Nat) c, (w.hub.dropTx s).links[i]? = some c →
          ∃ c', w.hub.links[i]? = some c' ∧
            c = if i = s then { c' with txAlive := false, waker := none } else c' := by
        intro i c hx
        unfold Hub.dropTx at hx
        split at hx
        · rename_i hn
          refine ⟨c, hx, ?_⟩
          have : i ≠ s := by rintro rfl; rw [hn] at hx; cases hx
          simp [this]
        · rename_i c0 h0
          rcases getElem?_set_some' hx with ⟨rfl, rfl, -⟩ | ⟨hne, hx'⟩
          · exact ⟨c0, h0, by simp⟩
          · exact ⟨c, hx', by simp [Ne.symm hne]⟩
      refine ⟨by rw [hr.1]; exact hi.nodup, by rw [hr.1, hr.2.2]; exact hi.bound, ?_, ?_, ?_,
        by rw [hr.1, hr.2.1]; exact hi.gone, by rw [hr.2.1]; exact fun h => absurd hh h, hcn.2,
        ?_, ?_, by simp [hj]⟩
      · rw [hr.2.1]; exact fun _ _ _ _ h => absurd hh h
      · intro i c hx ha
        obtain ⟨c', hx', rfl⟩ := inv i c hx
        rw [hr.2.1]
        simp only [hh, ne_eq, not_true_eq_false, false_or]
        by_cases his : i = s
        · subst his
          simp [hcn.1]
        · simp only [his, ↓reduceIte] at ha ⊢
          have := hi.tx i c' hx' ha
          simpa [hh, hcl, his] using this
      · intro i c x hx hk
        obtain ⟨c', hx', rfl⟩ := inv i c hx
        by_cases his : i = s
        · simp [his] at hk
        · simp only [his, ↓reduceIte] at hk ⊢
          exact hi.waiting i c' x hx' hk
      · intro i c hx ha
        obtain ⟨c', hx', rfl⟩ := inv i c hx
        have e1 : ∀ c' : Link D, (if i = s then { c' with txAlive := false, waker := none } else c').rxAlive
            = c'.rxAlive := by intro c'; split <;> rfl
        have e2 : ∀ c' : Link D, (if i = s then { c' with txAlive := false, waker := none } else c').delivered
            = c'.delivered := by intro c'; split <;> rfl
        rw [e1] at ha
        rw [e2]
        exact hi.sound i c' hx' ha
      · intro _ i c hx ha
        obtain ⟨c', hx', rfl⟩ := inv i c hx
        have := hi.free hj i c' hx'
        by_cases his : i = s <;> simp only [his, ↓reduceIte] at ha ⊢ <;> exact this ha
  · rename_i j hj
    have hh : w.hub.handles ≠ 0 := fun h0 => by have := (hi.gone h0).2; rw [hj] at this; cases this
    obtain ⟨h1, h2, h3, h4⟩ := hi.busy j hj
    split at h
    · rename_i d s todo kept hc
      cases h
      exact inv_send hi hj hc
    · rename_i d kept hc
      cases h
      obtain ⟨g1, g2, g3⟩ := h1 d _ _ hc
      refine ⟨by simpa using g1, by simpa using g2, fun i c hx ha _ => by simpa using g3 i c hx ha,
        hi.tx, hi.waiting, fun h => absurd h hh, hi.still, hi.cnodup, hi.sound, by simp, ?_⟩
      intro j' hj'
      simp only [Option.some.injEq] at hj'
      subst hj'
      refine ⟨fun _ _ _ h => (by cases h), ?_, h3, ?_⟩
      · obtain ⟨p, hp⟩ := h2
        exact ⟨p ++ [d], by simp [hp, Job.left, hc]⟩
      · intro i c hx ha
        obtain ⟨X, h5, h6⟩ := h4 i c hx ha
        exact ⟨X, h5, by rw [← h6]; simp [Job.due, hc]⟩
    · rename_i hc
      split at h
      · rename_i d ds hr
        cases h
        refine ⟨hi.nodup, hi.bound, hi.live, hi.tx, hi.waiting, fun h => absurd h hh, hi.still,
          hi.cnodup, hi.sound, by simp, ?_⟩
        intro j' hj'
        simp only [Option.some.injEq] at hj'
        subst hj'
        refine ⟨?_, ?_, h3, ?_⟩
        · intro d' t k hcur
          simp only [Option.some.injEq, Prod.mk.injEq] at hcur
          obtain ⟨rfl, rfl, rfl⟩ := hcur
          refine ⟨by simpa using hi.nodup, by simpa using hi.bound, fun i c hx ha => ?_⟩
          simpa using hi.live i c hx ha hh
        · simpa [Job.left, hc, hr] using h2
        · intro i c hx ha
          obtain ⟨X, h5, h6⟩ := h4 i c hx ha
          have := hi.live i c hx ha hh
          exact ⟨X, h5, by rw [← h6]; simp [Job.due, hc, hr, this]⟩
      · rename_i hr
        cases h
        refine ⟨hi.nodup, hi.bound, hi.live, hi.tx, hi.waiting, fun h => absurd h hh, hi.still,
          hi.cnodup, hi.sound, ?_, by simp⟩
        intro _ i c hx ha
        obtain ⟨X, h5, h6⟩ := h4 i c hx ha
        simp only [Job.due, hc, hr, List.append_nil] at h6
        rw [h6]
        exact h3 X h5

/-- A change of the links that keeps what matters. -/
theorem inv_links {w : World S D} (hi : Inv R w) {h' : Hub D}
    (hs : h'.senders = w.hub.senders) (hh : h'.handles = w.hub.handles)
    (hlen : h'.links.length = w.hub.links.length)
    (inv : ∀ (i : Nat) c, h'.links[i]? = some c →
      ∃ c', w.hub.links[i]? = some c' ∧ (c.rxAlive = true → c'.rxAlive = true ∧
          c.txAlive = c'.txAlive ∧ c.delivered ++ c.queue = c'.delivered ++ c'.queue) ∧
        (c.rxAlive = false → c.delivered = c'.delivered) ∧
        (∀ x, c.waker = some x → c.queue = [] ∧ c.txAlive = true ∧ c.rxAlive = true)) :
    Inv R { w with hub := h' } := by
  refine ⟨by rw [hs]; exact hi.nodup, by rw [hs, hlen]; exact hi.bound, ?_, ?_, ?_,
    by rw [hs, hh]; exact hi.gone, by rw [hh]; exact hi.still, hi.cnodup, ?_, ?_, ?_⟩
  · intro i c hx ha h0
    obtain ⟨c', hx', h1, -⟩ := inv i c hx
    rw [hs]
    rw [hh] at h0
    exact hi.live i c' hx' (h1 ha).1 h0
  · intro i c hx ha
    obtain ⟨c', hx', h1, -⟩ := inv i c hx
    rw [hh, (h1 ha).2.1]
    exact hi.tx i c' hx' (h1 ha).1
  · intro i c x hx hk
    obtain ⟨c', hx', -, -, h3⟩ := inv i c hx
    exact h3 x hk
  · intro i c hx ha
    obtain ⟨c', hx', -, h2, -⟩ := inv i c hx
    rw [h2 ha]
    cases ha' : c'.rxAlive with
    | false => exact hi.sound i c' hx' ha'
    | true => exact ⟨_, hi.reach hx' ha'⟩
  · intro hj i c hx ha
    obtain ⟨c', hx', h1, -⟩ := inv i c hx
    rw [(h1 ha).2.2]
    exact hi.free hj i c' hx' (h1 ha).1
  · intro j hj
    obtain ⟨h1, h2, h3, h4⟩ := hi.busy j hj
    refine ⟨?_, h2, h3, ?_⟩
    · intro d t k hc
      obtain ⟨g1, g2, g3⟩ := h1 d t k hc
      refine ⟨g1, by rw [hlen]; exact g2, fun i c hx ha => ?_⟩
      obtain ⟨c', hx', h1, -⟩ := inv i c hx
      exact g3 i c' hx' (h1 ha).1
    · intro i c hx ha
      obtain ⟨c', hx', h1, -⟩ := inv i c hx
      rw [(h1 ha).2.2]
      exact h4 i c' hx' (h1 ha).1

theorem inv_poll {w : World S D} (hi : Inv R w) (id : Nat) (cx : Waker)
    (hl : w.hub.rxLive id = true) : Inv R { w with hub := (w.hub.pollRx id cx).2 } := by
  have same : ∀ (i : Nat) c, w.hub.links[i]? = some c →
      ∃ c', w.hub.links[i]? = some c' ∧ (c.rxAlive = true → c'.rxAlive = true ∧
          c.txAlive = c'.txAlive ∧ c.delivered ++ c.queue = c'.delivered ++ c'.queue) ∧
        (c.rxAlive = false → c.delivered = c'.delivered) ∧
        (∀ x, c.waker = some x → c.queue = [] ∧ c.txAlive = true ∧ c.rxAlive = true) :=
    fun i c hx => ⟨c, hx, fun h => ⟨h, rfl, rfl⟩, fun _ => rfl, fun x => hi.waiting i c x hx⟩
  unfold Hub.pollRx
  split
  · exact hi
  · rename_i c0 h0
    have ha0 : c0.rxAlive = true := by simpa [Hub.rxLive, h0] using hl
    split
    · rename_i d ds hq
      refine inv_links hi rfl rfl (by simp) fun i c hx => ?_
      rcases getElem?_set_some' hx with ⟨rfl, rfl, -⟩ | ⟨hne, hx'⟩
      · refine ⟨c0, h0, fun _ => ⟨ha0, rfl, by simp [hq]⟩, fun h => ?_, fun x hk => ?_⟩
        · simp [ha0] at h
        · have := (hi.waiting id c0 x h0 hk).1
          rw [hq] at this; cases this
      · exact same i c hx'
    · rename_i hq
      split
      · rename_i htx
        refine inv_links hi rfl rfl (by simp) fun i c hx => ?_
        rcases getElem?_set_some' hx with ⟨rfl, rfl, -⟩ | ⟨hne, hx'⟩
        · exact ⟨c0, h0, fun _ => ⟨ha0, rfl, rfl⟩, fun h => rfl, fun x _ => ⟨hq, htx, ha0⟩⟩
        · exact same i c hx'
      · exact hi

theorem inv_dropRx {w : World S D} (hi : Inv R w) (id : Nat) :
    Inv R { w with hub := w.hub.dropRx id } := by
  unfold Hub.dropRx
  split
  · exact hi
  · rename_i c0 h0
    refine inv_links hi rfl rfl (by simp) fun i c hx => ?_
    rcases getElem?_set_some' hx with ⟨rfl, rfl, -⟩ | ⟨hne, hx'⟩
    · exact ⟨c0, h0, by simp, fun h => rfl, by simp⟩
    · exact ⟨c, hx', fun h => ⟨h, rfl, rfl⟩, fun _ => rfl, fun x => hi.waiting i c x hx'⟩

theorem inv_subscribe {w : World S D} (hi : Inv R w) (hh : w.hub.handles ≠ 0) (hj : w.job = none)
    {first : List D} (hf : R w.values first) :
    Inv R { w with hub := w.hub.subscribe first } := by
  have inv : ∀ (i : Nat) c, (w.hub.subscribe first).links[i]? = some c →
      w.hub.links[i]? = some c ∨ (i = w.hub.links.length ∧ c = ⟨first, true, true, none, []⟩) :=
    fun i c hx => subscribe_cases hx
  refine ⟨?_, ?_, ?_, ?_, ?_, fun h => absurd h hh, hi.still, hi.cnodup, ?_, ?_, by simp [hj]⟩
  · show (w.hub.senders ++ [w.hub.links.length]).Nodup
    rw [List.nodup_append]
    refine ⟨hi.nodup, by simp, ?_⟩
    intro a ha b hb
    simp at hb
    have := hi.bound a ha
    omega
  · intro s hs
    simp only [Hub.subscribe, List.mem_append, List.mem_singleton, List.length_append,
      List.length_cons, List.length_nil] at hs ⊢
    rcases hs with hs | hs
    · have := hi.bound s hs; omega
    · omega
  · intro i c hx ha _
    rcases inv i c hx with h | ⟨rfl, -⟩
    · exact List.mem_append_left _ (hi.live i c h ha hh)
    · simp [Hub.subscribe]
  · intro i c hx ha
    rcases inv i c hx with h | ⟨rfl, rfl⟩
    · exact hi.tx i c h ha
    · simp [Hub.subscribe, hh]
  · intro i c x hx hk
    rcases inv i c hx with h | ⟨rfl, rfl⟩
    · exact hi.waiting i c x h hk
    · cases hk
  · intro i c hx ha
    rcases inv i c hx with h | ⟨rfl, rfl⟩
    · exact hi.sound i c h ha
    · cases ha
  · intro _ i c hx ha
    rcases inv i c hx with h | ⟨rfl, rfl⟩
    · exact hi.free hj i c h ha
    · simpa using hf

/-- What the container has to satisfy. -/
structure Api.Ok (api : Api S D O) (R : S → List D → Prop) : Prop where
  first : ∀ s, R s (api.first s)
  eff : ∀ o s ds s' X, api.eff o s = some (ds, s') → R s X → R s' (X ++ ds)

theorem inv_step {api : Api S D O} (ok : api.Ok R) {w w' : World S D} {e : Ev O}
    {o : Option (Poll (Option D))} (hi : Inv R w) (h : w.step api e = some (o, w')) : Inv R w' := by
  cases e with
  | call a =>
    simp only [World.step] at h
    split at h
    · cases h
    · rename_i hn
      have hh : w.hub.handles ≠ 0 := fun h => hn (.inl h)
      have hj : w.job = none := by
        cases hj : w.job with
        | none => rfl
        | some _ => exact absurd (.inr (by simp [hj])) hn
      split at h
      · cases h
      · rename_i ds s he
        cases h
        refine ⟨hi.nodup, hi.bound, hi.live, hi.tx, hi.waiting, fun h => absurd h hh, hi.still,
          hi.cnodup, hi.sound, by simp, ?_⟩
        intro j' hj'
        simp only [Option.some.injEq] at hj'
        subst hj'
        refine ⟨fun _ _ _ h => (by cases h), ⟨[], rfl⟩, fun X hX => ok.eff a _ _ _ X he hX, ?_⟩
        intro i c hx ha
        exact ⟨_, hi.free hj i c hx ha, rfl⟩
  | tick =>
    simp only [World.step, Option.map_eq_some_iff] at h
    obtain ⟨w1, h1, h2⟩ := h
    cases h2
    exact inv_tick hi h1
  | subscribe =>
    simp only [World.step] at h
    split at h
    · cases h
    · rename_i hn
      cases h
      have hj : w.job = none := by
        cases hj : w.job with
        | none => rfl
        | some _ => exact absurd (.inr (by simp [hj])) hn
      exact inv_subscribe hi (fun h => hn (.inl h)) hj (ok.first _)
  | poll id cx =>
    simp only [World.step] at h
    split at h
    · rename_i hl
      cases h
      exact inv_poll hi id cx hl
    · cases h
  | dropRx id =>
    simp only [World.step] at h
    split at h
    · cases h
      exact inv_dropRx hi id
    · cases h
  | cloneHandle =>
    simp only [World.step] at h
    split at h
    · cases h
    · rename_i hh
      cases h
      exact ⟨hi.nodup, hi.bound, fun i c hx ha _ => hi.live i c hx ha hh,
        fun i c hx ha => by simpa [hh] using hi.tx i c hx ha, hi.waiting, by simp,
        fun _ => hi.still hh, hi.cnodup, hi.sound, hi.free, hi.busy⟩
  | dropHandle =>
    simp only [World.step] at h
    split at h
    · cases h
    · rename_i hh
      split at h
      · split at h
        · cases h
        · rename_i h1 hn
          cases h
          have hj : w.job = none := by simpa using hn
          refine ⟨by simp, by simp, by simp, ?_, hi.waiting, by simp [hj], by simp, hi.nodup,
            hi.sound, hi.free, by simp [hj]⟩
          intro i c hx ha
          have := hi.live i c hx ha hh
          simpa [hh, this] using hi.tx i c hx ha
      · rename_i h1
        cases h
        have h2 : w.hub.handles - 1 ≠ 0 := by omega
        exact ⟨hi.nodup, hi.bound, fun i c hx ha _ => hi.live i c hx ha hh,
          fun i c hx ha => by simpa [hh, h2] using hi.tx i c hx ha, hi.waiting,
          fun h => absurd h h2, fun _ => hi.still hh, hi.cnodup, hi.sound, hi.free, hi.busy⟩

theorem inv_runs {api : Api S D O} (ok : api.Ok R) {w w' : World S D} {es : List (Ev O)}
    {os : List (Option (Poll (Option D)))} (hi : Inv R w) (h : w.runs api es = some (os, w')) :
    Inv R w' :=
  runE_inv (Inv := fun (_ : List (Ev O)) (_ : List (Option (Poll (Option D)))) (w : World S D) => Inv R w)
    hi (fun _ _ _ _ _ _ hi h => inv_step ok hi h) h

/-! ## Wakers -/

theorem tick_wake {w w' : World S D} (hi : Inv R w) (h : w.tick = some w') :
    ∃ new, w'.hub.woken = w.hub.woken ++ new ∧
      ∀ (k : Nat) c x, w.hub.links[k]? = some c → c.waker = some x →
        (x ∈ new ∨ ∃ c', w'.hub.links[k]? = some c' ∧ c'.waker = some x) := by
  have same : ∃ new, w.hub.woken = w.hub.woken ++ new ∧
      ∀ (k : Nat) c x, w.hub.links[k]? = some c → c.waker = some x →
        (x ∈ new ∨ ∃ c', w.hub.links[k]? = some c' ∧ c'.waker = some x) :=
    ⟨[], by simp, fun k c x hc hx => .inr ⟨c, hc, hx⟩⟩
  unfold World.tick at h
  split at h
  · split at h
    · cases h
    · rename_i s ss hcl
      cases h
      simp only [Hub.dropTx]
      split
      · exact same
      · rename_i c0 h0
        refine ⟨c0.waker.toList, rfl, fun k c x hc hx => ?_⟩
        by_cases hk : s = k
        · subst hk
          rw [h0] at hc; cases hc
          exact .inl (by simp [hx])
        · exact .inr ⟨c, by simpa [hk] using hc, hx⟩
  · split at h
    · rename_i d s todo kept hc
      cases h
      obtain ⟨e1, e2, e3, e4⟩ := hub_send_rest w.hub s d
      refine ⟨_, e3, fun k c x hc' hx => ?_⟩
      have ha := (hi.waiting k c x hc' hx).2.2
      by_cases hk : k = s
      · subst hk
        exact .inl (by simp [hubWakes, hc', ha, hx])
      · exact .inr ⟨c, by rw [hub_send_links, hc']; simp [hubHit, hk], hx⟩
    · cases h; exact same
    · split at h <;> cases h <;> exact same

theorem step_wake {api : Api S D O} {w w' : World S D} {e : Ev O} {o : Option (Poll (Option D))}
    (hi : Inv R w) (h : w.step api e = some (o, w')) :
    ∃ new, w'.hub.woken = w.hub.woken ++ new ∧
      ∀ (k : Nat) c x, w.hub.links[k]? = some c → c.waker = some x →
        (∀ cx, e ≠ .poll k cx) → e ≠ .dropRx k →
        (x ∈ new ∨ ∃ c', w'.hub.links[k]? = some c' ∧ c'.waker = some x) := by
  have same : ∃ new, w.hub.woken = w.hub.woken ++ new ∧
      ∀ (k : Nat) c x, w.hub.links[k]? = some c → c.waker = some x →
        (∀ cx, e ≠ .poll k cx) → e ≠ .dropRx k →
        (x ∈ new ∨ ∃ c', w.hub.links[k]? = some c' ∧ c'.waker = some x) :=
    ⟨[], by simp, fun k c x hc hx _ _ => .inr ⟨c, hc, hx⟩⟩
  cases e with
  | call a =>
    simp only [World.step] at h
    split at h
    · cases h
    · split at h <;> cases h
      exact same
  | tick =>
    simp only [World.step, Option.map_eq_some_iff] at h
    obtain ⟨w1, h1, h2⟩ := h
    cases h2
    obtain ⟨new, h3, h4⟩ := tick_wake hi h1
    exact ⟨new, h3, fun k c x hc hx _ _ => h4 k c x hc hx⟩
  | subscribe =>
    simp only [World.step] at h
    split at h
    · cases h
    · cases h
      refine ⟨[], by simp [Hub.subscribe], fun k c x hc hx _ _ => .inr ⟨c, ?_, hx⟩⟩
      have := (List.getElem?_eq_some_iff.1 hc).1
      simp only [Hub.subscribe]
      rw [List.getElem?_append_left this, hc]
  | poll id cx =>
    simp only [World.step] at h
    split at h
    · cases h
      refine ⟨[], by simp [pollRx_woken], fun k c x hc hx hp _ => .inr ⟨c, ?_, hx⟩⟩
      have hid : id ≠ k := fun h => hp cx (by rw [h])
      simp only
      rw [pollRx_other' w.hub id k cx hid, hc]
    · cases h
  | dropRx id =>
    simp only [World.step] at h
    split at h
    · cases h
      refine ⟨[], ?_, fun k c x hc hx _ hd => .inr ⟨c, ?_, hx⟩⟩
      · unfold Hub.dropRx; split <;> simp
      · have hid : id ≠ k := fun h => hd (by rw [h])
        simp only
        unfold Hub.dropRx
        split
        · exact hc
        · simp [hid, hc]
    · cases h
  | cloneHandle =>
    simp only [World.step] at h
    split at h <;> cases h
    exact same
  | dropHandle =>
    simp only [World.step] at h
    split at h
    · cases h
    · split at h
      · split at h <;> cases h
        exact same
      · cases h
        exact same

theorem runs_wake {api : Api S D O} (ok : api.Ok R) {w w' : World S D} {es : List (Ev O)}
    {os : List (Option (Poll (Option D)))} (hi : Inv R w) (h : w.runs api es = some (os, w')) :
    ∃ new, w'.hub.woken = w.hub.woken ++ new ∧
      ∀ (k : Nat) c x, w.hub.links[k]? = some c → c.waker = some x →
        (∀ cx, .poll k cx ∉ es) → .dropRx k ∉ es →
        (x ∈ new ∨ ∃ c', w'.hub.links[k]? = some c' ∧ c'.waker = some x) := by
  induction es generalizing w os with
  | nil =>
    cases h
    exact ⟨[], by simp, fun k c x hc hx _ _ => .inr ⟨c, hc, hx⟩⟩
  | cons e es ih =>
    simp only [World.runs, runE] at h
    cases hs : w.step api e with
    | none => simp [hs] at h
    | some p =>
      obtain ⟨o, w1⟩ := p
      simp only [hs] at h
      cases hr : runE (World.step api) w1 es with
      | none => simp [hr] at h
      | some q =>
        obtain ⟨os', w2⟩ := q
        simp only [hr, Option.some.injEq, Prod.mk.injEq] at h
        obtain ⟨rfl, rfl⟩ := h
        obtain ⟨n1, h1, h2⟩ := step_wake hi hs
        obtain ⟨n2, h3, h4⟩ := ih (inv_step ok hi hs) hr
        refine ⟨n1 ++ n2, by rw [h3, h1, List.append_assoc], fun k c x hc hx hp hd => ?_⟩
        rcases h2 k c x hc hx (fun cx he => hp cx (by simp [he])) (fun he => hd (by simp [he]))
          with h' | ⟨c', hc', hx'⟩
        · exact .inl (by simp [h'])
        · rcases h4 k c' x hc' hx' (fun cx hm => hp cx (by simp [hm])) (fun hm => hd (by simp [hm]))
            with h' | h'
          · exact .inl (by simp [h'])
          · exact .inr h'

/-! ## The delivery log -/

theorem got_snoc (k : Nat) (es : List (Ev O)) (os : List (Option (Poll (Option D)))) (e : Ev O)
    (o : Option (Poll (Option D))) (hl : os.length = es.length) :
    got k (es ++ [e]) (os ++ [o]) = got k es os ++ got k [e] [o] := by
  induction es generalizing os with
  | nil =>
    cases os with
    | nil => rfl
    | cons _ _ => simp at hl
  | cons a es ih =>
    cases os with
    | nil => simp at hl
    | cons b os =>
      have := ih os (by simpa using hl)
      simp [got, this]

theorem tick_log {w w' : World S D} (h : w.tick = some w') (k : Nat) : w'.hub.log k = w.hub.log k := by
  unfold World.tick at h
  split at h
  · split at h
    · cases h
    · rename_i s ss hcl
      cases h
      simp only [Hub.dropTx]
      split
      · rfl
      · rename_i c0 h0
        unfold Hub.log
        by_cases hk : s = k
        · subst hk
          obtain ⟨h1, h2⟩ := List.getElem?_eq_some_iff.1 h0
          simp [h1, h2]
        · simp [hk]
  · split at h
    · rename_i d s todo kept hc
      cases h
      refine hub_log_of_map (f := hubHit [s] d k) ?_ (hub_send_links w.hub s d k)
      intro c; unfold hubHit; split <;> rfl
    · cases h; rfl
    · split at h <;> cases h <;> rfl

theorem step_log {api : Api S D O} {w w' : World S D} {e : Ev O} {o : Option (Poll (Option D))}
    (h : w.step api e = some (o, w')) (k : Nat) : w'.hub.log k = w.hub.log k ++ got k [e] [o] := by
  cases e with
  | call a =>
    simp only [World.step] at h
    split at h
    · cases h
    · split at h <;> cases h
      simp [got, gets]
  | tick =>
    simp only [World.step, Option.map_eq_some_iff] at h
    obtain ⟨w1, h1, h2⟩ := h
    cases h2
    simp [got, gets, tick_log h1]
  | subscribe =>
    simp only [World.step] at h
    split at h
    · cases h
    · cases h
      simp only [got, gets, List.append_nil]
      unfold Hub.log Hub.subscribe
      simp only
      rcases Nat.lt_trichotomy k w.hub.links.length with hk | hk | hk
      · rw [List.getElem?_append_left hk]
      · subst hk; simp
      · rw [List.getElem?_eq_none (by simp; omega), List.getElem?_eq_none (by omega)]
  | poll id cx =>
    simp only [World.step] at h
    split at h
    · cases h
      by_cases hid : id = k
      · subst hid
        unfold Hub.log Hub.pollRx
        cases hc : w.hub.links[id]? with
        | none => simp [hc, got, gets]
        | some c =>
          have := (List.getElem?_eq_some_iff.1 hc).1
          cases hq : c.queue with
          | cons d ds => simp [this, hq, got, gets]
          | nil =>
            by_cases ht : c.txAlive = true
            · simp [ht, this, hq, got, gets]
            · simp [ht, hq, hc, got, gets]
      · have : got (O := O) k [.poll id cx] [some (w.hub.pollRx id cx).1] = [] := by
          simp only [got, gets]; split <;> simp_all
        rw [this, List.append_nil]
        unfold Hub.log; simp only; rw [pollRx_other' w.hub id k cx hid]
    · cases h
  | dropRx id =>
    simp only [World.step] at h
    split at h
    · cases h
      simp only [got, gets, List.append_nil]
      unfold Hub.dropRx
      split
      · rfl
      · rename_i c hc
        unfold Hub.log
        by_cases hid : id = k
        · subst hid
          obtain ⟨h1, h2⟩ := List.getElem?_eq_some_iff.1 hc
          simp [h1, h2]
        · simp [hid]
    · cases h
  | cloneHandle =>
    simp only [World.step] at h
    split at h <;> cases h
    simp [got, gets, Hub.log]
  | dropHandle =>
    simp only [World.step] at h
    split at h
    · cases h
    · split at h
      · split at h <;> cases h
        simp [got, gets, Hub.log]
      · cases h
        simp [got, gets, Hub.log]

theorem runs_log {api : Api S D O} {s : S} {w : World S D} {es : List (Ev O)}
    {os : List (Option (Poll (Option D)))} (h : (World.init s).runs api es = some (os, w)) (k : Nat) :
    w.hub.log k = got k es os := by
  have := runE_inv (step := World.step api) (Inv := fun (es : List (Ev O)) (os : List (Option (Poll (Option D))))
      (w : World S D) => os.length = es.length ∧ w.hub.log k = got k es os)
    (m := World.init s) ⟨rfl, rfl⟩ (fun es os w e o w' hi h => by
      refine ⟨by simp [hi.1], ?_⟩
      rw [step_log h, hi.2, got_snoc k es os e o hi.1]) h
  exact this.2

/-! ## Termination of a call -/

theorem le_of_nodup_bound {l : List Nat} (hn : l.Nodup) {n : Nat} (hb : ∀ s ∈ l, s < n) :
    l.length ≤ n := by
  have := (hn.subperm (l₂ := List.range n) (fun s hs => List.mem_range.2 (hb s hs))).length_le
  simpa using this

/-- Steps the running call still has to make, at most. -/
def World.cost (w : World S D) : Nat :=
  match w.job with
  | none => 0
  | some j =>
    (match j.cur with
      | some (_, todo, _) => todo.length + 1
      | none => 0) + j.rest.length * (w.hub.links.length + 2) + 1

theorem tick_cost {w w' : World S D} (hi : Inv R w) (hj : w.job ≠ none) (h : w.tick = some w') :
    w'.cost + 1 ≤ w.cost ∧ (w'.job = none ∨ w.cost ≠ 0) := by
  unfold World.tick at h
  split at h
  · rename_i h0; exact absurd h0 hj
  · rename_i j hj'
    split at h
    · rename_i d s todo kept hc
      cases h
      obtain ⟨e1, e2, e3, e4⟩ := hub_send_rest w.hub s d
      simp only [World.cost, hj', hc, e4, List.length_cons]
      omega
    · rename_i d kept hc
      cases h
      simp only [World.cost, hj', hc, List.length_nil]
      omega
    · rename_i hc
      split at h
      · rename_i d ds hr
        cases h
        have := le_of_nodup_bound hi.nodup hi.bound
        simp only [World.cost, hj', hc, hr, List.length_cons, Nat.add_mul, Nat.one_mul]
        omega
      · rename_i hr
        cases h
        simp [World.cost, hj', hc, hr]

end Verif.HubConc

namespace Verif.HubConc

variable {S D O : Type} {R : S → List D → Prop}

theorem other_cost {api : Api S D O} {w w' : World S D} {e : Ev O} {o : Option (Poll (Option D))}
    (hi : Inv R w) (hh : w.hub.handles ≠ 0) (he : e.Other) (h : w.step api e = some (o, w')) :
    w'.hub.handles ≠ 0 ∧ (if e.isTick then 1 else 0) + w'.cost ≤ w.cost := by
  cases he with
  | tick =>
    simp only [World.step, Option.map_eq_some_iff] at h
    obtain ⟨w1, h1, h2⟩ := h
    cases h2
    have hj : w.job ≠ none := by
      intro hj
      simp [World.tick, hj, hi.still hh] at h1
    have := (tick_cost hi hj h1).1
    refine ⟨?_, by simp [Ev.isTick]; omega⟩
    unfold World.tick at h1
    split at h1
    · rename_i h0; exact absurd h0 hj
    · split at h1
      · cases h1
        rw [(hub_send_rest _ _ _).2.1]; exact hh
      · cases h1; exact hh
      · split at h1 <;> cases h1 <;> exact hh
  | poll id cx =>
    simp only [World.step] at h
    split at h
    · cases h
      have : (w.hub.pollRx id cx).2.handles = w.hub.handles ∧
          (w.hub.pollRx id cx).2.links.length = w.hub.links.length := by
        unfold Hub.pollRx; split
        · simp
        · split
          · simp
          · split <;> simp
      simp [World.cost, this, Ev.isTick, hh]
    · cases h
  | dropRx id =>
    simp only [World.step] at h
    split at h
    · cases h
      have : (w.hub.dropRx id).handles = w.hub.handles ∧
          (w.hub.dropRx id).links.length = w.hub.links.length := by
        unfold Hub.dropRx; split <;> simp
      simp [World.cost, this, Ev.isTick, hh]
    · cases h
  | cloneHandle =>
    simp only [World.step] at h
    split at h
    · cases h
    · cases h
      simp [World.cost, Ev.isTick]

theorem others_cost {api : Api S D O} (ok : api.Ok R) {w w' : World S D} {es : List (Ev O)}
    {os : List (Option (Poll (Option D)))} (hi : Inv R w) (hh : w.hub.handles ≠ 0)
    (he : ∀ e ∈ es, e.Other) (h : w.runs api es = some (os, w')) :
    es.countP Ev.isTick + w'.cost ≤ w.cost := by
  induction es generalizing w os with
  | nil => cases h; simp
  | cons e es ih =>
    simp only [World.runs, runE] at h
    cases hs : w.step api e with
    | none => simp [hs] at h
    | some p =>
      obtain ⟨o, w1⟩ := p
      simp only [hs] at h
      cases hr : runE (World.step api) w1 es with
      | none => simp [hr] at h
      | some q =>
        obtain ⟨os', w2⟩ := q
        simp only [hr, Option.some.injEq, Prod.mk.injEq] at h
        obtain ⟨rfl, rfl⟩ := h
        obtain ⟨h1, h2⟩ := other_cost hi hh (he e (by simp)) hs
        have := ih (inv_step ok hi hs) h1 (fun e' h => he e' (by simp [h])) hr
        rw [List.countP_cons]
        omega

/-- While a call runs, it can always make its next step. -/
theorem tick_some {w : World S D} (hj : w.job ≠ none) : ∃ w', w.tick = some w' := by
  unfold World.tick
  split
  · rename_i h; exact absurd h hj
  · split
    · exact ⟨_, rfl⟩
    · exact ⟨_, rfl⟩
    · split <;> exact ⟨_, rfl⟩

/-! ## A call that nobody disturbs -/

/-- A number of ticks. -/
def World.ticks : Nat → World S D → Option (World S D)
  | 0, w => some w
  | n + 1, w =>
    match w.tick with
    | none => none
    | some w' => World.ticks n w'

theorem ticks_runs (api : Api S D O) {n : Nat} {w w' : World S D} (h : w.ticks n = some w') :
    w.runs api (List.replicate n .tick) = some (List.replicate n none, w') := by
  induction n generalizing w with
  | zero => cases h; rfl
  | succ n ih =>
    simp only [World.ticks] at h
    cases ht : w.tick with
    | none => simp [ht] at h
    | some w1 =>
      simp only [ht] at h
      have := ih h
      simp only [World.runs] at this
      simp [World.runs, List.replicate_succ, runE, World.step, ht, this]

theorem ticks_add {m n : Nat} {w w1 w2 : World S D} (h1 : w.ticks m = some w1)
    (h2 : w1.ticks n = some w2) : w.ticks (m + n) = some w2 := by
  induction m generalizing w with
  | zero => cases h1; simpa using h2
  | succ m ih =>
    simp only [World.ticks] at h1
    rw [Nat.succ_add]
    simp only [World.ticks]
    cases ht : w.tick with
    | none => simp [ht] at h1
    | some w' => simp only [ht] at h1; exact ih h1

theorem ticks_retain (d : D) (todo : List Nat) (w : World S D) (j : Job S D) (kept : List Nat) :
    ({ w with job := some { j with cur := some (d, todo, kept) } } : World S D).ticks (todo.length + 1) =
      some { w with
        hub := { (hubRetain d todo w.hub).2 with senders := kept ++ (hubRetain d todo w.hub).1 },
        job := some { j with cur := none } } := by
  induction todo generalizing w kept with
  | nil => simp [World.ticks, World.tick, hubRetain]
  | cons s todo ih =>
    rw [List.length_cons, World.ticks]
    simp only [World.tick]
    have := ih { w with hub := (w.hub.send s d).2 }
      (if (w.hub.send s d).1 = true then kept ++ [s] else kept)
    simp only at this
    rw [this]
    simp only [hubRetain]
    split <;> simp_all

theorem ticks_diffs (ds : List D) (w : World S D) (j : Job S D) (hj : j.cur = none) :
    ∃ n, ({ w with job := some { j with rest := ds } } : World S D).ticks n =
      some { w with hub := ds.foldl Hub.notify w.hub, job := none } := by
  induction ds generalizing w with
  | nil => exact ⟨1, by simp [World.ticks, World.tick, hj]⟩
  | cons d ds ih =>
    obtain ⟨n, hn⟩ := ih { w with hub := w.hub.notify d }
    refine ⟨(1 + (w.hub.senders.length + 1)) + n, ticks_add (ticks_add
      (w1 := { w with job := some { j with cur := some (d, w.hub.senders, []), rest := ds } }) ?_ ?_) hn⟩
    · simp [World.ticks, World.tick, hj]
    · have := ticks_retain d w.hub.senders w { j with rest := ds } []
      simp only at this
      rw [this]
      simp [Hub.notify, hj]

theorem alone {api : Api S D O} {w : World S D} (hh : w.hub.handles ≠ 0) (hj : w.job = none) {o : O}
    {ds : List D} {s : S} (he : api.eff o w.values = some (ds, s)) :
    ∃ n, w.runs api (.call o :: List.replicate n .tick) = some (List.replicate (n + 1) none,
      { w with values := s, hub := ds.foldl Hub.notify w.hub }) := by
  obtain ⟨n, hn⟩ := ticks_diffs ds { w with values := s } ⟨none, ds, w.values, ds⟩ rfl
  refine ⟨n, ?_⟩
  have := ticks_runs api hn
  simp only [World.runs] at this
  have h0 : w.step api (.call o) =
      some (none, { w with values := s, job := some ⟨none, ds, w.values, ds⟩ }) := by
    simp [World.step, hh, hj, he]
  simp only [World.runs, runE, h0, this]
  simp [List.replicate_succ, hj]

end Verif.HubConc
