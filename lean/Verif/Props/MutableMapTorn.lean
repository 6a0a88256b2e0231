import Verif.Props.TornMap

/-!
# C79, continued: what subscribers of a `MutableBTreeMap` see for ever if `clone` panics in a broadcast
-/

namespace Verif.MutMapPanic

open MutMap
open MutVecPanic (Outcome)

variable {K V D : Type}

/-- Senders are stored in the order of the subscriptions. -/
theorem hub_sorted_step {h : Hub D} (hw : HubWF h) (hs : h.senders.Pairwise (· < ·)) (e : HubEv D) :
    (h.step e).senders.Pairwise (· < ·) := by
  cases e with
  | notify d =>
    simp only [Hub.step]
    split
    · exact hs
    · rename_i hh
      rw [(hub_notify hw hh d).2.2.2.1]
      exact hs.sublist List.filter_sublist
  | subscribe first =>
    simp only [Hub.step]
    split
    · exact hs
    · refine List.pairwise_append.2 ⟨hs, List.pairwise_singleton _ _, ?_⟩
      intro a ha b hb
      rw [List.mem_singleton.1 hb]
      exact hw.bound a ha
  | poll id cx =>
    simp only [Hub.step, Hub.pollRx]
    split
    · split
      · exact hs
      · split
        · exact hs
        · split <;> exact hs
    · exact hs
  | dropRx id =>
    simp only [Hub.step, Hub.dropRx]
    split
    · split <;> exact hs
    · exact hs
  | cloneHandle =>
    simp only [Hub.step]
    split <;> exact hs
  | dropHandle =>
    simp only [Hub.step, Hub.dropHandle]
    split
    · exact hs
    · split
      · exact List.Pairwise.nil
      · exact hs

theorem hub_sorted_steps {h : Hub D} (hw : HubWF h) (hs : h.senders.Pairwise (· < ·)) (es : List (HubEv D)) :
    (h.steps es).senders.Pairwise (· < ·) := by
  induction es generalizing h with
  | nil => exact hs
  | cons e es ih => exact ih (hub_step hw e) (hub_sorted_step hw hs e)

variable [LinearOrder K]

/-- A call after which the lock is not poisoned is an ordinary call. -/
theorem clean_step {p p' : PWorld K V} {e : PEv K V} {o : Outcome} (h : p.step e = some (o, p'))
    (hp : p'.poisoned = false) : p.poisoned = false ∧ ∃ e', p.w.step e' = some p'.w := by
  have hp0 : p.poisoned = false := by
    cases hq : p.poisoned with
    | false => rfl
    | true => rw [(step_poison h).1 hq] at hp; cases hp
  refine ⟨hp0, ?_⟩
  cases e with
  | call e =>
    refine ⟨e, ?_⟩
    cases e with
    | op op =>
      simp only [PWorld.step, hp0] at h
      simp only [World.step]
      split at h
      · cases h
      · rename_i hh
        rw [if_neg hh]
        rcases hx : p.w.exec op with _ | ⟨r, w⟩ <;> rw [hx] at h
        · cases h; cases hp
        · cases h; rfl
    | subscribe =>
      simp only [PWorld.step, hp0] at h
      simp only [World.step]
      split at h <;> cases h
      rename_i hh
      rw [if_neg hh]
    | poll id cx =>
      simp only [PWorld.step] at h
      simp only [World.step]
      split at h <;> cases h
      rename_i hh
      rw [if_pos hh]
    | dropRx id =>
      simp only [PWorld.step] at h
      simp only [World.step]
      split at h <;> cases h
      rename_i hh
      rw [if_pos hh]
    | cloneHandle =>
      simp only [PWorld.step] at h
      simp only [World.step]
      split at h <;> cases h
      rename_i hh
      rw [if_neg hh]
    | dropHandle =>
      simp only [PWorld.step] at h
      simp only [World.step]
      split at h <;> cases h
      rename_i hh
      rw [if_neg hh]
  | guardPanics =>
    simp only [PWorld.step, hp0] at h
    split at h <;> cases h
    cases hp
  | clonePanics op k =>
    simp only [PWorld.step, hp0] at h
    split at h
    · cases h
    · simp only [Bool.false_eq_true, if_false] at h
      split at h <;> cases h
      cases hp
  | subscribePanics =>
    simp only [PWorld.step, hp0] at h
    split at h
    · cases h
    · simp only [Bool.false_eq_true, if_false] at h
      split at h <;> cases h
      cases hp

/-- As long as the lock is not poisoned, everything is as without panics. -/
theorem clean_inv {vs : BMap K V} {es : List (PEv K V)} {os : List Outcome} {p : PWorld K V}
    (h : (PWorld.init vs).runs es = some (os, p)) (hp : p.poisoned = false) :
    Inv p.w ∧ p.w.hub.senders.Pairwise (· < ·) := by
  refine runE_inv (Inv := fun (_ : List (PEv K V)) (_ : List Outcome) (p : PWorld K V) =>
    p.poisoned = false → Inv p.w ∧ p.w.hub.senders.Pairwise (· < ·)) (m := PWorld.init vs) ?_ ?_ h hp
  · exact fun _ => ⟨inv_init vs, by simp [PWorld.init, World.init]⟩
  · intro es os p e o p' ih hs hp'
    obtain ⟨h1, e', h2⟩ := clean_step hs hp'
    obtain ⟨h3, h4⟩ := ih h1
    refine ⟨inv_step h3 h2, ?_⟩
    rw [step_eq _ h3.wf] at h2
    rw [← Option.some.inj h2]
    exact hub_sorted_steps h3.wf h4 _

/-- A poisoned `MutableBTreeMap` can still be cloned and dropped, and its subscribers polled and dropped: none of this
changes what a live subscriber received and will receive. -/
theorem poisoned_step {p p' : PWorld K V} {e : PEv K V} {o : Outcome} (hp : p.poisoned = true)
    (h : p.step e = some (o, p')) :
    p'.poisoned = true ∧ p'.w.values = p.w.values ∧
      ∀ (i : Nat) c', p'.w.hub.links[i]? = some c' → c'.rxAlive = true → ∃ c, p.w.hub.links[i]? = some c ∧
        c.rxAlive = true ∧ c'.delivered ++ c'.queue = c.delivered ++ c.queue := by
  have same : ∀ (p' : PWorld K V), p' = p → p'.poisoned = true ∧ p'.w.values = p.w.values ∧
      ∀ (i : Nat) c', p'.w.hub.links[i]? = some c' → c'.rxAlive = true → ∃ c, p.w.hub.links[i]? = some c ∧
        c.rxAlive = true ∧ c'.delivered ++ c'.queue = c.delivered ++ c.queue := by
    rintro p' rfl
    exact ⟨hp, rfl, fun i c' h ha => ⟨c', h, ha, rfl⟩⟩
  cases e with
  | call e =>
    cases e with
    | op o =>
      simp only [PWorld.step, hp, if_true] at h
      split at h <;> cases h
      exact same _ rfl
    | subscribe =>
      simp only [PWorld.step, hp, if_true] at h
      split at h <;> cases h
      exact same _ rfl
    | cloneHandle =>
      simp only [PWorld.step] at h
      split at h <;> cases h
      exact ⟨hp, rfl, fun i c' h ha => ⟨c', h, ha, rfl⟩⟩
    | dropHandle =>
      simp only [PWorld.step] at h
      split at h <;> cases h
      refine ⟨hp, rfl, fun i c' h ha => ?_⟩
      obtain ⟨c, hc, e1, e2, e3, -⟩ := dropHandle_links h
      exact ⟨c, hc, e1 ▸ ha, by rw [e2, e3]⟩
    | dropRx id =>
      simp only [PWorld.step] at h
      split at h <;> cases h
      simp only [Hub.dropRx]
      split
      · exact ⟨hp, trivial, fun i c' h ha => ⟨c', h, ha, rfl⟩⟩
      · refine ⟨hp, trivial, fun i c' h ha => ?_⟩
        rcases getElem?_set_some' h with ⟨rfl, rfl, -⟩ | ⟨-, h⟩
        · cases ha
        · exact ⟨c', h, ha, rfl⟩
    | poll id cx =>
      simp only [PWorld.step] at h
      split at h <;> cases h
      simp only [Hub.pollRx]
      split
      · exact ⟨hp, trivial, fun i c' h ha => ⟨c', h, ha, rfl⟩⟩
      · rename_i c hc
        split
        · rename_i d ds hq
          refine ⟨hp, trivial, fun i c' h ha => ?_⟩
          rcases getElem?_set_some' h with ⟨rfl, rfl, -⟩ | ⟨-, h⟩
          · exact ⟨c, hc, ha, by simp [hq]⟩
          · exact ⟨c', h, ha, rfl⟩
        · split
          · refine ⟨hp, trivial, fun i c' h ha => ?_⟩
            rcases getElem?_set_some' h with ⟨rfl, rfl, -⟩ | ⟨-, h⟩
            · exact ⟨c, hc, ha, rfl⟩
            · exact ⟨c', h, ha, rfl⟩
          · exact ⟨hp, trivial, fun i c' h ha => ⟨c', h, ha, rfl⟩⟩
  | _ =>
    simp only [PWorld.step, hp, if_true] at h
    split at h <;> cases h
    exact same _ rfl

/-- What a `clone` that panics leaves: nothing happened, or the contents changed and `k - 1` senders were served. -/
theorem clonePanics_full {w w' : World K V} {o : Op K V} {k : Nat} (h : clonePanics w o k = some w') :
    (k = 0 ∧ (∀ key, o ≠ .remove key) ∧ w' = w) ∨
    (w'.values = o.next w.values ∧ k - 1 < w.hub.senders.length ∧
      ∃ d, o.diffs w.values = [d] ∧ w'.hub = w.hub.notifySome d (k - 1)) := by
  have cut : ∀ (d : MapDiff K V) (n : Nat) (vs : BMap K V),
      (match notifyClonePanics w.hub d n with
        | none => none
        | some hub => some (⟨vs, hub⟩ : World K V)) = some w' →
      w'.values = vs ∧ n < w.hub.senders.length ∧ w'.hub = w.hub.notifySome d n := by
    intro d n vs h
    simp only [notifyClonePanics] at h
    split at h
    · simp at h
    · rename_i hub hx
      split at hx
      · cases hx; cases h; exact ⟨rfl, by omega, rfl⟩
      · simp at hx
  cases o with
  | remove key =>
    simp only [clonePanics, removePanics] at h
    have h1 := remove_fst w.values key
    have h2 : Op.next (.remove key) w.values = (w.values.remove key).2 := rfl
    cases hr : w.values.remove key with
    | mk a values =>
      rw [hr] at h h1 h2
      cases a with
      | none => simp at h
      | some v =>
        have hd : Op.diffs (.remove key) w.values = [.remove key] := by simp only [Op.diffs, ← h1]; rfl
        cases k with
        | zero =>
          simp only at h
          split at h
          · simp at h
          · rename_i hne
            cases h
            refine .inr ⟨h2.symm, List.length_pos_iff.2 hne, _, hd, ?_⟩
            simp [Hub.notifySome, hubSome]
        | succ n =>
          obtain ⟨c1, c2, c3⟩ := cut _ n values h
          exact .inr ⟨c1.trans h2.symm, c2, _, hd, c3⟩
  | replaceCloned values =>
    cases k with
    | zero =>
      simp only [clonePanics, replacePanics] at h
      split at h
      · simp at h
      · cases h; exact .inl ⟨rfl, by simp, rfl⟩
    | succ n =>
      obtain ⟨c1, c2, c3⟩ := cut _ n values h
      exact .inr ⟨c1, c2, _, rfl, c3⟩
  | insertCloned key value =>
    cases k with
    | zero =>
      simp only [clonePanics, insertPanics] at h
      split at h
      · simp at h
      · cases h; exact .inl ⟨rfl, by simp, rfl⟩
    | succ n =>
      simp only [clonePanics, insertPanics] at h
      have h1 := insert_fst w.values key value
      have h2 : Op.next (.insertCloned key value) w.values = (w.values.insert key value).2 := rfl
      cases hr : w.values.insert key value with
      | mk a values =>
        rw [hr] at h h1 h2
        cases a with
        | none =>
          obtain ⟨c1, c2, c3⟩ := cut _ n values h
          exact .inr ⟨c1.trans h2.symm, c2, _, by simp only [Op.diffs, ← h1]; rfl, c3⟩
        | some v =>
          obtain ⟨c1, c2, c3⟩ := cut _ n values h
          exact .inr ⟨c1.trans h2.symm, c2, _, by simp only [Op.diffs, ← h1]; rfl, c3⟩
  | _ => simp [clonePanics] at h

/-- **C79** (torn for ever).  If call `k` of `clone` panics during a method of a `MutableBTreeMap`, then either it was the
first call of `insert_cloned` or `replace_cloned` and nothing at all was changed, or the contents are those after the
method and exactly the first `k - 1` registered subscribers are told.  Whatever happens afterwards, the contents stay and
the others are never told: every live subscriber shows the new contents or the old ones for ever, depending only on whether
it subscribed before the subscriber number `cut`, the first one that was missed.  (For `remove`, call 0 of `clone` comes
after the removal and before the broadcast, so nobody is told.) -/
theorem C79_map_torn (vs : BMap K V) (es : List (PEv K V)) (os : List Outcome) (p p' : PWorld K V)
    (h : (PWorld.init vs).runs es = some (os, p)) (o : Op K V) (k : Nat)
    (hs : p.step (.clonePanics o k) = some (.panicked, p')) :
    (k = 0 ∧ (∀ key, o ≠ .remove key) ∧ p'.w = p.w) ∨
    (mapOf p'.w.values.1 = (o.spec (mapOf p.w.values.1)).2 ∧
      ∃ cut, cut ∈ p.w.hub.senders ∧ (p.w.hub.senders.filter (· < cut)).length = k - 1 ∧
      ∀ es' os' q, p'.runs es' = some (os', q) → q.w.values = p'.w.values ∧
        ∀ (id : Nat) c, q.w.hub.links[id]? = some c → c.rxAlive = true →
          mreplay (c.delivered ++ c.queue) noKeys =
            some (if id < cut then mapOf p'.w.values.1 else mapOf p.w.values.1)) := by
  simp only [PWorld.step] at hs
  split at hs
  · cases hs
  rename_i hh
  split at hs
  · cases hs
  rename_i hpo
  rcases hw' : clonePanics p.w o k with _ | w' <;> rw [hw'] at hs
  · cases hs
  cases hs
  obtain ⟨hi, hsort⟩ := clean_inv h (by simpa using hpo)
  rcases clonePanics_full hw' with h0 | ⟨g1, hk, d, g2, g3⟩
  · exact .inl h0
  refine .inr ?_
  generalize k - 1 = n at *
  have g5 := (hub_notifySome hi.wf hh d n).2.1
  have hcut : ∀ s ∈ p.w.hub.senders, s ∈ p.w.hub.senders.take n ↔ s < p.w.hub.senders[n] := by
    intro s hs
    obtain ⟨j, hj, rfl⟩ := List.mem_iff_getElem.1 hs
    constructor
    · intro hm
      obtain ⟨i, hi', e⟩ := List.mem_iff_getElem.1 hm
      rw [List.length_take] at hi'
      rw [List.getElem_take] at e
      rw [← e]
      exact List.pairwise_iff_getElem.1 hsort i n (by omega) hk (by omega)
    · intro hlt
      have hjk : j < n := by
        rcases Nat.lt_trichotomy j n with h | h | h
        · exact h
        · subst h; omega
        · have := List.pairwise_iff_getElem.1 hsort n j hk hj h
          omega
      exact List.mem_iff_getElem.2 ⟨j, by rw [List.length_take]; omega, by rw [List.getElem_take]⟩
  refine ⟨by rw [g1]; exact next_spec o p.w.values, p.w.hub.senders[n], List.getElem_mem hk, ?_, ?_⟩
  · have e : p.w.hub.senders.filter (· < p.w.hub.senders[n]) = p.w.hub.senders.take n := by
      have e1 : p.w.hub.senders.filter (· < p.w.hub.senders[n]) =
          (p.w.hub.senders.take n ++ p.w.hub.senders.drop n).filter (· < p.w.hub.senders[n]) := by
        rw [List.take_append_drop]
      rw [e1, List.filter_append, List.filter_eq_self.2, List.filter_eq_nil_iff.2, List.append_nil]
      · intro s hs
        have hnd : (p.w.hub.senders.take n ++ p.w.hub.senders.drop n).Nodup := by
          rw [List.take_append_drop]
          exact hi.wf.nodup
        intro hlt
        have hm := (hcut s (List.mem_of_mem_drop hs)).2 (by simpa using hlt)
        exact (List.nodup_append.1 hnd).2.2 s hm s hs rfl
      · intro s hs
        have := (hcut s (List.mem_of_mem_take hs)).1 hs
        simpa using this
    rw [e, List.length_take]
    omega
  · intro es' os' q hq
    have key := runE_inv (Inv := fun (_ : List (PEv K V)) (_ : List Outcome) (q : PWorld K V) =>
      q.poisoned = true ∧ q.w.values = w'.values ∧
        ∀ (id : Nat) c, q.w.hub.links[id]? = some c → c.rxAlive = true →
          mreplay (c.delivered ++ c.queue) noKeys =
            some (if id < p.w.hub.senders[n] then mapOf w'.values.1 else mapOf p.w.values.1))
      (m := ⟨w', true⟩) ⟨rfl, rfl, ?_⟩ ?_ hq
    · exact key.2
    · intro id c hc ha
      have hc' := (g5 id).symm.trans (g3 ▸ hc)
      obtain ⟨c0, hc0, rfl⟩ := Option.map_eq_some_iff.1 hc'
      rw [hubHit_rxAlive] at ha
      have hm := (hi.tracks.mirror id c0 hc0 ha).1
      have hmem := hi.wf.live id c0 hc0 ha hh
      simp only [hubHit, ha, and_true, hcut id hmem]
      split
      · rw [← List.append_assoc, mreplay_snoc hm, g1]
        have := diffs_replay o p.w.values
        rw [g2] at this
        obtain ⟨m1, h1, h2⟩ := mreplay_cons_some this
        cases h2
        exact h1
      · exact hm
    · rintro es os q e o q' ⟨i1, i2, i4⟩ hstep
      obtain ⟨j1, j2, j4⟩ := poisoned_step i1 hstep
      refine ⟨j1, j2.trans i2, fun id c' hc' ha => ?_⟩
      obtain ⟨c, hc, ha', e⟩ := j4 id c' hc' ha
      rw [e]
      exact i4 id c hc ha'

/-- Three subscribers; `insert_cloned` reaches only the first, and `remove` nobody. -/
example : ∃ os p p', (PWorld.init (BMap.empty : BMap Nat Nat)).runs
      [.call .subscribe, .call .subscribe, .call .subscribe, .call (.op (.insert 1 2))] = some (os, p) ∧
    p.step (.clonePanics (.insertCloned 0 9) 2) = some (.panicked, p') ∧ p'.w.values.1 = [(0, 9), (1, 2)] ∧
    (∃ os' q, p'.runs [.call (.poll 0 7), .call (.poll 1 7), .call (.poll 0 7), .call .dropHandle] = some (os', q) ∧
      q.w.hub.links.map (fun c => c.delivered ++ c.queue) =
        [[.insert 1 2, .insert 0 9], [.insert 1 2], [.insert 1 2]]) ∧
    ∃ p'', p.step (.clonePanics (.remove 1) 0) = some (.panicked, p'') ∧ p''.w.values.1 = [] ∧
      p''.w.hub.links.map (fun c => c.delivered ++ c.queue) = [[.insert 1 2], [.insert 1 2], [.insert 1 2]] :=
  ⟨_, _, _, rfl, rfl, rfl, ⟨_, _, rfl, rfl⟩, _, rfl, rfl, rfl⟩

end Verif.MutMapPanic
