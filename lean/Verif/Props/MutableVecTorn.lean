import Verif.Props.MutableVecPanic

/-!
# C73, continued: what subscribers see for ever if `clone` panics in the middle of a broadcast
-/

namespace Verif.MutVecPanic

open MutVec

variable {α β : Type}

theorem dropSenders_senders (ss : List Nat) (w : World α) : (dropSenders ss w).senders = w.senders := by
  induction ss generalizing w with
  | nil => rfl
  | cons s ss ih =>
    rw [dropSenders, ih, World.dropTx]
    split <;> rfl

/-- Senders are stored in the order of the subscriptions. -/
theorem sorted_step {w w' : World α} (hw : Inv w) (hs : w.senders.Pairwise (· < ·)) {e : Ev α} (h : w.step e = some w') :
    w'.senders.Pairwise (· < ·) := by
  have hnot : ∀ (ds : List (VecDiff α)) (w : World α), WF w → w.handles ≠ 0 → w.senders.Pairwise (· < ·) →
      (notifyAll w ds).senders.Pairwise (· < ·) := by
    intro ds
    induction ds with
    | nil => exact fun w _ _ h => h
    | cons d ds ih =>
      intro w hw hh h
      obtain ⟨h1, -, h3, -, h5, -⟩ := wf_notify hw hh d
      exact ih _ h1 (by rw [h3]; exact hh) (by rw [h5]; exact h.sublist List.filter_sublist)
  cases e with
  | op o =>
    simp only [World.step] at h
    split at h
    · cases h; exact hs
    · rename_i hh
      rw [exec_eq] at h
      cases hsp : o.spec w.values with
      | none => simp [hsp] at h
      | some r =>
        simp only [hsp, Option.map_some, Option.some.injEq] at h
        subst h
        exact hnot _ _ hw.toWF hh hs
  | subscribe =>
    simp only [World.step] at h
    split at h <;> cases h
    · exact hs
    · refine List.pairwise_append.2 ⟨hs, List.pairwise_singleton _ _, ?_⟩
      intro a ha b hb
      rw [List.mem_singleton.1 hb]
      exact hw.bound a ha
  | poll id cx =>
    simp only [World.step] at h
    split at h <;> cases h
    · have : (w.pollRx id cx).2.senders = w.senders := by
        simp only [World.pollRx]
        split
        · rfl
        · split
          · rfl
          · split <;> rfl
      rw [this]; exact hs
    · exact hs
  | dropRx id =>
    simp only [World.step] at h
    split at h <;> cases h
    · have : (w.dropRx id).senders = w.senders := by
        simp only [World.dropRx]
        split <;> rfl
      rw [this]; exact hs
    · exact hs
  | cloneHandle =>
    simp only [World.step] at h
    split at h <;> cases h <;> exact hs
  | dropHandle =>
    simp only [World.step] at h
    split at h <;> cases h
    · exact hs
    · simp only [World.dropHandle]
      split
      · exact List.Pairwise.nil
      · exact hs

theorem sorted_runs {w w' : World α} {es : List (Ev α)} (hw : Inv w) (hs : w.senders.Pairwise (· < ·))
    (h : w.runs es = some w') : w'.senders.Pairwise (· < ·) := by
  induction es generalizing w with
  | nil => cases h; exact hs
  | cons e es ih =>
    simp only [World.runs] at h
    split at h
    · cases h
    · rename_i w1 h1
      exact ih (inv_step hw h1) (sorted_step hw hs h1) h

theorem retainSome_eq (d : VecDiff α) (n : Nat) (ss : List Nat) (w : World α) :
    retainSome d n ss w = ((retainSend d (ss.take n) w).1 ++ ss.drop n, (retainSend d (ss.take n) w).2) := by
  induction n generalizing ss w with
  | zero => simp [retainSome, retainSend]
  | succ n ih =>
    cases ss with
    | nil => simp [retainSome, retainSend]
    | cons s ss =>
      simp only [retainSome, ih, retainSend, List.take_succ_cons, List.drop_succ_cons]
      split <;> rfl

/-- What a `clone` that panics after the change leaves. -/
theorem clonePanics_succ {w w' : World α} (hw : WF w) {o : Op α} {k : Nat} (h : clonePanics w o (k + 1) = some w') :
    ∃ r d, o.spec w.values = some (r, w'.values) ∧ o.diffs w.values = [d] ∧ k + 1 < w.senders.length ∧
      w'.chans.length = w.chans.length ∧
      ∀ i : Nat, w'.chans[i]? = w.chans[i]?.map (hit (w.senders.take k) d i) := by
  have key : ∀ {β : Type} (v : β) (change : World α → β → Option (World α)) (mk : β → VecDiff α) (out : Option (List α)),
      (∀ w1, change w v = some w1 → ∃ vs, out = some vs ∧ w1 = { w with values := vs }) →
      notifyWithPanics w v change mk (k + 1) = some w' →
      out = some w'.values ∧ k + 1 < w.senders.length ∧ w'.chans.length = w.chans.length ∧
        ∀ i : Nat, w'.chans[i]? = w.chans[i]?.map (hit (w.senders.take k) (mk v) i) := by
    intro β v change mk out hch h
    simp only [notifyWithPanics] at h
    split at h
    · rename_i hk
      split at h
      · cases h
      · rename_i w1 h1
        obtain ⟨vs, rfl, rfl⟩ := hch w1 h1
        simp only [Option.some.injEq] at h
        subst h
        obtain ⟨h1, -, h3, -, -, -, h7⟩ := retainSend_spec (mk v) (w.senders.take k)
          (hw.nodup.sublist (List.take_sublist _ _)) { w with values := vs }
        simp only [retainSome_eq]
        exact ⟨by rw [h3], hk, h7, h1⟩
    · cases h
  have hpush : ∀ a, pushClonePanics w a (k + 1) = some w' → w'.values = w.values ++ [a] ∧ k + 1 < w.senders.length ∧
      w'.chans.length = w.chans.length ∧ ∀ i : Nat, w'.chans[i]? = w.chans[i]?.map (hit (w.senders.take k) (.push a) i) := by
    intro a h
    obtain ⟨h1, h2⟩ := key a _ _ (some (w.values ++ [a])) (fun w1 h => ⟨_, rfl, by cases h; rfl⟩) h
    exact ⟨(Option.some.inj h1).symm, h2⟩
  have hset : ∀ i a, setClonePanics w i a (k + 1) = some w' → vSet w.values i a = some w'.values ∧ k + 1 < w.senders.length ∧
      w'.chans.length = w.chans.length ∧ ∀ j : Nat, w'.chans[j]? = w.chans[j]?.map (hit (w.senders.take k) (.updateAt i a) j) := by
    intro i a h
    refine key a _ _ (vSet w.values i a) (fun w1 h => ?_) h
    split at h
    · cases h
    · rename_i l hl
      cases h
      exact ⟨l, hl, rfl⟩
  have hrep : ∀ l, replaceClonePanics w l (k + 1) = some w' → w'.values = l ∧ k + 1 < w.senders.length ∧
      w'.chans.length = w.chans.length ∧ ∀ j : Nat, w'.chans[j]? = w.chans[j]?.map (hit (w.senders.take k) (.replace l) j) := by
    intro l h
    obtain ⟨h1, h2⟩ := key l _ _ (some l) (fun w1 h => ⟨_, rfl, by cases h; rfl⟩) h
    exact ⟨(Option.some.inj h1).symm, h2⟩
  have hins : ∀ i a, insertClonePanics w i a (k + 1) = some w' → ∃ d,
      (d = if i = w.values.length then VecDiff.push a else .insertAt i a) ∧
      (if i ≤ w.values.length then some (w.values.insertIdx i a) else none) = some w'.values ∧ k + 1 < w.senders.length ∧
      w'.chans.length = w.chans.length ∧ ∀ j : Nat, w'.chans[j]? = w.chans[j]?.map (hit (w.senders.take k) d j) := by
    intro i a h
    simp only [insertClonePanics] at h
    split at h
    · rename_i hi
      subst hi
      obtain ⟨h1, h2⟩ := hpush a h
      exact ⟨_, rfl, by simp [h1], by simpa using h2⟩
    · rename_i hi
      refine ⟨_, rfl, ?_⟩
      rw [if_neg hi]
      refine key a _ _ _ (fun w1 h => ?_) h
      split at h
      · cases h
      · rename_i l hl
        cases h
        exact ⟨l, hl, rfl⟩
  have hvset : ∀ i a, vSet w.values i a = some w'.values →
      (if i < w.values.length then some (w.values.set i a) else none) = some w'.values := fun i a h => h
  cases o with
  | pushCloned a =>
    obtain ⟨h1, h2⟩ := hpush a h
    exact ⟨.unit, _, by simp [Op.spec, h1], rfl, h2⟩
  | insertCloned i a =>
    obtain ⟨d, rfl, h1, h2⟩ := hins i a h
    refine ⟨.unit, _, ?_, ?_, h2⟩
    · simp only [Op.spec]
      split at h1
      · rename_i hi
        rw [if_pos hi, ← Option.some.inj h1]
      · cases h1
    · simp only [Op.diffs]
      split <;> rfl
  | setCloned i a =>
    obtain ⟨h1, h2⟩ := hset i a h
    refine ⟨.unit, _, ?_, rfl, h2⟩
    have := hvset i a h1
    simp only [Op.spec]
    split at this
    · rename_i hi
      rw [if_pos hi, ← Option.some.inj this]
    · cases this
  | replaceCloned l =>
    obtain ⟨h1, h2⟩ := hrep l h
    exact ⟨.unit, _, by simp [Op.spec, h1], rfl, h2⟩
  | applyVecDiff d =>
    cases d with
    | push a =>
      obtain ⟨h1, h2⟩ := hpush a h
      exact ⟨.unit, _, by simp [Op.spec, VecDiff.apply, h1], rfl, h2⟩
    | insertAt i a =>
      obtain ⟨d, rfl, h1, h2⟩ := hins i a h
      refine ⟨.unit, _, ?_, ?_, h2⟩
      · have h1' : vInsert w.values i a = some w'.values := h1
        simp [Op.spec, VecDiff.apply, h1']
      · simp only [Op.diffs]
        split <;> rfl
    | updateAt i a =>
      obtain ⟨h1, h2⟩ := hset i a h
      exact ⟨.unit, _, by simp [Op.spec, VecDiff.apply, h1], rfl, h2⟩
    | replace l =>
      obtain ⟨h1, h2⟩ := hrep l h
      exact ⟨.unit, _, by simp [Op.spec, VecDiff.apply, h1], rfl, h2⟩
    | _ => simp [clonePanics] at h
  | _ => simp [clonePanics] at h

/-- A poisoned `MutableVec` can still be cloned and dropped, and its subscribers polled and dropped: none of this changes
what a live subscriber received and will receive. -/
theorem poisoned_step {p p' : PWorld α} {e : PEv α} {o : Outcome} (hp : p.poisoned = true) (h : p.step e = some (o, p')) :
    p'.poisoned = true ∧ p'.w.values = p.w.values ∧ p'.w.chans.length = p.w.chans.length ∧
      ∀ (i : Nat) c', p'.w.chans[i]? = some c' → c'.rxAlive = true → ∃ c, p.w.chans[i]? = some c ∧ c.rxAlive = true ∧
        c'.delivered ++ c'.queue = c.delivered ++ c.queue := by
  have same : p' = p → p'.poisoned = true ∧ p'.w.values = p.w.values ∧ p'.w.chans.length = p.w.chans.length ∧
      ∀ (i : Nat) c', p'.w.chans[i]? = some c' → c'.rxAlive = true → ∃ c, p.w.chans[i]? = some c ∧ c.rxAlive = true ∧
        c'.delivered ++ c'.queue = c.delivered ++ c.queue := by
    rintro rfl
    exact ⟨hp, rfl, rfl, fun i c' h ha => ⟨c', h, ha, rfl⟩⟩
  cases e with
  | call e =>
    cases e with
    | op o =>
      simp only [PWorld.step, hp, if_true] at h
      split at h <;> cases h
      exact same rfl
    | subscribe =>
      simp only [PWorld.step, hp, if_true] at h
      split at h <;> cases h
      exact same rfl
    | cloneHandle =>
      simp only [PWorld.step] at h
      split at h <;> cases h
      exact ⟨hp, rfl, rfl, fun i c' h ha => ⟨c', h, ha, rfl⟩⟩
    | dropHandle =>
      simp only [PWorld.step] at h
      split at h <;> cases h
      simp only [World.dropHandle]
      split
      · obtain ⟨h1, h2, -, h4, -⟩ := dropSenders_spec p.w.senders { p.w with handles := p.w.handles - 1 }
        refine ⟨hp, h2, h4, fun i c' h ha => ?_⟩
        have h' := (h1 i).symm.trans h
        obtain ⟨c, hc, rfl⟩ := Option.map_eq_some_iff.1 h'
        refine ⟨c, hc, ?_⟩
        revert ha
        by_cases hm : i ∈ p.w.senders
        · rw [if_pos hm]
          exact fun ha => ⟨ha, rfl⟩
        · rw [if_neg hm]
          exact fun ha => ⟨ha, rfl⟩
      · exact ⟨hp, rfl, rfl, fun i c' h ha => ⟨c', h, ha, rfl⟩⟩
    | dropRx id =>
      simp only [PWorld.step] at h
      split at h <;> cases h
      simp only [World.dropRx]
      split
      · exact ⟨hp, rfl, rfl, fun i c' h ha => ⟨c', h, ha, rfl⟩⟩
      · refine ⟨hp, rfl, by simp, fun i c' h ha => ?_⟩
        rcases getElem?_set_some h with ⟨-, rfl, -⟩ | ⟨-, h⟩
        · cases ha
        · exact ⟨c', h, ha, rfl⟩
    | poll id cx =>
      simp only [PWorld.step] at h
      split at h <;> cases h
      simp only [World.pollRx]
      split
      · exact ⟨hp, rfl, rfl, fun i c' h ha => ⟨c', h, ha, rfl⟩⟩
      · rename_i c hc
        split
        · rename_i d ds hq
          refine ⟨hp, rfl, by simp, fun i c' h ha => ?_⟩
          rcases getElem?_set_some h with ⟨rfl, rfl, -⟩ | ⟨-, h⟩
          · exact ⟨c, hc, ha, by simp [hq]⟩
          · exact ⟨c', h, ha, rfl⟩
        · split
          · refine ⟨hp, rfl, by simp, fun i c' h ha => ?_⟩
            rcases getElem?_set_some h with ⟨rfl, rfl, -⟩ | ⟨-, h⟩
            · exact ⟨c, hc, ha, rfl⟩
            · exact ⟨c', h, ha, rfl⟩
          · exact ⟨hp, rfl, rfl, fun i c' h ha => ⟨c', h, ha, rfl⟩⟩
  | _ =>
    simp only [PWorld.step, hp, if_true] at h
    split at h <;> cases h
    exact same rfl

/-- **C73** (torn for ever).  If call `k + 1` of `clone` panics while a method broadcasts its change, then the contents are
those after the change, exactly the first `k` registered subscribers get it, and whatever happens afterwards the others
never do: from then on every live subscriber shows either the new contents or the old ones, for ever, depending only on
whether it subscribed before the subscriber number `cut`, the first one that was missed. -/
theorem C73_torn (vs : List α) (es : List (PEv α)) (os : List Outcome) (p p' : PWorld α)
    (h : (PWorld.init vs).runs es = some (os, p)) (hc : ∀ e ∈ es, e.CloneOk) (o : Op α) (k : Nat)
    (hs : p.step (.clonePanics o (k + 1)) = some (.panicked, p')) :
    ∃ r cut, o.spec p.w.values = some (r, p'.w.values) ∧ cut ∈ p.w.senders ∧ (p.w.senders.filter (· < cut)).length = k ∧
      ∀ es' os' q, p'.runs es' = some (os', q) → q.w.values = p'.w.values ∧ q.w.chans.length = p.w.chans.length ∧
        ∀ (id : Nat) c, q.w.chans[id]? = some c → c.rxAlive = true →
          replay (c.delivered ++ c.queue) [] = some (if id < cut then p'.w.values else p.w.values) := by
  simp only [PWorld.step] at hs
  split at hs
  · cases hs
  rename_i hh
  split at hs
  · cases hs
  rename_i hpo
  rcases hw' : clonePanics p.w o (k + 1) with _ | w' <;> rw [hw'] at hs
  · cases hs
  cases hs
  obtain ⟨w, h1, -, -, -, -, -, h2⟩ := C73_as_if_partial vs es os p h hc
  have hw := h2 (by simpa using hpo)
  subst hw
  have hi := inv_runs (inv_init vs) h1
  have hsort := sorted_runs (inv_init vs) (by simp [World.init]) h1
  obtain ⟨r, d, g1, g2, g3, g4, g5⟩ := clonePanics_succ hi.toWF hw'
  have hk : k < p.w.senders.length := by omega
  have hcut : ∀ s ∈ p.w.senders, s ∈ p.w.senders.take k ↔ s < p.w.senders[k] := by
    intro s hs
    obtain ⟨j, hj, rfl⟩ := List.mem_iff_getElem.1 hs
    constructor
    · intro hm
      obtain ⟨i, hi', e⟩ := List.mem_iff_getElem.1 hm
      rw [List.length_take] at hi'
      rw [List.getElem_take] at e
      rw [← e]
      exact List.pairwise_iff_getElem.1 hsort i k (by omega) hk (by omega)
    · intro hlt
      have hjk : j < k := by
        rcases Nat.lt_trichotomy j k with h | h | h
        · exact h
        · subst h; omega
        · have := List.pairwise_iff_getElem.1 hsort k j hk hj h
          omega
      exact List.mem_iff_getElem.2 ⟨j, by rw [List.length_take]; omega, by rw [List.getElem_take]⟩
  refine ⟨r, p.w.senders[k], g1, List.getElem_mem hk, ?_, ?_⟩
  · have e : p.w.senders.filter (· < p.w.senders[k]) = p.w.senders.take k := by
      have e1 : p.w.senders.filter (· < p.w.senders[k]) =
          (p.w.senders.take k ++ p.w.senders.drop k).filter (· < p.w.senders[k]) := by
        rw [List.take_append_drop]
      rw [e1, List.filter_append, List.filter_eq_self.2, List.filter_eq_nil_iff.2, List.append_nil]
      · intro s hs
        have hnd : (p.w.senders.take k ++ p.w.senders.drop k).Nodup := by
          rw [List.take_append_drop]
          exact hi.nodup
        intro hlt
        have hm := (hcut s (List.mem_of_mem_drop hs)).2 (by simpa using hlt)
        exact (List.nodup_append.1 hnd).2.2 s hm s hs rfl
      · intro s hs
        have := (hcut s (List.mem_of_mem_take hs)).1 hs
        simpa using this
    rw [e, List.length_take]
    omega
  · intro es' os' q hq
    have key := runE_inv (Inv := fun (_ : List (PEv α)) (_ : List Outcome) (q : PWorld α) =>
      q.poisoned = true ∧ q.w.values = w'.values ∧ q.w.chans.length = p.w.chans.length ∧
        ∀ (id : Nat) c, q.w.chans[id]? = some c → c.rxAlive = true →
          replay (c.delivered ++ c.queue) [] = some (if id < p.w.senders[k] then w'.values else p.w.values))
      (m := ⟨w', true⟩) ⟨rfl, rfl, g4, ?_⟩ ?_ hq
    · exact key.2
    · intro id c hc ha
      have hc' := (g5 id).symm.trans hc
      obtain ⟨c0, hc0, rfl⟩ := Option.map_eq_some_iff.1 hc'
      rw [hit_rxAlive] at ha
      have hm := hi.mirror id c0 hc0 ha
      have hmem := hi.live id c0 hc0 ha hh
      simp only [hit, ha, and_true, hcut id hmem]
      split
      · rw [← List.append_assoc, replay_append, hm]
        have := replay_diffs o p.w.values _ g1
        rw [g2] at this
        exact this
      · exact hm
    · rintro es os q e o q' ⟨i1, i2, i3, i4⟩ hstep
      obtain ⟨j1, j2, j3, j4⟩ := poisoned_step i1 hstep
      refine ⟨j1, j2.trans i2, j3.trans i3, fun id c' hc' ha => ?_⟩
      obtain ⟨c, hc, ha', e⟩ := j4 id c' hc' ha
      rw [e]
      exact i4 id c hc ha'

/-- Three subscribers; `insert_cloned` reaches only the first. -/
example : ∃ os p p', (PWorld.init [1]).runs [.call .subscribe, .call .subscribe, .call .subscribe, .call (.op (.push 2))] =
      some (os, p) ∧ p.step (.clonePanics (.insertCloned 0 9) 2) = some (.panicked, p') ∧ p'.w.values = [9, 1, 2] ∧
    ∃ os' q, p'.runs [.call (.poll 0 7), .call (.poll 1 7), .call (.poll 1 7), .call .dropHandle] = some (os', q) ∧
      q.w.chans.map (fun c => c.delivered ++ c.queue) =
        [[.replace [1], .push 2, .insertAt 0 9], [.replace [1], .push 2], [.replace [1], .push 2]] :=
  ⟨_, _, _, rfl, rfl, rfl, _, _, rfl, rfl⟩

end Verif.MutVecPanic
