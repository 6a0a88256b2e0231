import Verif.Tells
import Verif.MutableVecLively
import Verif.Props.MutableBTreeMap

/-!
# C97: each call of a `MutableVec` or `MutableBTreeMap` sends exactly these changes
-/

namespace Verif.MutVec

variable {α : Type}

theorem removalDiffs_keep (keep : Nat → Bool) (m c : Nat) :
    removalDiffs ((List.range m).filter fun i => !keep i).reverse (m + c) =
      (((List.range m).filter fun i => !keep i).reverse.map fun i =>
        if 0 < c ∨ ∃ j, j < m ∧ i < j ∧ keep j = true then VecDiff.removeAt i else (.pop : VecDiff α)) := by
  induction m generalizing c with
  | zero => simp [removalDiffs]
  | succ m ih =>
    rw [List.range_succ, List.filter_append, List.reverse_append]
    by_cases hk : keep m = true
    · simp only [hk, Bool.not_true, List.filter_cons, Bool.false_eq_true, ↓reduceIte, List.filter_nil,
        List.reverse_nil, List.nil_append]
      rw [show m + 1 + c = m + (c + 1) by omega, ih]
      apply List.map_congr_left
      intro i hi
      have him : i < m := by simp at hi; exact hi.1
      rw [if_pos (.inl (by omega)), if_pos (.inr ⟨m, by omega, him, hk⟩)]
    · simp only [hk, Bool.not_false, List.filter_cons, ↓reduceIte, List.filter_nil, List.reverse_cons,
        List.reverse_nil, List.nil_append, List.cons_append, removalDiffs, List.map_cons]
      rw [show m + 1 + c - 1 = m + c by omega, ih]
      congr 1
      · by_cases hc : c = 0
        · subst hc
          rw [if_pos (Nat.add_zero m).symm, if_neg]
          rintro (h | ⟨j, h1, h2, -⟩) <;> omega
        · rw [if_neg (by omega), if_pos (.inl (by omega))]
      · apply List.map_congr_left
        intro i hi
        congr 1
        simp only [eq_iff_iff]
        constructor
        · rintro (h | ⟨j, h1, h2, h3⟩)
          · exact .inl h
          · exact .inr ⟨j, by omega, h2, h3⟩
        · rintro (h | ⟨j, h1, h2, h3⟩)
          · exact .inl h
          · refine .inr ⟨j, ?_, h2, h3⟩
            by_cases hj : j = m
            · subst hj; exact absurd h3 hk
            · omega

/-- What the removal loops send, in closed form. -/
theorem leaving_eq (n : Nat) (keep : Nat → Bool) (h : ∃ j, j < n ∧ keep j = true) :
    removalDiffs ((List.range n).filter fun i => !keep i).reverse n = (leaving n keep : List (VecDiff α)) := by
  obtain ⟨j, hj, hk⟩ := h
  have := removalDiffs_keep (α := α) keep n 0
  rw [Nat.add_zero] at this
  rw [this, leaving, if_neg (by omega), if_neg (by intro h; rw [h j hj] at hk; cases hk)]
  apply List.map_congr_left
  intro i _
  simp

theorem removals_eq (f : α → Bool) (k : Nat) (l : List α) :
    removals f k l = ((List.range l.length).filter fun i => !(l[i]?.any f)).map (k + ·) := by
  induction l generalizing k with
  | nil => rfl
  | cons a l ih =>
    simp only [removals, List.length_cons, List.range_succ_eq_map, List.filter_cons, ih (k + 1), List.getElem?_cons_zero,
      Option.any_some, List.filter_map]
    have h : (List.map (fun x => k + 1 + x) (List.filter (fun i => !(l[i]?.any f)) (List.range l.length))) =
        (List.map (fun x => k + x) (List.map Nat.succ (List.filter ((fun i => !((a :: l)[i]?.any f)) ∘ Nat.succ)
          (List.range l.length)))) := by
      rw [List.map_map]
      apply List.map_congr_left
      intro i _
      simp only [Function.comp_apply]
      omega
    by_cases hf : f a = true
    · simp only [hf, Bool.not_true, Bool.false_eq_true, ↓reduceIte]
      exact h
    · simp only [hf, Bool.not_false, ↓reduceIte, List.map_cons, Nat.add_zero]
      rw [← h]

theorem rangeList_eq (start stop n : Nat) (h : stop ≤ n) :
    rangeList start stop = (List.range n).filter fun i => !decide (i < start ∨ stop ≤ i) := by
  unfold rangeList
  induction n generalizing stop with
  | zero =>
    have : stop = 0 := by omega
    subst this; simp
  | succ n ih =>
    rw [List.range_succ, List.filter_append]
    by_cases hs : stop ≤ n
    · rw [← ih stop hs]
      simp [hs]
    · have : stop = n + 1 := by omega
      subst this
      have e : (List.range n).filter (fun i => !decide (i < start ∨ n + 1 ≤ i)) =
          (List.range n).filter (fun i => !decide (i < start ∨ n ≤ i)) := by
        apply List.filter_congr
        intro i hi
        have := List.mem_range.1 hi
        have h1 : ¬ n + 1 ≤ i := by omega
        have h2 : ¬ n ≤ i := by omega
        simp [h1, h2]
      rw [e, ← ih n (Nat.le_refl n)]
      by_cases hn : n < start
      · rw [show n + 1 - start = 0 by omega, show n - start = 0 by omega]
        simp [hn]
      · rw [show n + 1 - start = (n - start) + 1 by omega, List.range'_concat]
        simp [hn]
        omega

theorem rangeDiffs_eq (start stop n : Nat) (h : stop ≤ n) :
    (rangeDiffs start stop n : List (VecDiff α)) = leaving n fun i => decide (i < start ∨ stop ≤ i) := by
  unfold rangeDiffs
  by_cases h0 : n = 0
  · subst h0
    rw [if_neg (by omega)]; simp [leaving]
  · by_cases h1 : stop > start
    · rw [if_pos h1]
      by_cases h2 : start = 0 ∧ stop = n
      · rw [if_pos h2, leaving, if_neg h0, if_pos]
        intro j hj
        simp; omega
      · rw [if_neg h2, rangeList_eq start stop n h]
        refine leaving_eq n (fun i => decide (i < start ∨ stop ≤ i)) ?_
        by_cases h3 : start = 0
        · exact ⟨stop, by omega, by simp⟩
        · exact ⟨0, by omega, by simp; omega⟩
    · rw [if_neg h1]
      rw [← leaving_eq n (fun i => decide (i < start ∨ stop ≤ i)) ⟨0, by omega, by simp; omega⟩]
      rw [List.filter_eq_nil_iff.2]
      · rfl
      · intro i _
        simp; omega

theorem tells_eq {o : Op α} {l : List α} {r} (h : o.spec l = some r) : o.diffs l = o.tells l := by
  have len0 : (l.length = 0) = (l = []) := by simp
  have rm : ∀ {i}, l[i]?.isSome → ((i = l.length - 1) = (i + 1 = l.length)) := by
    intro i hi
    have : i < l.length := by simpa using hi
    simp only [eq_iff_iff]
    omega
  cases o with
  | pop => simp only [Op.diffs, Op.tells, len0]
  | clear => simp only [Op.diffs, Op.tells, len0]
  | remove i =>
    have : l[i]?.isSome := by
      simp only [Op.spec, Option.map_eq_some_iff] at h
      obtain ⟨a, ha, -⟩ := h
      simp [ha]
    simp only [Op.diffs, Op.tells, rm this]
  | swap a b =>
    simp only [Op.diffs, Op.tells]
    by_cases h1 : a = b
    · subst h1; simp
    · by_cases h2 : a < b
      · simp only [h1, h2, ↓reduceIte]
        by_cases h3 : b - 1 = a
        · rw [if_pos h3, if_pos (.inl (by omega))]
        · rw [if_neg h3, if_neg (by omega)]
      · simp only [h1, h2, ↓reduceIte]
        rw [if_pos (by omega)]
        by_cases h3 : b + 1 = a
        · rw [if_pos h3, if_pos (.inr h3)]
        · rw [if_neg h3, if_neg (by omega)]
  | retain f =>
    simp only [Op.diffs, Op.tells]
    by_cases h0 : l.length = 0
    · simp [h0, leaving]
    · rw [if_neg h0]
      by_cases h1 : (l.filter f).length = 0
      · rw [if_pos h1, leaving, if_neg h0, if_pos]
        intro j hj
        rw [List.length_eq_zero_iff, List.filter_eq_nil_iff] at h1
        have := h1 l[j] (List.getElem_mem hj)
        simpa [List.getElem?_eq_getElem hj] using this
      · rw [if_neg h1, removals_eq]
        have : (fun x => 0 + x) = (id : Nat → Nat) := by funext x; simp
        rw [this, List.map_id]
        refine leaving_eq l.length (fun i => l[i]?.any f) ?_
        have : l.filter f ≠ [] := by intro e; exact h1 (by rw [e]; rfl)
        obtain ⟨a, ha⟩ := List.exists_mem_of_ne_nil _ this
        obtain ⟨ha, hf⟩ := List.mem_filter.1 ha
        obtain ⟨j, hj, rfl⟩ := List.getElem_of_mem ha
        exact ⟨j, hj, by simpa [List.getElem?_eq_getElem hj] using hf⟩
  | drain lo hi =>
    simp only [Op.spec] at h
    split at h
    · rename_i hb
      exact rangeDiffs_eq _ _ _ hb.2
    · cases h
  | truncate n =>
    have e := rangeDiffs_eq (α := α) n l.length l.length (Nat.le_refl _)
    simp only [Op.diffs, Op.tells, e, leaving]
    by_cases h0 : l.length = 0
    · simp [h0]
    · have hc : ∀ j, j < l.length → decide (j < n ∨ l.length ≤ j) = decide (j < n) := by
        intro j hj
        have : ¬ l.length ≤ j := by omega
        simp [this]
      have h1 : (∀ j, j < l.length → decide (j < n ∨ l.length ≤ j) = false) ↔
          (∀ j, j < l.length → decide (j < n) = false) := by
        constructor <;> intro h j hj
        · rw [← hc j hj]; exact h j hj
        · rw [hc j hj]; exact h j hj
      have h2 : ((List.range l.length).filter fun i => !decide (i < n ∨ l.length ≤ i)) =
          ((List.range l.length).filter fun i => !decide (i < n)) :=
        List.filter_congr fun i hi => by rw [hc i (List.mem_range.1 hi)]
      have h3 : ∀ i, (∃ j, j < l.length ∧ i < j ∧ decide (j < n ∨ l.length ≤ j) = true) ↔
          (∃ j, j < l.length ∧ i < j ∧ decide (j < n) = true) := by
        intro i
        constructor <;> rintro ⟨j, a, b, c⟩ <;> refine ⟨j, a, b, ?_⟩
        · rw [← hc j a]; exact c
        · rw [hc j a]; exact c
      simp only [h1, h2, h3]
  | applyVecDiff d =>
    cases d with
    | removeAt i =>
      have : l[i]?.isSome := by
        simp only [Op.spec, VecDiff.apply] at h
        cases hx : l[i]? with
        | none => simp [vRemove, hx] at h
        | some a => rfl
      simp only [Op.diffs, Op.tells, rm this]
    | clear => simp only [Op.diffs, Op.tells, len0]
    | _ => rfl
  | _ => rfl

/-- What a subscriber was sent so far is `T`; a subscriber that was dropped got the beginning of it. -/
def SentTo (k : Nat) (T : List (VecDiff α)) (w : World α) : Prop :=
  (w.chans.length ≤ k → T = []) ∧
  ∀ c, w.chans[k]? = some c → (c.rxAlive = true → c.stream = T) ∧ c.delivered <+: T

/-- One event. -/
def now (k : Nat) (w : World α) : Ev α → List (VecDiff α)
  | .op o => if k < w.chans.length ∧ w.handles ≠ 0 then o.tells w.values else []
  | .subscribe => if k = w.chans.length ∧ w.handles ≠ 0 then greeting w.values else []
  | _ => []

theorem sent_step {k : Nat} {T : List (VecDiff α)} {w w' : World α} (hw : Inv w) (hT : SentTo k T w) {e : Ev α}
    (h : w.step e = some w') : SentTo k (T ++ now k w e) w' ∧
      w'.chans.length = (match e with
        | .subscribe => if w.handles ≠ 0 then w.chans.length + 1 else w.chans.length
        | _ => w.chans.length) := by
  -- each subscriber keeps what it was sent
  have keep : ∀ f : Chan α → Chan α, (∀ c, ((f c).rxAlive = true → c.rxAlive = true ∧ (f c).stream = c.stream) ∧
      (f c).delivered = c.delivered) →
      (w'.chans[k]? = w.chans[k]?.map f) → w'.chans.length = w.chans.length → SentTo k (T ++ []) w' := by
    intro f hf heq hlen
    rw [List.append_nil]
    refine ⟨by rw [hlen]; exact hT.1, fun c' hc' => ?_⟩
    rw [heq] at hc'
    cases hc : w.chans[k]? with
    | none => simp [hc] at hc'
    | some c =>
      simp only [hc, Option.map_some, Option.some.injEq] at hc'
      subst hc'
      obtain ⟨h1, h2⟩ := hT.2 c hc
      exact ⟨fun ha => by obtain ⟨a, b⟩ := (hf c).1 ha; rw [b, h1 a], by rw [(hf c).2]; exact h2⟩
  have same : w' = w → SentTo k (T ++ []) w' := by rintro rfl; rw [List.append_nil]; exact hT
  cases e with
  | op o =>
    simp only [World.step] at h
    by_cases hh : w.handles = 0
    · simp only [hh, ↓reduceIte, Option.some.injEq] at h
      simp only [now, hh, ne_eq, not_true_eq_false, and_false, ↓reduceIte]
      exact ⟨same h.symm, by rw [h]⟩
    · simp only [hh, ↓reduceIte, exec_eq] at h
      cases hsp : o.spec w.values with
      | none => simp [hsp] at h
      | some sp =>
        rw [tells_eq hsp] at h
        simp [hsp] at h; subst h
        obtain ⟨-, h2, -, h4⟩ := wf_notifyAll hw.toWF hh (o.tells w.values)
        refine ⟨⟨?_, ?_⟩, h4⟩
        · intro hk
          simp only [h4] at hk
          simp only [now, hT.1 hk, List.nil_append]
          rw [if_neg (by omega)]
        · intro c' hc'
          simp only at hc'
          rw [h2] at hc'
          cases hc : w.chans[k]? with
          | none => simp [hc] at hc'
          | some c =>
            simp only [hc, Option.map_some, Option.some.injEq] at hc'
            subst hc'
            have hlt := (List.getElem?_eq_some_iff.1 hc).1
            obtain ⟨e1, e2⟩ := hT.2 c hc
            simp only [now, hlt, hh, ne_eq, not_false_eq_true, and_self, ↓reduceIte]
            refine ⟨fun ha => ?_, ?_⟩
            · rw [pushAll_rxAlive] at ha
              rw [Chan.stream, pushAll_delivered, pushAll_queue _ _ ha, ← List.append_assoc]
              exact congrArg (· ++ _) (e1 ha)
            · rw [pushAll_delivered]
              exact e2.trans (List.prefix_append _ _)
  | subscribe =>
    simp only [World.step] at h
    by_cases hh : w.handles = 0
    · simp only [hh, ↓reduceIte, Option.some.injEq] at h
      simp only [now, hh, ne_eq, not_true_eq_false, and_false, ↓reduceIte]
      exact ⟨same h.symm, by rw [h]⟩
    · simp only [hh, ↓reduceIte, Option.some.injEq] at h; subst h
      refine ⟨⟨?_, ?_⟩, by simp [World.signalVec, hh]⟩
      · intro hk
        simp only [World.signalVec, List.length_append, List.length_cons, List.length_nil] at hk
        simp only [now]
        rw [hT.1 (by omega), if_neg (by omega)]; rfl
      · intro c' hc'
        simp only [World.signalVec] at hc'
        rw [List.getElem?_append] at hc'
        split at hc'
        · rename_i hlt
          simp only [now]
          rw [if_neg (by omega), List.append_nil]
          exact hT.2 c' hc'
        · rename_i hge
          have hk : k = w.chans.length := by
            have := (List.getElem?_eq_some_iff.1 hc').1
            simp at this
            omega
          have := List.mem_of_getElem? hc'
          simp only [List.mem_singleton] at this
          subst this
          rw [hT.1 (by omega)]
          simp only [now, hk, hh, ne_eq, not_false_eq_true, and_self, ↓reduceIte, List.nil_append]
          refine ⟨fun _ => ?_, ?_⟩
          · simp only [Chan.stream, Chan.new, List.nil_append, greeting]
            cases w.values <;> simp
          · exact List.nil_prefix
  | poll id cx =>
    simp only [now]
    simp only [World.step] at h
    by_cases hl' : w.rxLive id = true
    · simp only [hl', ↓reduceIte, Option.some.injEq] at h; subst h
      refine ⟨?_, ?_⟩
      · rw [List.append_nil]
        refine ⟨?_, ?_⟩
        · unfold World.pollRx
          split
          · exact hT.1
          · split
            · simpa using hT.1
            · split
              · simpa using hT.1
              · exact hT.1
        · intro c' hc'
          unfold World.pollRx at hc'
          split at hc'
          · exact hT.2 c' hc'
          · rename_i c hc
            split at hc'
            · rename_i d ds hq
              rcases getElem?_set_some hc' with ⟨rfl, rfl, -⟩ | ⟨-, h⟩
              · have hl2 : c.rxAlive = true := by simpa [World.rxLive, hc] using hl'
                have e1 := (hT.2 c hc).1 hl2
                have e2 : c.delivered ++ [d] ++ ds = T := by rw [← e1, Chan.stream, hq]; simp
                exact ⟨fun _ => e2, ⟨ds, e2⟩⟩
              · exact hT.2 c' h
            · split at hc'
              · rcases getElem?_set_some hc' with ⟨rfl, rfl, -⟩ | ⟨-, h⟩
                · exact hT.2 c hc
                · exact hT.2 c' h
              · exact hT.2 c' hc'
      · unfold World.pollRx
        split
        · rfl
        · split
          · simp
          · split <;> simp
    · simp only [hl'] at h
      cases h
      exact ⟨same rfl, rfl⟩
  | dropRx id =>
    simp only [now]
    simp only [World.step] at h
    by_cases hl' : w.rxLive id = true
    · simp only [hl', ↓reduceIte, Option.some.injEq] at h; subst h
      have hlen : (w.dropRx id).chans.length = w.chans.length := by
        unfold World.dropRx; split <;> simp
      refine ⟨keep _ ?_ (dropRx_spec w id k).1 hlen, hlen⟩
      intro c
      split
      · exact ⟨fun h => by simp at h, rfl⟩
      · exact ⟨fun h => ⟨h, rfl⟩, rfl⟩
    · simp only [hl'] at h
      cases h
      exact ⟨same rfl, rfl⟩
  | cloneHandle =>
    simp only [now]
    simp only [World.step] at h
    by_cases hh : w.handles = 0
    · simp only [hh, ↓reduceIte, Option.some.injEq] at h; exact ⟨same h.symm, by rw [h]⟩
    · simp only [hh, ↓reduceIte, Option.some.injEq] at h; subst h
      exact ⟨keep id (fun c => ⟨fun h => ⟨h, rfl⟩, rfl⟩) (by simp) rfl, rfl⟩
  | dropHandle =>
    simp only [now]
    simp only [World.step] at h
    by_cases hh : w.handles = 0
    · simp only [hh, ↓reduceIte, Option.some.injEq] at h; exact ⟨same h.symm, by rw [h]⟩
    · simp only [hh, ↓reduceIte, Option.some.injEq] at h; subst h
      have hlen : w.dropHandle.chans.length = w.chans.length := by
        have key := (dropHandle_spec hh).2.2.2.1
        apply Nat.le_antisymm
        · refine Nat.le_of_not_lt fun hlt => ?_
          have := key w.chans.length
          rw [List.getElem?_eq_none (Nat.le_refl _), List.getElem?_eq_getElem hlt] at this
          cases this
        · refine Nat.le_of_not_lt fun hlt => ?_
          have := key w.dropHandle.chans.length
          rw [List.getElem?_eq_none (Nat.le_refl _), List.getElem?_eq_getElem hlt] at this
          cases this
      refine ⟨keep _ ?_ ((dropHandle_spec hh).2.2.2.1 k) hlen, hlen⟩
      intro c
      split
      · exact ⟨fun h => ⟨by simpa [closed] using h, by simp [Chan.stream, closed]⟩, by simp [closed]⟩
      · exact ⟨fun h => ⟨h, rfl⟩, rfl⟩

theorem sent_runs {k : Nat} {T : List (VecDiff α)} {w w' : World α} (hw : Inv w) (hT : SentTo k T w)
    {h : List (Ev α)} (hr : w.runs h = some w') : SentTo k (T ++ sentTo k w.chans.length w h) w' := by
  induction h generalizing w T with
  | nil => cases hr; simpa [sentTo] using hT
  | cons e es ih =>
    simp only [World.runs] at hr
    cases hs : w.step e with
    | none => simp [hs] at hr
    | some w1 =>
      simp only [hs] at hr
      obtain ⟨h1, h2⟩ := sent_step hw hT hs
      have := ih (inv_step hw hs) h1 hr
      rw [h2, List.append_assoc] at this
      simp only [sentTo, hs]
      cases e <;> exact this

/-- **C97 for `MutableVec`**: in every history, a subscriber that was not dropped has received or has waiting exactly the
contents when it subscribed and, for each call since, the changes `Op.tells` of that call, in this order; a subscriber
that was dropped has received a beginning of that. -/
theorem C97_vec (vs : List α) (h : List (Ev α)) (w : World α) (hr : (World.init vs).runs h = some w) (k : Nat)
    (c : Chan α) (hc : w.chans[k]? = some c) :
    (c.rxAlive = true → received k (World.init vs) h ++ c.queue = sentTo k 0 (World.init vs) h) ∧
    received k (World.init vs) h <+: sentTo k 0 (World.init vs) h := by
  have hs := sent_runs (T := []) (k := k) (inv_init vs) ⟨fun _ => rfl, by simp [World.init]⟩ hr
  have hlog := runs_log (inv_init vs) hr k
  have h0 : (World.init vs).log k = [] := by simp [World.log, World.init]
  rw [h0, List.nil_append] at hlog
  have hd : c.delivered = received k (World.init vs) h := by rw [← hlog]; simp [World.log, hc]
  have := hs.2 c hc
  simp only [List.nil_append, Chan.stream, hd] at this
  exact this

/-- **C97, one call**: whatever the contents, a call that does not panic puts the changes `Op.tells` at the end of what
waits for each subscriber. -/
theorem C97_vec_call (vs : List α) (h : List (Ev α)) (w w' : World α) (hr : (World.init vs).runs h = some w)
    (hh : w.handles ≠ 0) (o : Op α) (r : Ret α) (hx : w.exec o = some (r, w')) (k : Nat) (c : Chan α)
    (hc : w.chans[k]? = some c) (ha : c.rxAlive = true) :
    ∃ c', w'.chans[k]? = some c' ∧ c'.queue = c.queue ++ o.tells w.values ∧ c'.rxAlive = true := by
  have hw := inv_runs (inv_init vs) hr
  rw [exec_eq] at hx
  cases hsp : o.spec w.values with
  | none => simp [hsp] at hx
  | some sp =>
    rw [tells_eq hsp] at hx
    simp only [hsp, Option.map_some, Option.some.injEq, Prod.mk.injEq] at hx
    obtain ⟨-, rfl⟩ := hx
    obtain ⟨-, h2, -, -⟩ := wf_notifyAll hw.toWF hh (o.tells w.values)
    exact ⟨pushAll (o.tells w.values) c, by simp [h2, hc], pushAll_queue _ _ ha, by rw [pushAll_rxAlive]; exact ha⟩

/-- Two subscribers; elements leave in the middle and at the end. -/
def tellHistory : List (Ev Nat) :=
  [.subscribe, .op (.retain (· % 2 == 1)), .subscribe, .op (.drain (.included 1) (.excluded 2)), .poll 0 1, .poll 0 1,
   .op (.swap 0 1), .op (.truncate 1), .dropRx 0, .op .clear]

example : ((World.init [1, 2, 3, 5, 6, 8]).runs tellHistory).isSome ∧
    sentTo 0 0 (World.init [1, 2, 3, 5, 6, 8]) tellHistory =
      [.replace [1, 2, 3, 5, 6, 8], .pop, .pop, .removeAt 1, .removeAt 1, .move 0 1, .pop, .clear] ∧
    sentTo 1 0 (World.init [1, 2, 3, 5, 6, 8]) tellHistory =
      [.replace [1, 3, 5], .removeAt 1, .move 0 1, .pop, .clear] ∧
    received 0 (World.init [1, 2, 3, 5, 6, 8]) tellHistory = [.replace [1, 2, 3, 5, 6, 8], .pop] :=
  ⟨rfl, by decide, by decide, rfl⟩

end Verif.MutVec

namespace Verif.MutMap

variable {K V : Type} [LinearOrder K]

theorem tells_eq (o : Op K V) (m : BMap K V) : o.diffs m = o.tells m.1 := by
  cases o <;> simp only [Op.diffs, Op.tells, mapOf_isSome, List.isEmpty_iff]

/-- What a subscriber was sent so far is `T`; a subscriber that was dropped got the beginning of it. -/
def SentTo (k : Nat) (T : List (MapDiff K V)) (h : Hub (MapDiff K V)) : Prop :=
  (h.links.length ≤ k → T = []) ∧
  ∀ c, h.links[k]? = some c → (c.rxAlive = true → c.delivered ++ c.queue = T) ∧ c.delivered <+: T

theorem sent_notify {k : Nat} {T : List (MapDiff K V)} {h : Hub (MapDiff K V)} (hw : HubWF h) (hh : h.handles ≠ 0)
    (hT : SentTo k T h) (ds : List (MapDiff K V)) :
    SentTo k (T ++ if k < h.links.length then ds else []) (ds.foldl Hub.notify h) ∧
      (ds.foldl Hub.notify h).links.length = h.links.length := by
  induction ds generalizing h T with
  | nil => refine ⟨?_, rfl⟩; simpa using hT
  | cons d ds ih =>
    obtain ⟨g1, g2, g3, -⟩ := hub_notify hw hh d
    have hlen : (h.notify d).links.length = h.links.length := by
      apply Nat.le_antisymm
      · refine Nat.le_of_not_lt fun hlt => ?_
        have := g2 h.links.length
        rw [List.getElem?_eq_none (Nat.le_refl _), List.getElem?_eq_getElem hlt] at this
        cases this
      · refine Nat.le_of_not_lt fun hlt => ?_
        have := g2 (h.notify d).links.length
        rw [List.getElem?_eq_none (Nat.le_refl _), List.getElem?_eq_getElem hlt] at this
        cases this
    have h1 : SentTo k (T ++ if k < h.links.length then [d] else []) (h.notify d) := by
      refine ⟨fun hk => ?_, fun c' hc' => ?_⟩
      · rw [hlen] at hk
        rw [hT.1 hk, if_neg (by omega)]; rfl
      · rw [g2] at hc'
        cases hc : h.links[k]? with
        | none => simp [hc] at hc'
        | some c =>
          simp only [hc, Option.map_some, Option.some.injEq] at hc'
          subst hc'
          rw [if_pos (List.getElem?_eq_some_iff.1 hc).1]
          obtain ⟨e1, e2⟩ := hT.2 c hc
          refine ⟨fun ha => ?_, ?_⟩
          · rw [hubPush_rxAlive] at ha
            rw [hubPush_delivered, ← e1 ha]
            simp [hubPush, ha]
          · rw [hubPush_delivered]
            exact e2.trans (List.prefix_append _ _)
    obtain ⟨i1, i2⟩ := ih g1 (by rw [g3]; exact hh) h1
    refine ⟨?_, by rw [List.foldl_cons, i2, hlen]⟩
    rw [hlen, List.append_assoc] at i1
    rw [List.foldl_cons]
    split
    · rename_i hk
      rw [if_pos hk, if_pos hk] at i1
      exact i1
    · rename_i hk
      rw [if_neg hk, if_neg hk] at i1
      simpa using i1

theorem dropHandle_length {D : Type} (h : Hub D) : h.dropHandle.links.length = h.links.length := by
  have key := (hubDropSenders_spec h.senders { h with handles := h.handles - 1 }).1
  unfold Hub.dropHandle
  simp only
  split
  · apply Nat.le_antisymm
    · refine Nat.le_of_not_lt fun hlt => ?_
      have := key h.links.length
      rw [List.getElem?_eq_none (Nat.le_refl _), List.getElem?_eq_getElem hlt] at this
      cases this
    · refine Nat.le_of_not_lt fun hlt => ?_
      have := key (hubDropSenders h.senders { h with handles := h.handles - 1 }).links.length
      rw [List.getElem?_eq_none (Nat.le_refl _), List.getElem?_eq_getElem hlt] at this
      cases this
  · rfl

/-- One event. -/
def now (k : Nat) (w : World K V) : Ev K V → List (MapDiff K V)
  | .op o => if k < w.hub.links.length ∧ w.hub.handles ≠ 0 then o.tells w.values.1 else []
  | .subscribe => if k = w.hub.links.length ∧ w.hub.handles ≠ 0 then greeting w.values.1 else []
  | _ => []

theorem sent_step {k : Nat} {T : List (MapDiff K V)} {w w' : World K V} (hi : Inv w) (hT : SentTo k T w.hub)
    {e : Ev K V} (h : w.step e = some w') : SentTo k (T ++ now k w e) w'.hub ∧
      w'.hub.links.length = (match e with
        | .subscribe => if w.hub.handles ≠ 0 then w.hub.links.length + 1 else w.hub.links.length
        | _ => w.hub.links.length) := by
  rw [step_eq w hi.wf] at h
  simp only [Option.some.injEq] at h
  subst h
  have same : SentTo k (T ++ []) w.hub := by rw [List.append_nil]; exact hT
  cases e with
  | op o =>
    simp only [Ev.hubEvs, now]
    by_cases hh : w.hub.handles = 0
    · simp only [hh, ↓reduceIte, Hub.steps, List.foldl_nil, ne_eq, not_true_eq_false, and_false]
      exact ⟨same, trivial⟩
    · simp only [hh, ↓reduceIte, ne_eq, not_false_eq_true, and_true]
      rw [← foldl_notify _ hi.wf hh, tells_eq]
      exact sent_notify hi.wf hh hT _
  | subscribe =>
    simp only [Ev.hubEvs, now, Hub.steps, List.foldl_cons, List.foldl_nil, Hub.step]
    by_cases hh : w.hub.handles = 0
    · simp only [hh, ↓reduceIte, ne_eq, not_true_eq_false, and_false]
      exact ⟨same, trivial⟩
    · simp only [hh, ↓reduceIte, ne_eq, not_false_eq_true, and_true]
      refine ⟨⟨?_, ?_⟩, by simp [Hub.subscribe]⟩
      · intro hk
        simp only [Hub.subscribe, List.length_append, List.length_cons, List.length_nil] at hk
        rw [hT.1 (by omega), if_neg (by omega)]; rfl
      · intro c' hc'
        simp only [Hub.subscribe] at hc'
        rw [List.getElem?_append] at hc'
        split at hc'
        · rename_i hlt
          rw [if_neg (by omega), List.append_nil]
          exact hT.2 c' hc'
        · rename_i hge
          have hk : k = w.hub.links.length := by
            have := (List.getElem?_eq_some_iff.1 hc').1
            simp at this
            omega
          have := List.mem_of_getElem? hc'
          simp only [List.mem_singleton] at this
          subst this
          rw [hT.1 (by omega), if_pos hk, List.nil_append]
          refine ⟨fun _ => ?_, List.nil_prefix⟩
          simp only [List.nil_append, greeting, List.isEmpty_iff]
  | poll id cx =>
    simp only [Ev.hubEvs, now, Hub.steps, List.foldl_cons, List.foldl_nil, Hub.step]
    split
    · rename_i hl'
      refine ⟨?_, ?_⟩
      · rw [List.append_nil]
        refine ⟨?_, ?_⟩
        · unfold Hub.pollRx
          split
          · exact hT.1
          · split
            · simpa using hT.1
            · split
              · simpa using hT.1
              · exact hT.1
        · intro c' hc'
          unfold Hub.pollRx at hc'
          split at hc'
          · exact hT.2 c' hc'
          · rename_i c hc
            split at hc'
            · rename_i d ds hq
              rcases getElem?_set_some' hc' with ⟨rfl, rfl, -⟩ | ⟨-, h⟩
              · have hl2 : c.rxAlive = true := by simpa [Hub.rxLive, hc] using hl'
                have e1 := (hT.2 c hc).1 hl2
                have e2 : c.delivered ++ [d] ++ ds = T := by rw [← e1, hq]; simp
                exact ⟨fun _ => e2, ⟨ds, e2⟩⟩
              · exact hT.2 c' h
            · split at hc'
              · rcases getElem?_set_some' hc' with ⟨rfl, rfl, -⟩ | ⟨-, h⟩
                · exact hT.2 c hc
                · exact hT.2 c' h
              · exact hT.2 c' hc'
      · unfold Hub.pollRx
        split
        · rfl
        · split
          · simp
          · split <;> simp
    · exact ⟨same, rfl⟩
  | dropRx id =>
    simp only [Ev.hubEvs, now, Hub.steps, List.foldl_cons, List.foldl_nil, Hub.step]
    split
    · refine ⟨?_, by unfold Hub.dropRx; split <;> simp⟩
      rw [List.append_nil]
      unfold Hub.dropRx
      split
      · exact hT
      · rename_i c hc
        refine ⟨by simpa using hT.1, fun c' hc' => ?_⟩
        rcases getElem?_set_some' hc' with ⟨rfl, rfl, -⟩ | ⟨-, h⟩
        · exact ⟨fun h => by simp at h, (hT.2 c hc).2⟩
        · exact hT.2 c' h
    · exact ⟨same, rfl⟩
  | cloneHandle =>
    simp only [Ev.hubEvs, now, Hub.steps, List.foldl_cons, List.foldl_nil, Hub.step]
    split
    · exact ⟨same, rfl⟩
    · exact ⟨same, rfl⟩
  | dropHandle =>
    simp only [Ev.hubEvs, now, Hub.steps, List.foldl_cons, List.foldl_nil, Hub.step]
    split
    · exact ⟨same, rfl⟩
    · refine ⟨?_, dropHandle_length w.hub⟩
      rw [List.append_nil]
      refine ⟨by rw [dropHandle_length]; exact hT.1, fun c' hc' => ?_⟩
      obtain ⟨c, hx, e1, e2, e3, -⟩ := dropHandle_links hc'
      rw [e1, e2, e3]
      exact hT.2 c hx

theorem sent_runs {k : Nat} {T : List (MapDiff K V)} {w w' : World K V} (hw : Inv w) (hT : SentTo k T w.hub)
    {h : List (Ev K V)} (hr : w.runs h = some w') : SentTo k (T ++ sentTo k w.hub.links.length w h) w'.hub := by
  induction h generalizing w T with
  | nil => cases hr; simpa [sentTo] using hT
  | cons e es ih =>
    simp only [World.runs] at hr
    cases hs : w.step e with
    | none => simp [hs] at hr
    | some w1 =>
      simp only [hs] at hr
      obtain ⟨h1, h2⟩ := sent_step hw hT hs
      have := ih (inv_step hw hs) h1 hr
      rw [h2, List.append_assoc] at this
      simp only [sentTo, hs]
      cases e <;> exact this

/-- **C97 for `MutableBTreeMap`**: in every history, a subscriber that was not dropped has received or has waiting
exactly the entries when it subscribed and, for each call since, the change `Op.tells` of that call, in this order; a
subscriber that was dropped has received a beginning of that. -/
theorem C97_map (vs : BMap K V) (h : List (Ev K V)) (w : World K V) (hr : (World.init vs).runs h = some w) (k : Nat)
    (c : Link (MapDiff K V)) (hc : w.hub.links[k]? = some c) :
    (c.rxAlive = true → received k (World.init vs) h ++ c.queue = sentTo k 0 (World.init vs) h) ∧
    received k (World.init vs) h <+: sentTo k 0 (World.init vs) h := by
  have hs := sent_runs (T := []) (k := k) (inv_init vs) ⟨fun _ => rfl, by simp [World.init]⟩ hr
  have hlog := runs_log (inv_init vs) hr k
  have h0 : (World.init vs).hub.log k = [] := by simp [Hub.log, World.init]
  rw [h0, List.nil_append] at hlog
  have hd : c.delivered = received k (World.init vs) h := by rw [← hlog]; simp [Hub.log, hc]
  have := hs.2 c hc
  simp only [List.nil_append, hd] at this
  exact this

/-- Entries added, changed and removed; the second subscriber comes later. -/
def tellHistory : List (Ev Nat Nat) :=
  [.subscribe, .op (.insert 4 6), .op (.insert 4 7), .subscribe, .op (.remove 9), .poll 0 1, .op (.remove 4),
   .op .clear, .op .clear]

example : ((World.init demo0).runs tellHistory).isSome ∧
    sentTo 0 0 (World.init demo0) tellHistory =
      [.replace demo0.1, .insert 4 6, .update 4 7, .remove 4, .clear] ∧
    sentTo 1 0 (World.init demo0) tellHistory = [.replace (demo0.1 ++ [(4, 7)]), .remove 4, .clear] ∧
    received 0 (World.init demo0) tellHistory = [.replace demo0.1] := ⟨rfl, rfl, rfl, rfl⟩

end Verif.MutMap
