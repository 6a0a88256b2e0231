import Verif.VolumeVec
import Verif.VolumeProofs2
import Verif.MutableVecInv
import Verif.MutableVecLively
import Verif.Props.MutableVec

/-!
# C93 for the source: what a `MutableVec` sends is proportional to what its calls were given
-/

namespace Verif.MutVec

variable {α : Type}

theorem removalDiffs_vol (is : List Nat) (len : Nat) :
    vol (removalDiffs (α := α) is len) = is.length := by
  induction is generalizing len with
  | nil => rfl
  | cons i is ih =>
    have := ih (len - 1)
    simp only [vol, removalDiffs, sumBy_cons, List.length_cons] at this ⊢
    rw [this]
    split <;> simp [VecDiff.size, VecDiff.payload] <;> omega

theorem rangeDiffs_vol (a b len : Nat) : vol (rangeDiffs (α := α) a b len) ≤ b - a := by
  unfold rangeDiffs
  split
  · split
    · simp [vol, VecDiff.size, VecDiff.payload]; omega
    · rw [removalDiffs_vol]; simp [rangeList]
  · simp [vol]

theorem removals_filter_length (f : α → Bool) (k : Nat) (l : List α) :
    (removals f k l).length + (l.filter f).length = l.length := by
  induction l generalizing k with
  | nil => rfl
  | cons a l ih =>
    have := ih (k + 1)
    simp only [removals, List.filter_cons]
    cases f a <;> simp <;> omega

/-- The cost of one call, with the length of the contents as credit. -/
theorem diffs_vol (o : Op α) (ho : o ≠ .reverse) (l : List α) (r : Ret α × List α) (h : o.spec l = some r) :
    vol (o.diffs l) + r.2.length ≤ l.length + 3 * o.given + 2 := by
  cases o with
  | reverse => exact absurd rfl ho
  | pop => simp [Op.spec] at h; subst h; simp [Op.diffs]; split <;> simp [vol, VecDiff.size, VecDiff.payload] <;> omega
  | clear => simp [Op.spec] at h; subst h; simp [Op.diffs]; split <;> simp [vol, VecDiff.size, VecDiff.payload] <;> omega
  | retain f =>
    simp [Op.spec] at h; subst h
    have h1 := removals_filter_length f 0 l
    have h2 := List.length_filter_le f l
    simp only [Op.diffs]
    split
    · simp [vol, Op.given] at *; omega
    · split
      · simp [vol, VecDiff.size, VecDiff.payload, Op.given] at *; omega
      · rw [removalDiffs_vol]; simp at *; omega
  | truncate n =>
    simp [Op.spec] at h; subst h
    have := rangeDiffs_vol (α := α) n l.length l.length
    simp [Op.diffs, Op.given]
    omega
  | drain lo hi =>
    simp [Op.spec] at h
    obtain ⟨⟨h1, h2⟩, rfl⟩ := h
    have := rangeDiffs_vol (α := α) lo.lower (hi.upper l.length) l.length
    simp [Op.diffs, Op.given]
    omega
  | extend vs =>
    simp [Op.spec] at h; subst h
    have : vol (vs.map VecDiff.push) = 2 * vs.length := by
      induction vs with
      | nil => rfl
      | cons a vs ih => simp [vol, VecDiff.size, VecDiff.payload] at ih ⊢; omega
    simp [Op.diffs, Op.given]
    omega
  | remove i =>
    simp [Op.spec] at h
    obtain ⟨a, h1, rfl⟩ := h
    simp only [Op.diffs]
    have := List.length_eraseIdx_le l i
    split <;> simp [vol, VecDiff.size, VecDiff.payload, Op.given] <;> omega
  | moveFromTo i j =>
    simp only [Op.spec] at h
    split at h
    · cases h; simp [Op.diffs, vol, *]; omega
    · simp at h
      obtain ⟨l', h1, rfl⟩ := h
      have := moved_length h1
      simp [Op.diffs, vol, VecDiff.size, VecDiff.payload, *]; omega
  | swap i j =>
    simp only [Op.spec] at h
    split at h
    · cases h; simp [Op.diffs, vol, *]; omega
    · simp at h
      obtain ⟨l', h1, rfl⟩ := h
      have : l'.length = l.length := by
        unfold swapped at h1; split at h1 <;> cases h1; simp
      simp only [Op.diffs]
      (repeat' split) <;> simp [vol, VecDiff.size, VecDiff.payload, Op.given] <;> omega
  | push a => simp [Op.spec] at h; subst h; simp [Op.diffs, vol, VecDiff.size, VecDiff.payload, Op.given]; omega
  | pushCloned a => simp [Op.spec] at h; subst h; simp [Op.diffs, vol, VecDiff.size, VecDiff.payload, Op.given]; omega
  | replace vs => simp [Op.spec] at h; subst h; simp [Op.diffs, vol, VecDiff.size, VecDiff.payload, Op.given]; omega
  | replaceCloned vs => simp [Op.spec] at h; subst h; simp [Op.diffs, vol, VecDiff.size, VecDiff.payload, Op.given]; omega
  | insert i a =>
    simp [Op.spec] at h
    obtain ⟨h1, rfl⟩ := h
    have : (l.insertIdx i a).length = l.length + 1 := List.length_insertIdx_of_le_length h1 a
    simp only [Op.diffs]
    split <;> simp [vol, VecDiff.size, VecDiff.payload, Op.given] <;> omega
  | insertCloned i a =>
    simp [Op.spec] at h
    obtain ⟨h1, rfl⟩ := h
    have : (l.insertIdx i a).length = l.length + 1 := List.length_insertIdx_of_le_length h1 a
    simp only [Op.diffs]
    split <;> simp [vol, VecDiff.size, VecDiff.payload, Op.given] <;> omega
  | set i a =>
    simp [Op.spec] at h
    obtain ⟨h1, rfl⟩ := h
    simp [Op.diffs, vol, VecDiff.size, VecDiff.payload, Op.given]; omega
  | setCloned i a =>
    simp [Op.spec] at h
    obtain ⟨h1, rfl⟩ := h
    simp [Op.diffs, vol, VecDiff.size, VecDiff.payload, Op.given]; omega
  | applyVecDiff d =>
    cases d with
    | replace vs => simp [Op.spec, VecDiff.apply] at h; subst h; simp [Op.diffs, vol, VecDiff.size, VecDiff.payload, Op.given]; omega
    | push vs => simp [Op.spec, VecDiff.apply] at h; subst h; simp [Op.diffs, vol, VecDiff.size, VecDiff.payload, Op.given]; omega
    | clear => simp [Op.spec, VecDiff.apply] at h; subst h; simp [Op.diffs]; split <;> simp [vol, VecDiff.size, VecDiff.payload] <;> omega
    | pop =>
      simp only [Op.spec, VecDiff.apply, vPop] at h
      cases hl : l.getLast? <;> simp [hl] at h
      subst h
      simp [Op.diffs, vol, VecDiff.size, VecDiff.payload, Op.given]; omega
    | removeAt i =>
      simp only [Op.spec, VecDiff.apply, vRemove] at h
      have := List.length_eraseIdx_le l i
      cases hl : l[i]? <;> simp [hl] at h
      subst h
      simp only [Op.diffs]
      split <;> simp [vol, VecDiff.size, VecDiff.payload, Op.given] <;> omega
    | insertAt i a =>
      simp [Op.spec, VecDiff.apply, vInsert] at h
      obtain ⟨h1, rfl⟩ := h
      have : (l.insertIdx i a).length = l.length + 1 := List.length_insertIdx_of_le_length h1 a
      simp only [Op.diffs]
      split <;> simp [vol, VecDiff.size, VecDiff.payload, Op.given] <;> omega
    | updateAt i a =>
      simp [Op.spec, VecDiff.apply, vSet] at h
      obtain ⟨h1, rfl⟩ := h
      simp [Op.diffs, vol, VecDiff.size, VecDiff.payload, Op.given]; omega
    | move i j =>
      simp only [Op.spec] at h
      split at h
      · cases h; simp [Op.diffs, vol, *]; omega
      · simp at h
        obtain ⟨l', h1, rfl⟩ := h
        have := moved_length h1
        simp [Op.diffs, vol, VecDiff.size, VecDiff.payload, *]; omega

/-- The contents grow only by what is given. -/
theorem spec_given (o : Op α) (l : List α) (r : Ret α × List α) (h : o.spec l = some r) :
    r.2.length ≤ l.length + o.given := by
  cases o with
  | remove i =>
    simp [Op.spec] at h
    obtain ⟨a, h1, rfl⟩ := h
    exact Nat.le_trans (List.length_eraseIdx_le l i) (Nat.le_add_right _ _)
  | moveFromTo i j =>
    simp only [Op.spec] at h
    split at h
    · cases h; exact Nat.le_add_right _ _
    · simp at h
      obtain ⟨l', h1, rfl⟩ := h
      simp [moved_length h1]
  | swap i j =>
    simp only [Op.spec] at h
    split at h
    · cases h; exact Nat.le_add_right _ _
    · simp at h
      obtain ⟨l', h1, rfl⟩ := h
      unfold swapped at h1; split at h1 <;> cases h1; simp
  | retain f => simp [Op.spec] at h; subst h; exact Nat.le_trans (List.length_filter_le _ _) (Nat.le_add_right _ _)
  | drain lo hi =>
    simp [Op.spec] at h
    obtain ⟨⟨h1, h2⟩, rfl⟩ := h
    simp
    omega
  | insert i a =>
    simp [Op.spec] at h
    obtain ⟨h1, rfl⟩ := h
    simp [List.length_insertIdx_of_le_length h1 a, Op.given]
  | insertCloned i a =>
    simp [Op.spec] at h
    obtain ⟨h1, rfl⟩ := h
    simp [List.length_insertIdx_of_le_length h1 a, Op.given]
  | set i a => simp [Op.spec] at h; obtain ⟨h1, rfl⟩ := h; simp
  | setCloned i a => simp [Op.spec] at h; obtain ⟨h1, rfl⟩ := h; simp
  | applyVecDiff d =>
    cases d with
    | replace vs => simp [Op.spec, VecDiff.apply] at h; subst h; simp [Op.given, VecDiff.payload]
    | push vs => simp [Op.spec, VecDiff.apply] at h; subst h; simp [Op.given, VecDiff.payload]
    | clear => simp [Op.spec, VecDiff.apply] at h; subst h; simp
    | pop =>
      simp only [Op.spec, VecDiff.apply, vPop] at h
      cases hl : l.getLast? <;> simp [hl] at h
      subst h
      simp; omega
    | removeAt i =>
      simp only [Op.spec, VecDiff.apply, vRemove] at h
      cases hl : l[i]? <;> simp [hl] at h
      subst h
      exact Nat.le_trans (List.length_eraseIdx_le l i) (Nat.le_add_right _ _)
    | insertAt i a =>
      simp [Op.spec, VecDiff.apply, vInsert] at h
      obtain ⟨h1, rfl⟩ := h
      simp [List.length_insertIdx_of_le_length h1 a, Op.given, VecDiff.payload]
    | updateAt i a =>
      simp [Op.spec, VecDiff.apply, vSet] at h
      obtain ⟨h1, rfl⟩ := h
      simp
    | move i j =>
      simp only [Op.spec] at h
      split at h
      · cases h; exact Nat.le_add_right _ _
      · simp at h
        obtain ⟨l', h1, rfl⟩ := h
        simp [moved_length h1]
  | _ => simp [Op.spec] at h; subst h; simp [Op.given] <;> omega

/-- What the subscribers were sent so far, with `B` for the calls so far. -/
structure Paid (B E : Nat) (w : World α) : Prop where
  sent : ∀ (i : Nat) c, w.chans[i]? = some c → vol c.stream + w.values.length ≤ B
  size : w.values.length ≤ E
  two : 2 * E + 1 ≤ B

theorem paid_step {B E : Nat} {w w' : World α} (hw : Inv w) (hp : Paid B E w) {e : Ev α}
    (h : w.step e = some w') (he : e ≠ .op .reverse) :
    Paid (B + 3 * givenAll [e] + 2 * calls [e]) (E + givenAll [e]) w' := by
  have shrink : (∀ (k : Nat) (c' : Chan α), w'.chans[k]? = some c' → ∃ c : Chan α, w.chans[k]? = some c ∧ vol c'.stream ≤ vol c.stream) →
      w'.values = w.values → Paid (B + 3 * givenAll [e] + 2 * calls [e]) (E + givenAll [e]) w' := by
    intro h1 h2
    refine ⟨fun i c hc => ?_, ?_, ?_⟩
    · obtain ⟨c0, h3, h4⟩ := h1 i c hc
      have := hp.sent i c0 h3
      rw [h2]
      omega
    · rw [h2]
      exact Nat.le_trans hp.size (Nat.le_add_right _ _)
    · have := hp.two
      omega
  have same : w = w' → Paid (B + 3 * givenAll [e] + 2 * calls [e]) (E + givenAll [e]) w' := by
    rintro rfl
    exact shrink (fun k c' hc => ⟨c', hc, Nat.le_refl _⟩) rfl
  have byMap : ∀ f : Nat → Chan α → Chan α, (∀ k c, vol (f k c).stream ≤ vol c.stream) →
      (∀ k : Nat, w'.chans[k]? = w.chans[k]?.map (f k)) → w'.values = w.values →
      Paid (B + 3 * givenAll [e] + 2 * calls [e]) (E + givenAll [e]) w' := by
    intro f hf heq hv
    refine shrink (fun k c' hc' => ?_) hv
    rw [heq] at hc'
    cases hc : w.chans[k]? with
    | none => simp [hc] at hc'
    | some c =>
      simp only [hc, Option.map_some, Option.some.injEq] at hc'
      subst hc'
      exact ⟨c, rfl, hf k c⟩
  cases e with
  | op o =>
    simp only [World.step] at h
    by_cases hh : w.handles = 0
    · simp only [hh, ↓reduceIte, Option.some.injEq] at h; exact same h
    · simp only [hh, ↓reduceIte, exec_eq] at h
      cases hsp : o.spec w.values with
      | none => simp [hsp] at h
      | some sp =>
        simp [hsp] at h; subst h
        obtain ⟨-, h2, -, -⟩ := wf_notifyAll hw.toWF hh (o.diffs w.values)
        have g1 := spec_given o _ sp hsp
        have g2 := diffs_vol o (fun h => he (by rw [h])) _ sp hsp
        have := hp.size
        have := hp.two
        refine ⟨fun k c' hc' => ?_, ?_, ?_⟩ <;> simp only [givenAll, calls]
        · simp only at hc'
          rw [h2] at hc'
          cases hc : w.chans[k]? with
          | none => simp [hc] at hc'
          | some c =>
            simp only [hc, Option.map_some, Option.some.injEq] at hc'
            subst hc'
            have := hp.sent k c hc
            by_cases ha : c.rxAlive = true
            · rw [Chan.stream, pushAll_delivered, pushAll_queue _ _ ha, ← List.append_assoc, vol_append]
              unfold Chan.stream at this
              omega
            · have e : pushAll (o.diffs w.values) c = c := by simp [pushAll, ha]
              rw [e]
              omega
        · omega
        · omega
  | subscribe =>
    simp only [World.step] at h
    by_cases hh : w.handles = 0
    · simp only [hh, ↓reduceIte, Option.some.injEq] at h; exact same h
    · simp only [hh, ↓reduceIte, Option.some.injEq] at h; subst h
      have h1 := hp.size
      have h2 := hp.two
      refine ⟨fun k c' hc' => ?_, ?_, ?_⟩ <;> simp only [givenAll, calls, World.signalVec]
      · simp only [World.signalVec] at hc'
        rw [List.getElem?_append] at hc'
        split at hc'
        · have := hp.sent k c' hc'
          omega
        · have := List.mem_of_getElem? hc'
          simp only [List.mem_singleton] at this
          subst this
          simp only [Chan.stream, Chan.new, List.nil_append]
          split <;> simp [vol, VecDiff.size, VecDiff.payload] <;> omega
      · omega
      · omega
  | poll id cx =>
    simp only [World.step] at h
    by_cases hl' : w.rxLive id = true
    · simp only [hl', ↓reduceIte, Option.some.injEq] at h; subst h
      refine shrink (fun k c' hc' => ?_) ?_
      · unfold World.pollRx at hc'
        split at hc'
        · exact ⟨c', hc', Nat.le_refl _⟩
        · rename_i c hc
          split at hc'
          · rename_i d ds hq
            rcases getElem?_set_some hc' with ⟨rfl, rfl, -⟩ | ⟨-, h⟩
            · exact ⟨c, hc, by simp [Chan.stream, hq]⟩
            · exact ⟨c', h, Nat.le_refl _⟩
          · split at hc'
            · rcases getElem?_set_some hc' with ⟨rfl, rfl, -⟩ | ⟨-, h⟩
              · exact ⟨c, hc, by simp [Chan.stream]⟩
              · exact ⟨c', h, Nat.le_refl _⟩
            · exact ⟨c', hc', Nat.le_refl _⟩
      · unfold World.pollRx
        split
        · rfl
        · split
          · rfl
          · split <;> rfl
    · simp only [hl'] at h
      cases h
      exact same rfl
  | dropRx id =>
    simp only [World.step] at h
    by_cases hl' : w.rxLive id = true
    · simp only [hl', ↓reduceIte, Option.some.injEq] at h; subst h
      refine byMap _ ?_ (fun k => (dropRx_spec w id k).1) ?_
      · intro k c
        split <;> simp [Chan.stream]
      · unfold World.dropRx
        split <;> rfl
    · simp only [hl'] at h
      cases h
      exact same rfl
  | cloneHandle =>
    simp only [World.step] at h
    by_cases hh : w.handles = 0
    · simp only [hh, ↓reduceIte, Option.some.injEq] at h; exact same h
    · simp only [hh, ↓reduceIte, Option.some.injEq] at h; subst h
      exact shrink (fun k c' hc => ⟨c', hc, Nat.le_refl _⟩) rfl
  | dropHandle =>
    simp only [World.step] at h
    by_cases hh : w.handles = 0
    · simp only [hh, ↓reduceIte, Option.some.injEq] at h; exact same h
    · simp only [hh, ↓reduceIte, Option.some.injEq] at h; subst h
      have hd := dropHandle_spec hh
      refine byMap _ ?_ (fun k => hd.2.2.2.1 k) hd.1
      intro k c
      split <;> simp [Chan.stream, closed]

theorem paid_runs {B E : Nat} {w w' : World α} (hw : Inv w) (hp : Paid B E w) {h : List (Ev α)}
    (hr : w.runs h = some w') (hn : ∀ e ∈ h, e ≠ .op .reverse) :
    Paid (B + 3 * givenAll h + 2 * calls h) (E + givenAll h) w' := by
  induction h generalizing w B E with
  | nil => cases hr; simpa [givenAll, calls] using hp
  | cons e es ih =>
    simp only [World.runs] at hr
    cases hs : w.step e with
    | none => simp [hs] at hr
    | some w1 =>
      simp only [hs] at hr
      have := ih (inv_step hw hs) (paid_step hw hp hs (hn e (by simp))) hr (fun e he => hn e (by simp [he]))
      have h1 : givenAll (e :: es) = givenAll [e] + givenAll es := by cases e <;> simp [givenAll]
      have h2 : calls (e :: es) = calls [e] + calls es := by cases e <;> simp [calls]
      have e1 : B + 3 * givenAll (e :: es) + 2 * calls (e :: es) =
        B + 3 * givenAll [e] + 2 * calls [e] + 3 * givenAll es + 2 * calls es := by omega
      have e2 : E + givenAll (e :: es) = E + givenAll [e] + givenAll es := by omega
      rw [e1, e2]
      exact this

/-- **C93 for `MutableVec`**: in every history without `reverse`, whatever each call removes, moves or
replaces, a subscriber gets at most three times what the calls were given, two for each call, and twice the
contents at first (and one).  So `retain`, `truncate`, `drain` and `clear` are paid for by what was put in. -/
theorem C93_mutable_vec (vs : List α) (h : List (Ev α)) (w : World α)
    (hr : (World.init vs).runs h = some w) (hn : ∀ e ∈ h, e ≠ .op .reverse) (k : Nat) :
    vol (received k (World.init vs) h) ≤ 2 * vs.length + 1 + 3 * givenAll h + 2 * calls h := by
  have hp := paid_runs (B := 2 * vs.length + 1) (E := vs.length) (inv_init vs)
    ⟨by simp [World.init], by simp [World.init], by omega⟩ hr hn
  have hlog := runs_log (inv_init vs) hr k
  have h0 : (World.init vs).log k = [] := by simp [World.log, World.init]
  rw [h0, List.nil_append] at hlog
  rw [← hlog]
  unfold World.log
  split
  · rename_i c hc
    have := hp.sent k c hc
    simp [Chan.stream] at this
    omega
  · simp [vol]

/-- `reverse` is the exception: every live subscriber gets as many `Move`s as there are elements, less
one. -/
theorem C93_reverse (vs : List α) (h : List (Ev α)) (w w' : World α) (hr : (World.init vs).runs h = some w)
    (hh : w.handles ≠ 0) (hs : w.step (.op .reverse) = some w') (k : Nat) (c : Chan α)
    (hc : w.chans[k]? = some c) (hl : c.rxAlive = true) :
    ∃ c' ds, w'.chans[k]? = some c' ∧ c'.queue = c.queue ++ ds ∧ ds.length = w.values.length - 1 := by
  have hw := inv_runs (inv_init vs) hr
  obtain ⟨-, h2, -, -⟩ := wf_notifyAll hw.toWF hh (Op.diffs .reverse w.values)
  simp [World.step, hh, exec_eq, Op.spec] at hs
  subst hs
  exact ⟨_, _, by simp only [h2, hc]; rfl, pushAll_queue _ _ hl, by simp [Op.diffs]⟩

/-- A list filled, emptied by `retain` and `truncate`, and filled again. -/
def volHistory : List (Ev Nat) :=
  [.subscribe, .op (.extend [5, 6, 7]), .poll 0 1, .poll 0 1, .op (.retain (· % 2 = 1)), .op (.swap 0 2),
    .op (.replace [1, 2, 3, 4]), .op (.truncate 1), .poll 0 1, .poll 0 1, .poll 0 1, .poll 0 1, .poll 0 1,
    .poll 0 1, .poll 0 1, .poll 0 1, .poll 0 1]

example : ((World.init [1, 2]).runs volHistory).isSome ∧ (∀ e ∈ volHistory, e ≠ .op .reverse) ∧
    vol (received 0 (World.init [1, 2]) volHistory) = 20 ∧ givenAll volHistory = 7 ∧ calls volHistory = 5 := by
  refine ⟨by rfl, ?_, by rfl, by rfl, by rfl⟩
  intro e he h
  subst h
  simp [volHistory] at he

example : ∃ w w', (World.init [1, 2, 3]).runs [.subscribe] = some w ∧ w.step (.op .reverse) = some w' ∧
    w'.chans[0]?.map (·.queue) = some [.replace [1, 2, 3], .move 2 0, .move 2 1] := ⟨_, _, rfl, rfl, rfl⟩

end Verif.MutVec
