import Verif.VolumeMap
import Verif.VolumeProofs
import Verif.Props.MutableBTreeMap

/-!
# C93 for the source: what a `MutableBTreeMap` sends is at most what its calls were given, and one for each call
-/

namespace Verif.MutMap

variable {K V : Type} [LinearOrder K]

theorem bInsert_length (key : K) (value : V) (l : List (K × V)) : (bInsert key value l).2.length ≤ l.length + 1 := by
  induction l with
  | nil => simp [bInsert]
  | cons e l ih => simp only [bInsert]; split <;> (try split) <;> simp <;> omega

theorem bRemove_length (key : K) (l : List (K × V)) : (bRemove key l).2.length ≤ l.length := by
  induction l with
  | nil => simp [bRemove]
  | cons e l ih => simp only [bRemove]; split <;> (try split) <;> simp <;> omega

theorem next_length (o : Op K V) (m : BMap K V) : (o.next m).1.length ≤ m.1.length + o.given := by
  cases o with
  | clear => simp only [Op.next]; split <;> simp [BMap.empty]
  | remove key => exact bRemove_length key m.1
  | insert key value => exact bInsert_length key value m.1
  | insertCloned key value => exact bInsert_length key value m.1
  | replace vs => simp [Op.next, Op.given]
  | replaceCloned vs => simp [Op.next, Op.given]

/-- At most one change for each call. -/
theorem diffs_size (o : Op K V) (m : BMap K V) :
    o.diffs m = [] ∨ ∃ d, o.diffs m = [d] ∧ d.size ≤ 1 + o.given := by
  cases o <;> simp only [Op.diffs] <;> (try split) <;> simp [MapDiff.size, Op.given] <;> omega

/-- What the subscribers were sent so far. -/
structure Paid (B : Nat) (w : World K V) : Prop where
  sent : Tracks (fun l => sumBy MapDiff.size l ≤ B) (fun l => sumBy MapDiff.size l ≤ B) w.hub
  size : w.values.1.length + 1 ≤ B

theorem paid_mono {B B' : Nat} {w : World K V} (h : Paid B w) (hB : B ≤ B') : Paid B' w :=
  ⟨⟨fun i c hc ha => Nat.le_trans (h.sent.mirror i c hc ha) hB, fun i c hc => Nat.le_trans (h.sent.sound i c hc) hB⟩,
    Nat.le_trans h.size hB⟩

theorem paid_step {B : Nat} {w w' : World K V} (hi : Inv w) (hp : Paid B w) {e : Ev K V} (hs : w.step e = some w') :
    Paid (B + givenAll [e] + calls [e]) w' := by
  rw [step_eq w hi.wf] at hs
  simp only [Option.some.injEq] at hs
  subst hs
  have hq := paid_mono hp (B' := B + givenAll [e] + calls [e]) (by omega)
  cases e with
  | op o =>
    simp only [Ev.next, Ev.hubEvs]
    by_cases hh : w.hub.handles = 0
    · simp only [hh, ↓reduceIte, Hub.steps, List.foldl_nil]; exact hq
    · simp only [hh, ↓reduceIte]
      rw [← foldl_notify _ hi.wf hh]
      refine ⟨?_, ?_⟩
      · rcases diffs_size o w.values with h | ⟨d, h, hd⟩
        · rw [h]; exact hq.sent
        · rw [h]
          refine tracks_notify hi.wf hh (R := fun l => sumBy MapDiff.size l ≤ B) ⟨hp.sent.mirror, hq.sent.sound⟩ ?_
          intro l hl
          simp only [sumBy_append, sumBy_cons, sumBy_nil, givenAll, calls]
          omega
      · have := next_length o w.values
        have := hp.size
        simp only [givenAll, calls]
        omega
  | subscribe =>
    refine ⟨?_, hq.size⟩
    simp only [Ev.hubEvs, Hub.steps, List.foldl_cons, List.foldl_nil, Hub.step]
    split
    · exact hq.sent
    · refine tracks_subscribe hq.sent ?_ (by simp)
      split
      · simp
      · have := hp.size
        simp [MapDiff.size]
        omega
  | poll id cx =>
    refine ⟨?_, hq.size⟩
    simp only [Ev.hubEvs, Hub.steps, List.foldl_cons, List.foldl_nil, Hub.step]
    split
    · refine tracks_poll hq.sent id cx (by assumption) (fun l m h => ?_)
      simp only [sumBy_append] at h
      omega
    · exact hq.sent
  | dropRx id =>
    refine ⟨?_, hq.size⟩
    simp only [Ev.hubEvs, Hub.steps, List.foldl_cons, List.foldl_nil, Hub.step]
    split
    · exact tracks_dropRx hq.sent id
    · exact hq.sent
  | cloneHandle =>
    refine ⟨?_, hq.size⟩
    simp only [Ev.hubEvs, Hub.steps, List.foldl_cons, List.foldl_nil, Hub.step]
    split
    · exact hq.sent
    · exact ⟨hq.sent.mirror, hq.sent.sound⟩
  | dropHandle =>
    refine ⟨?_, hq.size⟩
    simp only [Ev.hubEvs, Hub.steps, List.foldl_cons, List.foldl_nil, Hub.step]
    split
    · exact hq.sent
    · exact tracks_dropHandle hq.sent

theorem paid_runs {B : Nat} {w w' : World K V} (hi : Inv w) (hp : Paid B w) {h : List (Ev K V)}
    (hr : w.runs h = some w') : Paid (B + givenAll h + calls h) w' := by
  induction h generalizing w B with
  | nil => cases hr; exact hp
  | cons e es ih =>
    simp only [World.runs] at hr
    cases hs : w.step e with
    | none => simp [hs] at hr
    | some w1 =>
      simp only [hs] at hr
      refine paid_mono (ih (inv_step hi hs) (paid_step hi hp hs) hr) ?_
      cases e <;> simp [givenAll, calls] <;> omega

/-- **C93 for `MutableBTreeMap`**: in every history a subscriber gets at most the entries at first, the entries given to
the calls, one for each call, and one. -/
theorem C93_mutable_map (vs : BMap K V) (h : List (Ev K V)) (w : World K V)
    (hr : (World.init vs).runs h = some w) (k : Nat) :
    sumBy MapDiff.size (received k (World.init vs) h) ≤ vs.1.length + 1 + givenAll h + calls h := by
  have hp := paid_runs (B := vs.1.length + 1) (inv_init vs)
    ⟨⟨by simp [World.init], by simp [World.init]⟩, by simp [World.init]⟩ hr
  have hlog := runs_log (inv_init vs) hr k
  have h0 : (World.init vs).hub.log k = [] := by simp [Hub.log, World.init]
  rw [h0, List.nil_append] at hlog
  rw [← hlog]
  unfold Hub.log
  split
  · rename_i c hc
    exact hp.sent.sound k c hc
  · simp

/-- Entries added, replaced and removed. -/
def volHistory : List (Ev Nat Nat) :=
  [.subscribe, .op (.insert 4 6), .op (.replace demo0), .op .clear, .poll 0 1, .poll 0 1, .poll 0 1, .poll 0 1]

/-- The bound is reached. -/
example : ((World.init demo0).runs volHistory).isSome ∧
    sumBy MapDiff.size (received 0 (World.init demo0) volHistory) = 2 + 1 + givenAll volHistory + calls volHistory ∧
    givenAll volHistory = 3 ∧ calls volHistory = 3 := ⟨rfl, rfl, rfl, rfl⟩

end Verif.MutMap
