import Verif.MutableBTreeMapProofs
import Mathlib.Data.Nat.Basic

/-!
# `MapDiff::map` and `MutableBTreeMap` (properties C07, C24, C25, C61)

Model: `Verif/MutableBTreeMap.lean`.  Specification vocabulary: `mreplay` (`Verif/MapDiff.lean`:
apply diffs in order, failing on an `Insert` of a present key and on an `Update` or `Remove` of an
absent one) and `Sorted`, `Op.spec` and `received` (`Verif/MutableBTreeMapSpec.lean`).
-/

namespace Verif

/-- **C07.**  Mapping the diff and the values of the map commutes with applying, inapplicability
included. -/
theorem C07_map_natural {K V W : Type} [DecidableEq K] (f : V → W) (d : MapDiff K V)
    (m : K → Option V) :
    (d.map f).apply (fun k => (m k).map f) = (d.apply m).map (fun m' k => (m' k).map f) :=
  map_apply' f d m

example : (((MapDiff.update 3 7).map (· * 10)).apply
    (fun k => (mapOf [(3, 1), (4, 2)] k).map (· * 10))).map (fun m => (m 3, m 4, m 5)) =
      some (some 70, some 20, none) := by decide
example : (((MapDiff.insert 3 7).map (· * 10)).apply
    (fun k => (mapOf [(3, 1), (4, 2)] k).map (· * 10))).isNone := by decide

namespace MutMap

variable {K V : Type} [LinearOrder K]

/-- A history used to show that the hypotheses below can be met. -/
def demo : List (Ev Nat Nat) :=
  [.subscribe, .poll 0 7, .op (.insert 5 50), .op (.insertCloned 1 10), .subscribe,
   .op (.insert 3 31), .op (.remove 9), .op (.remove 5), .poll 0 7, .poll 0 8, .poll 1 3,
   .dropRx 1, .op (.insertCloned 1 11), .poll 0 8, .poll 0 8, .cloneHandle, .op .clear]

/-- Initial contents of the examples. -/
def demo0 : BMap Nat Nat := ⟨[(2, 20), (3, 30)], by unfold Ascending; decide⟩

example : ((World.init demo0).runs demo).map (fun w => w.hub.links.map (·.queue)) =
      some [[.update 1 11, .clear], []] ∧
    received 0 (World.init demo0) demo =
      [.replace [(2, 20), (3, 30)], .insert 5 50, .insert 1 10, .update 3 31, .remove 5] ∧
    received 1 (World.init demo0) demo = [.replace [(1, 10), (2, 20), (3, 30), (5, 50)]] := by
  decide

/-- **C24.**  Whatever happened (any operations, subscriptions, polls and drops, in any order),
nothing panicked; the diffs a subscriber received so far can be replayed on the empty map (so
`Insert` came only for absent and `Update`/`Remove` only for present keys), and together with those
still queued for it (if it is live) they rebuild the current contents. -/
theorem C24_mirror (vs : BMap K V) (h : List (Ev K V)) :
    ∃ w, (World.init vs).runs h = some w ∧
      ∀ (id : Nat) (c : Link (MapDiff K V)), w.hub.links[id]? = some c →
        (∃ m, mreplay (received id (World.init vs) h) noKeys = some m) ∧
        (c.rxAlive = true →
          mreplay (received id (World.init vs) h ++ c.queue) noKeys = some (mapOf w.values.1)) := by
  obtain ⟨w, hr⟩ := runs_some (inv_init vs) h
  refine ⟨w, hr, fun id c hc => ?_⟩
  have hi := inv_runs (inv_init vs) hr
  have hl := runs_log (inv_init vs) hr id
  simp only [Hub.log, hc, World.init, List.getElem?_nil, List.nil_append] at hl
  have hl' : c.delivered = received id (World.init vs) h := hl
  rw [← hl']
  exact ⟨(hi.tracks.sound id c hc).1, fun ha => (hi.tracks.mirror id c hc ha).1⟩

/-- **C24.**  The same in terms of what the consumer sees: as soon as its next poll would not
deliver another diff, its copy equals the contents of the `MutableBTreeMap`. -/
theorem C24_caught_up (vs : BMap K V) (h : List (Ev K V)) (w : World K V)
    (hr : (World.init vs).runs h = some w) (id : Nat) (hl : w.hub.rxLive id = true) (cx : Waker)
    (hp : ∀ d, (w.hub.pollRx id cx).1 ≠ .ready (some d)) :
    mreplay (received id (World.init vs) h) noKeys = some (mapOf w.values.1) := by
  cases hc : w.hub.links[id]? with
  | none => simp [Hub.rxLive, hc] at hl
  | some c =>
    have hq : c.queue = [] := by
      cases hq : c.queue with
      | nil => rfl
      | cons d ds => exact absurd (by simp [Hub.pollRx, hc, hq]) (hp d)
    obtain ⟨w', hr', h1⟩ := C24_mirror vs h
    rw [hr] at hr'
    cases hr'
    have := (h1 id c hc).2 (by simpa [Hub.rxLive, hc] using hl)
    simpa [hq] using this

example : ∃ w, (World.init demo0).runs (demo ++ [.poll 0 8, .poll 0 8, .op (.insert 7 0), .poll 0 1])
      = some w ∧ w.hub.rxLive 0 = true ∧ (w.hub.pollRx 0 8).1 = .pending ∧
      w.values.1 = [(7, 0)] := by
  exact ⟨_, rfl, by decide, by decide, by decide⟩

/-- **C24.**  The entries of every `Replace` sent or queued are in strictly ascending key order. -/
theorem C24_sorted (vs : BMap K V) (h : List (Ev K V)) (w : World K V)
    (hr : (World.init vs).runs h = some w) (id : Nat) (c : Link (MapDiff K V))
    (hc : w.hub.links[id]? = some c) :
    (∀ d ∈ received id (World.init vs) h, Sorted d) ∧
    (c.rxAlive = true → ∀ d ∈ c.queue, Sorted d) := by
  have hi := inv_runs (inv_init vs) hr
  have hl := runs_log (inv_init vs) hr id
  simp only [Hub.log, hc, World.init, List.getElem?_nil, List.nil_append] at hl
  have hl' : c.delivered = received id (World.init vs) h := hl
  rw [← hl']
  exact ⟨(hi.tracks.sound id c hc).2, fun ha d hd =>
    (hi.tracks.mirror id c hc ha).2 d (by simp [hd])⟩

/-- **C25.**  No method panics; each returns what the `BTreeMap` operation returns (the previous
value of the key) and leaves the contents the `BTreeMap` operation leaves. -/
theorem C25_ops (w : World K V) (o : Op K V) :
    (w.exec o).map (fun r => (r.1, mapOf r.2.values.1)) = some (o.spec (mapOf w.values.1)) := by
  rw [exec_eq]
  simp only [Option.map_some, next_spec]

example : ((World.init demo0).exec (.insert 3 31)).map (fun r => (r.1, r.2.values.1)) =
    some (.opt (some 30), [(2, 20), (3, 31)]) := by decide
example : ((World.init demo0).exec (.remove 2)).map (fun r => (r.1, r.2.values.1)) =
    some (.opt (some 20), [(3, 30)]) := by decide

/-- **C25.**  Clearing an empty map and removing an absent key leave the whole world as it is: no
diff is queued for any subscriber, no waker is woken. -/
theorem C25_silent (w : World K V) :
    (w.values.1 = [] → w.exec .clear = some (.unit, w)) ∧
    (∀ key, mapOf w.values.1 key = none → w.exec (.remove key) = some (.opt none, w)) := by
  refine ⟨fun h => ?_, fun key h => ?_⟩
  · simp [World.exec, World.clear, h]
  · rw [exec_eq]
    have hm := next_spec (.remove key) w.values
    have hnext : (Op.remove key).next w.values = w.values := by
      refine Subtype.ext (mapOf_inj ((Op.remove key).next w.values).2 w.values.2 ?_)
      rw [hm]
      funext k
      simp only [Op.spec]
      split
      · rename_i hk; rw [hk, h]
      · rfl
    rw [hnext]
    simp [Op.spec, Op.diffs, h]

example : mapOf demo0.1 5 = none ∧ mapOf demo0.1 3 = some 30 := by decide

/-- **C25.**  Conversely, every other call tells every live subscriber exactly one diff, the same
to all, and wakes every waiting one. -/
theorem C25_tells (vs : BMap K V) (h : List (Ev K V)) (w : World K V)
    (hr : (World.init vs).runs h = some w) (hh : w.hub.handles ≠ 0) (o : Op K V)
    (hne : ¬ (o = .clear ∧ w.values.1 = []) ∧
      ∀ key, ¬ (o = .remove key ∧ mapOf w.values.1 key = none)) :
    ∃ (r : Ret V) (w' : World K V) (d : MapDiff K V), w.exec o = some (r, w') ∧
      ∀ (id : Nat) (c : Link (MapDiff K V)), w.hub.links[id]? = some c → c.rxAlive = true →
        ∃ c' : Link (MapDiff K V), w'.hub.links[id]? = some c' ∧ c'.queue = c.queue ++ [d] ∧ c'.waker = none ∧
          ∃ new, w'.hub.woken = w.hub.woken ++ new ∧ ∀ x, c.waker = some x → x ∈ new := by
  have hi := inv_runs (inv_init vs) hr
  have hd : ∃ d, o.diffs w.values = [d] := by
    cases o with
    | clear =>
      have : w.values.1 ≠ [] := fun h => hne.1 ⟨rfl, h⟩
      exact ⟨.clear, by simp [Op.diffs, this]⟩
    | remove key =>
      have : mapOf w.values.1 key ≠ none := fun h => hne.2 key ⟨rfl, h⟩
      refine ⟨.remove key, ?_⟩
      simp only [Op.diffs, Option.isSome_iff_ne_none.2 this, ↓reduceIte]
    | replaceCloned values => exact ⟨_, rfl⟩
    | replace values => exact ⟨_, rfl⟩
    | insertCloned key value => simp only [Op.diffs]; split <;> exact ⟨_, rfl⟩
    | insert key value => simp only [Op.diffs]; split <;> exact ⟨_, rfl⟩
  obtain ⟨d, hd⟩ := hd
  refine ⟨_, _, d, exec_eq w o, fun id c hc ha => ?_⟩
  simp only [hd, List.foldl_cons, List.foldl_nil]
  obtain ⟨g1, g2, g3, g4, g5⟩ := hub_notify hi.wf hh d
  refine ⟨_, by rw [g2, hc]; rfl, by simp [hubPush, ha], by simp [hubPush, ha], _, g5, ?_⟩
  intro x hx
  refine List.mem_flatMap.2 ⟨id, hi.wf.live id c hc ha hh, ?_⟩
  simp [hubWakes, hc, ha, hx]

/-- **C61.**  In every reachable world, a live subscriber's poll answers: the end if and only if
all handles are gone and nothing is queued for it; `Pending` if and only if a handle lives and
nothing is queued, and then the caller's waker is registered. -/
theorem C61_poll (vs : BMap K V) (h : List (Ev K V)) (w : World K V)
    (hr : (World.init vs).runs h = some w) (k : Nat) (c : Link (MapDiff K V))
    (hc : w.hub.links[k]? = some c) (hl : c.rxAlive = true) (cx : Waker) :
    ((w.hub.pollRx k cx).1 = .ready none ↔ w.hub.handles = 0 ∧ c.queue = []) ∧
    ((w.hub.pollRx k cx).1 = .pending ↔ w.hub.handles ≠ 0 ∧ c.queue = []) ∧
    ((w.hub.pollRx k cx).1 = .pending →
      ∃ c', (w.hub.pollRx k cx).2.links[k]? = some c' ∧ c'.waker = some cx) := by
  have hi := inv_runs (inv_init vs) hr
  have ht := hi.wf.tx k c hc hl
  have hk := (List.getElem?_eq_some_iff.1 hc).1
  unfold Hub.pollRx
  simp only [hc]
  cases hq : c.queue with
  | cons d ds => simp
  | nil =>
    by_cases hx : c.txAlive = true
    · have := ht.1 hx
      simp [hx, this, hk]
    · have : w.hub.handles = 0 := by
        exact Decidable.byContradiction fun hne => hx (ht.2 hne)
      simp [hx, this]

/-- **C61.**  Once a subscriber has been told the end, every later poll tells it again. -/
theorem C61_stays (vs : BMap K V) (h h' : List (Ev K V)) (w w' : World K V)
    (hr : (World.init vs).runs h = some w) (hr' : w.runs h' = some w') (k : Nat)
    (hl : w.hub.rxLive k = true) (hl' : w'.hub.rxLive k = true) (cx cx' : Waker)
    (hend : (w.hub.pollRx k cx).1 = .ready none) : (w'.hub.pollRx k cx').1 = .ready none := by
  have hi := inv_runs (inv_init vs) hr
  have hi' := inv_runs hi hr'
  cases hc : w.hub.links[k]? with
  | none => simp [Hub.rxLive, hc] at hl
  | some c =>
    cases hc' : w'.hub.links[k]? with
    | none => simp [Hub.rxLive, hc'] at hl'
    | some c' =>
      simp only [Hub.rxLive, hc] at hl
      simp only [Hub.rxLive, hc'] at hl'
      have := (C61_poll vs h w hr k c hc hl cx).1.1 hend
      have h2 := runs_ended (k := k) hi hr' this.1
        (by intro c0 h0; rw [hc] at h0; cases h0; exact this.2)
      have hq := h2.2 c' hc'
      have ht : ¬ c'.txAlive = true := fun ht => (hi'.wf.tx k c' hc' hl').1 ht h2.1
      unfold Hub.pollRx
      simp [hc', hq, ht]

/-- **C61.**  No wake-up is lost: if a subscriber's poll with waker `x` answered `Pending`, and
anything happens afterwards except that the subscriber itself is polled or dropped, then as long
as `x` has not been woken a new poll would still answer `Pending`. -/
theorem C61_wake (vs : BMap K V) (h h' : List (Ev K V)) (w w' : World K V)
    (hr : (World.init vs).runs h = some w) (k : Nat) (hl : w.hub.rxLive k = true) (x cx : Waker)
    (hpend : (w.hub.pollRx k x).1 = .pending)
    (hr' : ({ w with hub := (w.hub.pollRx k x).2 } : World K V).runs h' = some w')
    (hp : ∀ cx, .poll k cx ∉ h') (hd : .dropRx k ∉ h') :
    ∃ new, w'.hub.woken = w.hub.woken ++ new ∧ (x ∈ new ∨ (w'.hub.pollRx k cx).1 = .pending) := by
  have hi := inv_runs (inv_init vs) hr
  cases hc : w.hub.links[k]? with
  | none => simp [Hub.rxLive, hc] at hl
  | some c =>
    have hl0 := hl
    simp only [Hub.rxLive, hc] at hl0
    obtain ⟨c1, h1, h2⟩ := (C61_poll vs h w hr k c hc hl0 x).2.2 hpend
    have hi1 : Inv ({ w with hub := (w.hub.pollRx k x).2 } : World K V) :=
      inv_step (e := .poll k x) hi (by simp [World.step, hl])
    have hwk := pollRx_woken w.hub k x
    obtain ⟨new, h3, h4⟩ := runs_wake hi1 hr' h1 h2 hp hd
    simp only [hwk] at h3
    refine ⟨new, h3, h4.imp id ?_⟩
    rintro ⟨c2, h5, h6⟩
    have hw2 := (inv_runs hi1 hr').wf.waiting k c2 x h5 h6
    unfold Hub.pollRx
    simp [h5, hw2]

/-- A reachable world with a live subscriber that is told the end, and one that must wait. -/
example : ∃ w, (World.init demo0).runs (demo ++ [.poll 0 8, .poll 0 8, .dropHandle, .dropHandle]) =
    some w ∧ w.hub.rxLive 0 = true ∧ (w.hub.pollRx 0 5).1 = .ready none := by
  exact ⟨_, rfl, by decide, by decide⟩
example : ∃ w, (World.init demo0).runs [.subscribe, .poll 0 1, .subscribe] = some w ∧
    w.hub.rxLive 0 = true ∧ (w.hub.pollRx 0 5).1 = .pending ∧
    ∃ w', ({ w with hub := (w.hub.pollRx 0 5).2 } : World Nat Nat).runs
      [.poll 1 2, .op (.remove 2)] = some w' ∧ w'.hub.woken = [5] := by
  exact ⟨_, rfl, by decide, by decide, _, rfl, by decide⟩

end MutMap

end Verif
