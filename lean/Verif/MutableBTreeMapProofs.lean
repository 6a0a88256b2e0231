import Verif.MutableBTreeMapSpec
import Verif.HubProofs

/-!
# Facts about `MutableBTreeMap`
-/

namespace Verif.MutMap

variable {K V : Type} [LinearOrder K]

/-- The contents after a method call. -/
def Op.next : Op K V → BMap K V → BMap K V
  | .clear, m => if m.1.isEmpty then m else BMap.empty
  | .remove key, m => (m.remove key).2
  | .replaceCloned values, _ => values
  | .replace values, _ => values
  | .insertCloned key value, m => (m.insert key value).2
  | .insert key value, m => (m.insert key value).2

/-- The diffs broadcast by a method call. -/
def Op.diffs : Op K V → BMap K V → List (MapDiff K V)
  | .clear, m => if m.1.isEmpty then [] else [.clear]
  | .remove key, m => if (mapOf m.1 key).isSome then [.remove key] else []
  | .replaceCloned values, _ => [.replace values.1]
  | .replace values, _ => [.replace values.1]
  | .insertCloned key value, m =>
    if (mapOf m.1 key).isSome then [.update key value] else [.insert key value]
  | .insert key value, m =>
    if (mapOf m.1 key).isSome then [.update key value] else [.insert key value]

theorem insert_fst (m : BMap K V) (k : K) (v : V) : (m.insert k v).1 = mapOf m.1 k :=
  (bInsert_spec m.2 k v).1

theorem remove_fst (m : BMap K V) (k : K) : (m.remove k).1 = mapOf m.1 k :=
  (bRemove_spec m.2 k).1

theorem exec_eq (w : World K V) (o : Op K V) :
    w.exec o = some ((o.spec (mapOf w.values.1)).1,
      ⟨o.next w.values, (o.diffs w.values).foldl Hub.notify w.hub⟩) := by
  cases o with
  | clear =>
    simp only [World.exec, World.clear, Op.spec, Op.next, Op.diffs]
    by_cases h : w.values.1.isEmpty <;> simp [h]
  | remove key =>
    have h1 := remove_fst w.values key
    simp only [World.exec, World.remove, Op.spec, Op.next, Op.diffs]
    rw [← h1]
    obtain ⟨o, m⟩ := w.values.remove key
    cases o with
    | none => simp
    | some v => simp [notifyClone_change]
  | replaceCloned values =>
    simp [World.exec, World.replaceCloned, Op.spec, Op.next, Op.diffs, notifyClone_change]
  | replace values =>
    simp [World.exec, World.replace, Op.spec, Op.next, Op.diffs, notifyClone_change]
  | insertCloned key value =>
    have h1 := insert_fst w.values key value
    simp only [World.exec, World.insertCloned, Op.spec, Op.next, Op.diffs]
    rw [← h1]
    obtain ⟨o, m⟩ := w.values.insert key value
    cases o with
    | none => simp [notifyClone_change]
    | some v => simp [notifyClone_change]
  | insert key value =>
    have h1 := insert_fst w.values key value
    simp only [World.exec, World.insert, Op.spec, Op.next, Op.diffs]
    rw [← h1]
    obtain ⟨o, m⟩ := w.values.insert key value
    cases o with
    | none => simp
    | some v => simp

theorem next_spec (o : Op K V) (m : BMap K V) :
    mapOf (o.next m).1 = (o.spec (mapOf m.1)).2 := by
  cases o with
  | clear =>
    funext k
    simp only [Op.next, Op.spec]
    split
    · rename_i h
      rw [List.isEmpty_iff] at h
      rw [h]; rfl
    · rfl
  | remove key => exact (bRemove_spec m.2 key).2.2.1
  | replaceCloned values => rfl
  | replace values => rfl
  | insertCloned key value => exact (bInsert_spec m.2 key value).2.2.1
  | insert key value => exact (bInsert_spec m.2 key value).2.2.1

theorem diffs_replay (o : Op K V) (m : BMap K V) :
    mreplay (o.diffs m) (mapOf m.1) = some (mapOf (o.next m).1) := by
  have ins : ∀ key value, mreplay
      (if (mapOf m.1 key).isSome then [.update key value] else [.insert key value]) (mapOf m.1) =
      some (mapOf (m.insert key value).2.1) := by
    intro key value
    have := (bInsert_spec m.2 key value).2.2.1
    split
    · rename_i h
      rw [mreplay_singleton]
      simp only [MapDiff.apply, h, ↓reduceIte]
      exact congrArg some this.symm
    · rename_i h
      have hn : (mapOf m.1 key).isNone = true := by simpa using h
      rw [mreplay_singleton]
      simp only [MapDiff.apply, hn, ↓reduceIte]
      exact congrArg some this.symm
  cases o with
  | clear =>
    simp only [Op.next, Op.diffs]
    split
    · rfl
    · rfl
  | remove key =>
    have := (bRemove_spec m.2 key).2.2.1
    simp only [Op.diffs, Op.next]
    split
    · rename_i h
      rw [mreplay_singleton]
      simp only [MapDiff.apply, h, ↓reduceIte]
      exact congrArg some this.symm
    · rename_i h
      have hn : mapOf m.1 key = none := by simpa using h
      simp only [mreplay]
      refine congrArg some (.trans ?_ this.symm)
      funext k
      simp only [upd]
      split
      · rename_i hk; rw [hk, hn]
      · rfl
  | replaceCloned values =>
    simp only [Op.diffs, mreplay_singleton, MapDiff.apply, values.2.nodup, ↓reduceIte, Op.next]
  | replace values =>
    simp only [Op.diffs, mreplay_singleton, MapDiff.apply, values.2.nodup, ↓reduceIte, Op.next]
  | insertCloned key value => exact ins key value
  | insert key value => exact ins key value

theorem diffs_sorted (o : Op K V) (m : BMap K V) : ∀ d ∈ o.diffs m, Sorted d := by
  cases o with
  | replaceCloned values => simpa [Op.diffs, Sorted] using values.2
  | replace values => simpa [Op.diffs, Sorted] using values.2
  | clear => simp only [Op.diffs]; split <;> simp [Sorted]
  | remove key => simp only [Op.diffs]; split <;> simp [Sorted]
  | insert key value => simp only [Op.diffs]; split <;> simp [Sorted]
  | insertCloned key value => simp only [Op.diffs]; split <;> simp [Sorted]

/-- What an event does to the contents. -/
def Ev.next : Ev K V → World K V → BMap K V
  | .op o, w => if w.hub.handles = 0 then w.values else o.next w.values
  | _, w => w.values

/-- What an event does to the channels. -/
def Ev.hubEvs : Ev K V → World K V → List (HubEv (MapDiff K V))
  | .op o, w => if w.hub.handles = 0 then [] else (o.diffs w.values).map .notify
  | .subscribe, w => [.subscribe (if w.values.1.isEmpty then [] else [.replace w.values.1])]
  | .poll id cx, _ => [.poll id cx]
  | .dropRx id, _ => [.dropRx id]
  | .cloneHandle, _ => [.cloneHandle]
  | .dropHandle, _ => [.dropHandle]

omit [LinearOrder K] in
theorem foldl_notify (ds : List (MapDiff K V)) {h : Hub (MapDiff K V)} (hw : HubWF h)
    (hh : h.handles ≠ 0) : ds.foldl Hub.notify h = h.steps (ds.map .notify) := by
  induction ds generalizing h with
  | nil => rfl
  | cons d ds ih =>
    obtain ⟨h1, -, h2, -⟩ := hub_notify hw hh d
    have : h.step (.notify d) = h.notify d := by simp [Hub.step, hh]
    simp only [List.foldl_cons, List.map_cons, Hub.steps, this]
    exact ih h1 (by rw [h2]; exact hh)

theorem step_eq (w : World K V) (hw : HubWF w.hub) (e : Ev K V) :
    w.step e = some ⟨e.next w, w.hub.steps (e.hubEvs w)⟩ := by
  cases e with
  | op o =>
    simp only [World.step, Ev.next, Ev.hubEvs]
    by_cases hh : w.hub.handles = 0
    · simp [hh, Hub.steps]
    · rw [exec_eq, foldl_notify _ hw hh]
      simp [hh]
  | subscribe =>
    simp only [World.step, Ev.next, Ev.hubEvs, Hub.steps, List.foldl_cons, List.foldl_nil,
      Hub.step, World.signalMap]
    by_cases hh : w.hub.handles = 0 <;> simp [hh]
  | poll id cx =>
    simp only [World.step, Ev.next, Ev.hubEvs, Hub.steps, List.foldl_cons, List.foldl_nil, Hub.step]
    by_cases hh : w.hub.rxLive id <;> simp [hh]
  | dropRx id =>
    simp only [World.step, Ev.next, Ev.hubEvs, Hub.steps, List.foldl_cons, List.foldl_nil, Hub.step]
    by_cases hh : w.hub.rxLive id <;> simp [hh]
  | cloneHandle =>
    simp only [World.step, Ev.next, Ev.hubEvs, Hub.steps, List.foldl_cons, List.foldl_nil, Hub.step]
    by_cases hh : w.hub.handles = 0 <;> simp [hh]
  | dropHandle =>
    simp only [World.step, Ev.next, Ev.hubEvs, Hub.steps, List.foldl_cons, List.foldl_nil, Hub.step]
    by_cases hh : w.hub.handles = 0 <;> simp [hh]

/-- What a live receiver has been sent rebuilds the contents. -/
def Rebuilds (m : BMap K V) (l : List (MapDiff K V)) : Prop :=
  mreplay l noKeys = some (mapOf m.1) ∧ ∀ d ∈ l, Sorted d

/-- What a receiver was delivered can be replayed. -/
def Replays (l : List (MapDiff K V)) : Prop :=
  (∃ m, mreplay l noKeys = some m) ∧ ∀ d ∈ l, Sorted d

theorem replays_prefix {m : BMap K V} {l l' : List (MapDiff K V)} (h : Rebuilds m (l ++ l')) :
    Replays l := by
  obtain ⟨m1, h1, -⟩ := mreplay_prefix h.1
  exact ⟨⟨m1, h1⟩, fun d hd => h.2 d (by simp [hd])⟩

structure Inv (w : World K V) : Prop where
  wf : HubWF w.hub
  tracks : Tracks (Rebuilds w.values) Replays w.hub

theorem inv_init (vs : BMap K V) : Inv (World.init vs) :=
  ⟨⟨by simp [World.init], by simp [World.init], by simp [World.init], by simp [World.init],
    by simp [World.init], by simp [World.init]⟩,
   ⟨by simp [World.init], by simp [World.init]⟩⟩

theorem tracks_notifies (ds : List (MapDiff K V)) {m m' : BMap K V} {h : Hub (MapDiff K V)}
    (hw : HubWF h) (hh : h.handles ≠ 0) (ht : Tracks (Rebuilds m) Replays h)
    (hr : mreplay ds (mapOf m.1) = some (mapOf m'.1)) (hs : ∀ d ∈ ds, Sorted d) :
    Tracks (Rebuilds m') Replays (ds.foldl Hub.notify h) := by
  -- generalise the relation to functions
  have gen : ∀ (ds : List (MapDiff K V)) (f : K → Option V) (h : Hub (MapDiff K V)), HubWF h →
      h.handles ≠ 0 →
      Tracks (fun l => mreplay l noKeys = some f ∧ ∀ d ∈ l, Sorted d) Replays h →
      mreplay ds f = some (mapOf m'.1) → (∀ d ∈ ds, Sorted d) →
      Tracks (Rebuilds m') Replays (ds.foldl Hub.notify h) := by
    intro ds
    induction ds with
    | nil =>
      intro f h hw hh ht hr _
      simp only [mreplay, Option.some.injEq] at hr
      subst hr
      exact ht
    | cons d ds ih =>
      intro f h hw hh ht hr hs
      obtain ⟨m1, h1, h2⟩ := mreplay_cons_some hr
      obtain ⟨g1, -, g2, -⟩ := hub_notify hw hh d
      refine ih m1 (h.notify d) g1 (by rw [g2]; exact hh) ?_ h2 (fun x hx => hs x (by simp [hx]))
      refine tracks_notify hw hh ht ?_
      intro l hl
      refine ⟨by rw [mreplay_snoc hl.1, h1], ?_⟩
      intro x hx
      rcases List.mem_append.1 hx with hx | hx
      · exact hl.2 x hx
      · simp at hx; subst hx; exact hs x (by simp)
  exact gen ds (mapOf m.1) h hw hh ht hr hs

theorem inv_step {w w' : World K V} (hi : Inv w) {e : Ev K V} (hs : w.step e = some w') :
    Inv w' := by
  rw [step_eq w hi.wf] at hs
  simp only [Option.some.injEq] at hs
  subst hs
  refine ⟨hub_steps hi.wf _, ?_⟩
  cases e with
  | op o =>
    simp only [Ev.next, Ev.hubEvs]
    by_cases hh : w.hub.handles = 0
    · simp only [hh, ↓reduceIte, Hub.steps, List.foldl_nil]; exact hi.tracks
    · simp only [hh, ↓reduceIte]
      rw [← foldl_notify _ hi.wf hh]
      exact tracks_notifies _ hi.wf hh hi.tracks (diffs_replay o w.values) (diffs_sorted o w.values)
  | subscribe =>
    simp only [Ev.next, Ev.hubEvs, Hub.steps, List.foldl_cons, List.foldl_nil, Hub.step]
    split
    · exact hi.tracks
    · refine tracks_subscribe hi.tracks ?_ ⟨⟨noKeys, rfl⟩, by simp⟩
      split
      · rename_i he
        rw [List.isEmpty_iff] at he
        refine ⟨?_, by simp⟩
        rw [he]; rfl
      · exact ⟨by simp [mreplay_singleton, MapDiff.apply, w.values.2.nodup], by
          simpa [Sorted] using w.values.2⟩
  | poll id cx =>
    simp only [Ev.next, Ev.hubEvs, Hub.steps, List.foldl_cons, List.foldl_nil, Hub.step]
    split
    · exact tracks_poll hi.tracks id cx (by assumption) (fun l m h => replays_prefix h)
    · exact hi.tracks
  | dropRx id =>
    simp only [Ev.next, Ev.hubEvs, Hub.steps, List.foldl_cons, List.foldl_nil, Hub.step]
    split
    · exact tracks_dropRx hi.tracks id
    · exact hi.tracks
  | cloneHandle =>
    simp only [Ev.next, Ev.hubEvs, Hub.steps, List.foldl_cons, List.foldl_nil, Hub.step]
    split
    · exact hi.tracks
    · exact ⟨hi.tracks.mirror, hi.tracks.sound⟩
  | dropHandle =>
    simp only [Ev.next, Ev.hubEvs, Hub.steps, List.foldl_cons, List.foldl_nil, Hub.step]
    split
    · exact hi.tracks
    · exact tracks_dropHandle hi.tracks

theorem inv_runs {w w' : World K V} (hi : Inv w) {h : List (Ev K V)} (hr : w.runs h = some w') :
    Inv w' := by
  induction h generalizing w with
  | nil => simp only [World.runs, Option.some.injEq] at hr; subst hr; exact hi
  | cons e h ih =>
    simp only [World.runs] at hr
    cases hs : w.step e with
    | none => simp [hs] at hr
    | some w1 => rw [hs] at hr; exact ih (inv_step hi hs) hr

theorem runs_some {w : World K V} (hi : Inv w) (h : List (Ev K V)) : ∃ w', w.runs h = some w' := by
  induction h generalizing w with
  | nil => exact ⟨w, rfl⟩
  | cons e h ih =>
    have hs := step_eq w hi.wf e
    simp only [World.runs, hs]
    exact ih (inv_step hi hs)

theorem steps_delivers (w : World K V) (e : Ev K V) (hw : HubWF w.hub) (k : Nat) :
    (w.hub.steps (e.hubEvs w)).log k = w.hub.log k ++
      (match e with
      | .poll i cx =>
        if i = k ∧ w.hub.rxLive k = true then
          match (w.hub.pollRx k cx).1 with
          | .ready (some d) => [d]
          | _ => []
        else []
      | _ => []) := by
  have notif : ∀ (ds : List (MapDiff K V)) (h : Hub (MapDiff K V)), HubWF h →
      (h.steps (ds.map .notify)).log k = h.log k := by
    intro ds
    induction ds with
    | nil => intro h _; rfl
    | cons d ds ih =>
      intro h hw
      simp only [List.map_cons, Hub.steps, List.foldl_cons]
      have := ih (h.step (.notify d)) (hub_step hw _)
      simp only [Hub.steps] at this
      rw [this, hub_step_log hw]
      simp [Hub.delivers]
  cases e with
  | op o =>
    simp only [Ev.hubEvs, List.append_nil]
    split
    · rfl
    · exact notif _ _ hw
  | poll id cx =>
    simp only [Ev.hubEvs, Hub.steps, List.foldl_cons, List.foldl_nil]
    rw [hub_step_log hw (.poll id cx) k]
    simp only [Hub.delivers]
    congr 1
    by_cases hk : id = k ∧ w.hub.rxLive k = true
    · simp only [hk, and_self, ↓reduceIte]
      obtain (_ | d) | _ := (w.hub.pollRx k cx).1 <;> rfl
    · simp only [hk, ↓reduceIte]
  | subscribe => exact hub_step_log hw (.subscribe _) k
  | dropRx id => exact hub_step_log hw (.dropRx id) k
  | cloneHandle => exact hub_step_log hw .cloneHandle k
  | dropHandle => exact hub_step_log hw .dropHandle k

theorem runs_log {w w' : World K V} (hi : Inv w) {h : List (Ev K V)} (hr : w.runs h = some w')
    (k : Nat) : w'.hub.log k = w.hub.log k ++ received k w h := by
  induction h generalizing w with
  | nil => simp only [World.runs, Option.some.injEq] at hr; subst hr; simp [received]
  | cons e h ih =>
    have hs := step_eq w hi.wf e
    simp only [World.runs, hs] at hr
    rw [ih (inv_step hi hs) hr, steps_delivers w e hi.wf k]
    simp only [received, hs]
    simp only [List.append_assoc]
    congr 2

/-- A waiting subscriber stays waiting or is woken. -/
theorem runs_wake {w w' : World K V} (hi : Inv w) {h : List (Ev K V)} (hr : w.runs h = some w')
    {k : Nat} {c : Link (MapDiff K V)} {x : Waker} (hc : w.hub.links[k]? = some c)
    (hx : c.waker = some x) (hp : ∀ cx, .poll k cx ∉ h) (hd : .dropRx k ∉ h) :
    ∃ new, w'.hub.woken = w.hub.woken ++ new ∧
      (x ∈ new ∨ ∃ c', w'.hub.links[k]? = some c' ∧ c'.waker = some x) := by
  induction h generalizing w c with
  | nil =>
    simp only [World.runs, Option.some.injEq] at hr; subst hr
    exact ⟨[], by simp, .inr ⟨c, hc, hx⟩⟩
  | cons e h ih =>
    have hs := step_eq w hi.wf e
    simp only [World.runs, hs] at hr
    have hne : ∀ he ∈ e.hubEvs w, (∀ cx, he ≠ .poll k cx) ∧ he ≠ .dropRx k := by
      intro he hm
      cases e with
      | op o =>
        simp only [Ev.hubEvs] at hm
        split at hm
        · simp at hm
        · obtain ⟨d, -, rfl⟩ := List.mem_map.1 hm; simp
      | poll id cx =>
        simp only [Ev.hubEvs, List.mem_singleton] at hm
        subst hm
        refine ⟨fun cx' h => ?_, by simp⟩
        cases h
        exact hp cx (by simp)
      | dropRx id =>
        simp only [Ev.hubEvs, List.mem_singleton] at hm
        subst hm
        refine ⟨by simp, fun h => ?_⟩
        cases h
        exact hd (by simp)
      | subscribe => simp only [Ev.hubEvs, List.mem_singleton] at hm; subst hm; simp
      | cloneHandle => simp only [Ev.hubEvs, List.mem_singleton] at hm; subst hm; simp
      | dropHandle => simp only [Ev.hubEvs, List.mem_singleton] at hm; subst hm; simp
    obtain ⟨n1, h1, h2⟩ := hub_steps_wake hi.wf (e.hubEvs w)
    have hp' : ∀ cx, .poll k cx ∉ h := fun cx hm => hp cx (by simp [hm])
    have hd' : .dropRx k ∉ h := fun hm => hd (by simp [hm])
    rcases h2 k c x hc hx (fun cx hm => (hne _ hm).1 cx rfl) (fun hm => (hne _ hm).2 rfl) with
      h3 | ⟨c', h3, h4⟩
    · -- woken now
      have hmono : ∀ (h : List (Ev K V)) (w w' : World K V), Inv w → w.runs h = some w' →
          ∃ new, w'.hub.woken = w.hub.woken ++ new := by
        intro h
        induction h with
        | nil => intro w w' _ hr; simp only [World.runs, Option.some.injEq] at hr; subst hr; exact ⟨[], by simp⟩
        | cons e h ih =>
          intro w w' hi hr
          have hs := step_eq w hi.wf e
          simp only [World.runs, hs] at hr
          obtain ⟨n, hn⟩ := ih _ _ (inv_step hi hs) hr
          obtain ⟨n', hn', -⟩ := hub_steps_wake hi.wf (e.hubEvs w)
          exact ⟨n' ++ n, by rw [hn]; simp only; rw [hn', List.append_assoc]⟩
      obtain ⟨n, hn⟩ := hmono h _ _ (inv_step hi hs) hr
      exact ⟨n1 ++ n, by rw [hn]; simp only; rw [h1, List.append_assoc], .inl (by simp [h3])⟩
    · obtain ⟨n2, h5, h6⟩ := ih (inv_step hi hs) hr h3 h4 hp' hd'
      refine ⟨n1 ++ n2, by rw [h5]; simp only; rw [h1, List.append_assoc], h6.imp ?_ id⟩
      intro h; simp [h]

/-- Once all handles are gone and nothing is queued, it stays that way. -/
theorem runs_ended {w w' : World K V} (hi : Inv w) {h : List (Ev K V)} (hr : w.runs h = some w')
    {k : Nat} (h0 : w.hub.handles = 0)
    (hq : ∀ c, w.hub.links[k]? = some c → c.queue = []) :
    w'.hub.handles = 0 ∧ ∀ c, w'.hub.links[k]? = some c → c.queue = [] := by
  have hd2 : ∀ (h : List (Ev K V)) (w w' : World K V), Inv w → w.runs h = some w' →
      w.hub.handles = 0 → (∀ c, w.hub.links[k]? = some c → c.queue = []) →
      w'.hub.handles = 0 ∧ ∀ c, w'.hub.links[k]? = some c → c.queue = [] := by
    intro h
    induction h with
    | nil => intro w w' _ hr a b; simp only [World.runs, Option.some.injEq] at hr; subst hr; exact ⟨a, b⟩
    | cons e h ih =>
      intro w w' hi hr a b
      have hs := step_eq w hi.wf e
      simp only [World.runs, hs] at hr
      refine ih _ _ (inv_step hi hs) hr ?_ ?_
      · simp only
        cases e <;> simp [Ev.hubEvs, Hub.steps, Hub.step, a]
        · rename_i id cx; split
          · unfold Hub.pollRx; split
            · exact a
            · split
              · exact a
              · split <;> exact a
          · exact a
        · rename_i id; split
          · unfold Hub.dropRx; split <;> exact a
          · exact a
      · simp only
        intro c hc
        cases e with
        | op o => simp [Ev.hubEvs, Hub.steps, a] at hc; exact b c hc
        | subscribe => simp [Ev.hubEvs, Hub.steps, Hub.step, a] at hc; exact b c hc
        | cloneHandle => simp [Ev.hubEvs, Hub.steps, Hub.step, a] at hc; exact b c hc
        | dropHandle => simp [Ev.hubEvs, Hub.steps, Hub.step, a] at hc; exact b c hc
        | poll id cx =>
          simp only [Ev.hubEvs, Hub.steps, List.foldl_cons, List.foldl_nil, Hub.step] at hc
          split at hc
          · unfold Hub.pollRx at hc
            split at hc
            · exact b c hc
            · rename_i c0 hc0
              split at hc
              · rename_i d ds hq0
                rcases getElem?_set_some' hc with ⟨rfl, rfl, -⟩ | ⟨-, hc⟩
                · have := b c0 hc0; simp [hq0] at this
                · exact b c hc
              · rename_i hq0
                split at hc
                · rcases getElem?_set_some' hc with ⟨rfl, rfl, -⟩ | ⟨-, hc⟩
                  · exact hq0
                  · exact b c hc
                · exact b c hc
          · exact b c hc
        | dropRx id =>
          simp only [Ev.hubEvs, Hub.steps, List.foldl_cons, List.foldl_nil, Hub.step] at hc
          split at hc
          · unfold Hub.dropRx at hc
            split at hc
            · exact b c hc
            · rcases getElem?_set_some' hc with ⟨rfl, rfl, -⟩ | ⟨-, hc⟩
              · rfl
              · exact b c hc
          · exact b c hc
  exact hd2 h w w' hi hr h0 hq

end Verif.MutMap
