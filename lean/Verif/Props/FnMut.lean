import Mathlib.Data.List.Perm.Basic
import Verif.FnMutProofs
import Verif.Props.SignalVecSignal
import Verif.Props.SignalVecDelay
import Verif.Props.SignalVecSwitch
import Verif.Props.SignalMap
import Verif.Props.SignalB
import Verif.Props.Held

/-!
# Callbacks with state (property C95)
-/

namespace Verif

variable {α β ι τ : Type}

/-! ## Annotated changes -/

theorem callsOn_snd (c vs : List ι) : (callsOn c vs).map Prod.snd = vs := by
  induction vs generalizing c with
  | nil => rfl
  | cons v vs ih => simp [callsOn, ih]

theorem number_bare (c : List ι) (d : VecDiff ι) : (d.number c).map Prod.snd = d := by
  cases d <;> simp [VecDiff.number, VecDiff.map, callsOn_snd]

theorem numItems_bare (c : List ι) (ds : List (VecDiff ι)) :
    (numItems VecDiff.number VecDiff.payload c ds).map (VecDiff.map Prod.snd) = ds := by
  induction ds generalizing c with
  | nil => rfl
  | cons d ds ih => simp [numItems, ih, number_bare]

/-- Different calls, all of which were made. -/
structure Apart (calls : List ι) (tags : List (List ι × ι)) : Prop where
  made : ∀ t ∈ tags, t.1 ++ [t.2] <+: calls
  apart : (tags.map (·.1.length)).Nodup

theorem callsOn_spec (c vs : List ι) :
    (∀ t ∈ callsOn c vs, t.1 ++ [t.2] <+: c ++ vs ∧ c.length ≤ t.1.length) ∧
    ((callsOn c vs).map (·.1.length)).Nodup := by
  induction vs generalizing c with
  | nil => simp [callsOn]
  | cons v vs ih =>
    obtain ⟨h1, h2⟩ := ih (c ++ [v])
    refine ⟨?_, ?_⟩
    · intro t ht
      simp only [callsOn, List.mem_cons] at ht
      rcases ht with rfl | ht
      · exact ⟨⟨vs, by simp⟩, Nat.le_refl _⟩
      · obtain ⟨k1, k2⟩ := h1 t ht
        refine ⟨by simpa using k1, ?_⟩
        simp at k2
        omega
    · simp only [callsOn, List.map_cons, List.nodup_cons]
      refine ⟨?_, h2⟩
      simp only [List.mem_map, not_exists, not_and]
      intro t ht hl
      have := (h1 t ht).2
      simp at this
      omega

theorem Apart.lt {calls : List ι} {tags : List (List ι × ι)} (h : Apart calls tags) {t : List ι × ι} (ht : t ∈ tags) :
    t.1.length < calls.length := by
  have := (h.made t ht).length_le
  simp at this
  omega

theorem Apart.more {calls : List ι} {tags : List (List ι × ι)} (h : Apart calls tags) (vs : List ι) :
    Apart (calls ++ vs) tags :=
  ⟨fun t ht => (h.made t ht).trans (List.prefix_append _ _), h.apart⟩

theorem Apart.perm {calls : List ι} {tags tags' : List (List ι × ι)} (h : Apart calls tags) (hp : tags'.Perm tags) :
    Apart calls tags' :=
  ⟨fun t ht => h.made t (hp.mem_iff.1 ht), (hp.map _).nodup_iff.2 h.apart⟩

theorem Apart.sub {calls : List ι} {tags tags' : List (List ι × ι)} (h : Apart calls tags) (hs : tags'.Sublist tags) :
    Apart calls tags' :=
  ⟨fun t ht => h.made t (hs.subset ht), h.apart.sublist (hs.map _)⟩

theorem Apart.cons {calls : List ι} {tags : List (List ι × ι)} (h : Apart calls tags) (v : ι) :
    Apart (calls ++ [v]) ((calls, v) :: tags) := by
  refine ⟨?_, ?_⟩
  · intro t ht
    rcases List.mem_cons.1 ht with rfl | ht
    · exact List.prefix_refl _
    · exact (h.made t ht).trans (List.prefix_append _ _)
  · simp only [List.map_cons, List.nodup_cons]
    refine ⟨?_, h.apart⟩
    simp only [List.mem_map, not_exists, not_and]
    intro t ht hl
    have := h.lt ht
    omega

theorem Apart.apply {calls : List ι} {tags tags' : List (List ι × ι)} (h : Apart calls tags) (d : VecDiff ι)
    (hd : (d.number calls).apply tags = some tags') : Apart (calls ++ d.payload) tags' := by
  cases d with
  | replace vs =>
    simp only [VecDiff.number, VecDiff.apply, Option.some.injEq] at hd
    subst hd
    obtain ⟨h1, h2⟩ := callsOn_spec calls vs
    exact ⟨fun t ht => (h1 t ht).1, h2⟩
  | insertAt i v =>
    simp only [VecDiff.number, VecDiff.apply, vInsert] at hd
    split at hd <;> cases hd
    rename_i hi
    exact (h.cons v).perm (List.perm_insertIdx _ _ hi)
  | updateAt i v =>
    simp only [VecDiff.number, VecDiff.apply, vSet] at hd
    split at hd <;> cases hd
    rename_i hi
    refine ((h.sub (List.eraseIdx_sublist tags i)).cons v).perm ?_
    exact List.set_perm_cons_eraseIdx hi (calls, v)
  | push v =>
    simp only [VecDiff.number, VecDiff.apply, Option.some.injEq] at hd
    subst hd
    exact (h.cons v).perm (List.perm_append_singleton _ _)
  | removeAt i =>
    simp only [VecDiff.number, VecDiff.apply, vRemove] at hd
    simp only [VecDiff.payload, List.append_nil]
    cases ht : tags[i]? with
    | none => simp [ht] at hd
    | some t =>
      simp only [ht, Option.some.injEq] at hd
      subst hd
      exact h.sub (List.eraseIdx_sublist _ _)
  | move o n =>
    simp only [VecDiff.number, VecDiff.apply, vRemove] at hd
    simp only [VecDiff.payload, List.append_nil]
    cases ht : tags[o]? with
    | none => simp [ht] at hd
    | some t =>
      simp only [ht, vInsert] at hd
      split at hd <;> cases hd
      rename_i hi
      obtain ⟨ho, hto⟩ := List.getElem?_eq_some_iff.1 ht
      refine h.perm ((List.perm_insertIdx _ _ hi).trans ?_)
      rw [← hto]
      exact List.getElem_cons_eraseIdx_perm ho
  | pop =>
    simp only [VecDiff.number, VecDiff.apply, vPop] at hd
    simp only [VecDiff.payload, List.append_nil]
    cases ht : tags.getLast? with
    | none => simp [ht] at hd
    | some t =>
      simp only [ht, Option.some.injEq] at hd
      subst hd
      exact h.sub (List.dropLast_sublist _)
  | clear =>
    simp only [VecDiff.number, VecDiff.apply, Option.some.injEq] at hd
    subst hd
    exact ⟨by simp, by simp⟩

theorem Apart.replay {calls : List ι} {tags tags' : List (List ι × ι)} (h : Apart calls tags) (ds : List (VecDiff ι))
    (hd : Verif.replay (numItems VecDiff.number VecDiff.payload calls ds) tags = some tags') :
    Apart (calls ++ ds.flatMap VecDiff.payload) tags' := by
  induction ds generalizing calls tags with
  | nil =>
    cases hd
    simpa using h
  | cons d ds ih =>
    simp only [numItems, Verif.replay] at hd
    cases hx : (d.number calls).apply tags with
    | none => simp [hx] at hd
    | some ts =>
      simp only [hx] at hd
      have := ih (h.apply d hx) hd
      simpa [List.append_assoc] using this

/-- What is held, after annotated changes. -/
theorem held_calls {got : List (VecDiff ι)} {tags : List (List ι × ι)}
    (h : replay (numItems VecDiff.number VecDiff.payload [] got) [] = some tags) :
    replay got [] = some (tags.map Prod.snd) ∧ Apart (got.flatMap VecDiff.payload) tags := by
  refine ⟨?_, ?_⟩
  · have := replay_map Prod.snd h
    rwa [numItems_bare] at this
  · have := Apart.replay (calls := []) (tags := []) ⟨by simp, by simp⟩ got h
    simpa using this

theorem wf_number {script : List (Poll (Option (VecDiff ι)))} (h : ∃ z, replay (items script) [] = some z) :
    ∃ z, replay (items (numScript VecDiff.number VecDiff.payload [] script)) [] = some z := by
  obtain ⟨z, hz⟩ := h
  rw [items_numScript]
  obtain ⟨zs, k, -⟩ := replay_lift (α := List ι × ι) Prod.snd
    (ds := numItems VecDiff.number VecDiff.payload [] (items script)) (xs := []) (ys := z)
    (by rw [numItems_bare]; exact hz)
  exact ⟨zs, k⟩

/-! ## The theorems -/

/-- A callback whose signals all answer their first poll with a value, whatever was called before. -/
def AlwaysEager (f : List ι → ι → List (Poll (Option β))) : Prop := ∀ calls v, ∃ b rest, f calls v = .ready (some b) :: rest

theorem AlwaysEager.byCall {f : List ι → ι → List (Poll (Option β))} (hf : AlwaysEager f) : Eager (byCall f) :=
  fun t => hf t.1 t.2

theorem map_mapItem_id (outs : List (Poll (Option β))) : outs.map (Poll.mapItem id) = outs := by
  induction outs with
  | nil => rfl
  | cons r outs ih => simp [Poll.mapItem_id, ih]

theorem mem_mapItem_none {f : α → β} {outs : List (Poll (Option α))} :
    .ready none ∈ outs.map (Poll.mapItem f) ↔ .ready none ∈ outs := by
  simp only [List.mem_map]
  constructor
  · rintro ⟨r, h1, h2⟩
    rwa [mapItem_none.1 h2] at h1
  · intro h
    exact ⟨_, h, rfl⟩

theorem last_mapItem_pending {f : α → β} {outs : List (Poll (Option α))} :
    (outs.map (Poll.mapItem f)).getLast? = some .pending ↔ outs.getLast? = some .pending := by
  rw [List.getLast?_map]
  cases outs.getLast? with
  | none => simp
  | some r => simp [mapItem_pending]

/-- **C95**, `map_signal`.  `f calls v` is the signal that the callback makes for `v` after it was called on `calls`.
The callback is called once for each value that arrives, in the order of arrival, and for nothing else.  The signals
held belong to the elements of the present list, in order, each made by a call of its own for that element; and
whenever the last answer is `Pending` or the end, the emitted diffs describe the latest value of each of them. -/
theorem C95_map_signal (f : List ι → ι → List (Poll (Option β))) (hf : AlwaysEager f)
    (script : List (Poll (Option (VecDiff ι)))) (hwf : ∃ z, replay (items script) [] = some z) (ws : List Waker) :
    ∃ outs s zs, run (VMapSignalF.poll f) ws (VMapSignalF.init script) = some (outs, s) ∧
      s.calls = s.signal.src.got.flatMap VecDiff.payload ∧
      replay s.signal.src.got [] = some (s.signals.map (·.tag.2)) ∧
      (s.signals.map (·.tag.1.length)).Nodup ∧
      (∀ x ∈ s.signals, x.tag.1 ++ [x.tag.2] <+: s.calls ∧ x.sig.src.all = items (f x.tag.1 x.tag.2)) ∧
      replay (items outs) [] = some zs ∧
      (outs.getLast? = some .pending ∨ .ready none ∈ outs →
        s.signals.map (fun x => x.sig.src.got.getLast?) = zs.map some) := by
  obtain ⟨outs, s', zs, h1, h2, h3, h4, h5⟩ := C12_map_signal (byCall f) hf.byCall _ (wf_number hwf) ws
  have hm := run_mimics (VMapSignalF.mimics f) ws (VMapSignalF.init script)
    (VMapSignal.init (numScript VecDiff.number VecDiff.payload [] script)) ⟨inumd_mk' _ _ _, rfl, rfl⟩
  rw [h1] at hm
  obtain ⟨s, k1, k2⟩ := hm
  rw [map_mapItem_id] at k1
  rw [k2.signal.src.got, k2.signals] at h3
  obtain ⟨g1, g2⟩ := held_calls h3
  rw [k2.signals] at h4 h5
  refine ⟨outs, s, zs, k1, k2.signal.src.calls, ?_, ?_, ?_, h2, h5⟩
  · rw [g1, List.map_map]; rfl
  · have := g2.apart
    rwa [List.map_map] at this
  · intro x hx
    refine ⟨?_, h4 x hx⟩
    rw [k2.signal.src.calls]
    exact g2.made _ (List.mem_map_of_mem hx)

/-- **C95**, `map_signal`, any input and any signals: the answers are those with a pure callback on the annotated
input. -/
theorem C95_map_signal_answers (f : List ι → ι → List (Poll (Option β))) (script : List (Poll (Option (VecDiff ι))))
    (ws : List Waker) :
    (run (VMapSignalF.poll f) ws (VMapSignalF.init script)).map (·.1) =
      (run (VMapSignal.poll (fun t : List ι × ι => f t.1 t.2)) ws
        (VMapSignal.init (numScript VecDiff.number VecDiff.payload [] script))).map (·.1) := by
  have hm := run_mimics (VMapSignalF.mimics f) ws (VMapSignalF.init script)
    (VMapSignal.init (numScript VecDiff.number VecDiff.payload [] script)) ⟨inumd_mk' _ _ _, rfl, rfl⟩
  change _ = (run (VMapSignal.poll (byCall f)) ws _).map _
  rcases hr : run (VMapSignal.poll (byCall f)) ws
    (VMapSignal.init (numScript VecDiff.number VecDiff.payload [] script)) with _ | ⟨outs, s'⟩
  · rw [hr] at hm
    rw [hm]; rfl
  · rw [hr] at hm
    obtain ⟨s, k1, -⟩ := hm
    rw [k1, map_mapItem_id]; rfl

/-- **C95**, `filter_signal_cloned`: whenever it does not panic, the callback was called once for each value that
arrived, in the order of arrival, and the signals held belong to the elements of the present list, in order, each made
by a call of its own for that element. -/
theorem C95_filter_signal (f : List α → α → List (Poll (Option Bool))) (script : List (Poll (Option (VecDiff α))))
    (ws : List Waker) {outs : List (Poll (Option (VecDiff α)))} {s : VFilterSignalF α}
    (h : run (VFilterSignalF.poll f) ws (VFilterSignalF.init script) = some (outs, s)) :
    s.calls = s.signal.src.got.flatMap VecDiff.payload ∧
    replay s.signal.src.got [] = some (s.signals.map (·.value.2)) ∧
    (s.signals.map (·.value.1.length)).Nodup ∧
    (∀ x ∈ s.signals, x.value.1 ++ [x.value.2] <+: s.calls) := by
  have hm := run_mimics (VFilterSignalF.mimics f) ws (VFilterSignalF.init script)
    (VFilterSignal.init (numScript VecDiff.number VecDiff.payload [] script)) ⟨inumd_mk' _ _ _, rfl, rfl⟩
  rcases hr : run (VFilterSignal.poll (byCall f)) ws
    (VFilterSignal.init (numScript VecDiff.number VecDiff.payload [] script)) with _ | ⟨outs', s'⟩
  · rw [hr] at hm
    rw [hm] at h
    cases h
  · rw [hr] at hm
    obtain ⟨s1, k1, k2⟩ := hm
    rw [h] at k1
    cases k1
    have h3 := (C94_filter_signal _ _ ws hr).1
    rw [k2.signal.src.got, k2.signals] at h3
    obtain ⟨g1, g2⟩ := held_calls h3
    refine ⟨k2.signal.src.calls, ?_, ?_, ?_⟩
    · rw [g1, List.map_map]; rfl
    · have := g2.apart
      rwa [List.map_map] at this
    · intro x hx
      rw [k2.signal.src.calls]
      exact g2.made _ (List.mem_map_of_mem hx)

theorem moves_number {script : List (Poll (Option (VecDiff ι)))} {c : List ι} {old new : Nat}
    (h : .move old new ∈ items (numScript VecDiff.number VecDiff.payload c script)) : .move old new ∈ items script := by
  rw [items_numScript] at h
  have := List.mem_map_of_mem (f := VecDiff.map (Prod.snd (α := List ι) (β := ι))) h
  rwa [numItems_bare] at this

/-- **C95**, `filter_signal_cloned`, for inputs without moves towards the front (as
`C13_filter_signal_forward_partial`): no poll panics, and whenever the last answer is `Pending` or the end, the
emitted diffs describe exactly the elements whose signal last said `true`, in order.

Missing for the full claim: moves towards the front, for which it is false also for pure callbacks
(`C13_filter_signal_fails`). -/
theorem C95_filter_signal_forward_partial (f : List α → α → List (Poll (Option Bool))) (hf : AlwaysEager f)
    (script : List (Poll (Option (VecDiff α)))) (hwf : ∃ z, replay (items script) [] = some z)
    (hmove : ∀ old new, .move old new ∈ items script → old ≤ new) (ws : List Waker) :
    ∃ outs s zs, run (VFilterSignalF.poll f) ws (VFilterSignalF.init script) = some (outs, s) ∧
      (∀ x ∈ s.signals, x.signal.src.all = items (f x.value.1 x.value.2)) ∧
      replay (items outs) [] = some zs ∧
      (outs.getLast? = some .pending ∨ .ready none ∈ outs →
        zs = (s.signals.filter (fun x => x.signal.src.got.getLast? == some true)).map (·.value.2)) := by
  obtain ⟨outs, s', zs, h1, h2, h3, h4, h5⟩ := C13_filter_signal_forward_partial (byCall f) hf.byCall _ (wf_number hwf)
    (fun o n h => hmove o n (moves_number h)) ws
  have hm := run_mimics (VFilterSignalF.mimics f) ws (VFilterSignalF.init script)
    (VFilterSignal.init (numScript VecDiff.number VecDiff.payload [] script)) ⟨inumd_mk' _ _ _, rfl, rfl⟩
  rw [h1] at hm
  obtain ⟨s, k1, k2⟩ := hm
  rw [k2.signals] at h4 h5
  refine ⟨_, s, zs.map Prod.snd, k1, h4, ?_, ?_⟩
  · rw [items_mapItem]
    exact replay_map Prod.snd h2
  · intro h
    rw [last_mapItem_pending, mem_mapItem_none] at h
    rw [h5 h, List.map_map]; rfl

/-- **C95**, `delay_remove`: `C17_delay_remove` with a callback with state. -/
theorem C95_delay_remove (f : List α → α → List (Poll Unit)) (script : List (Poll (Option (VecDiff α))))
    (hwf : ∃ z, replay (items script) [] = some z) (ws : List Waker) :
    ∃ outs s xs zs, run (VDelayF.poll f) ws (VDelayF.init script) = some (outs, s) ∧
      s.calls = s.signal.src.got.flatMap VecDiff.payload ∧
      replay s.signal.src.got [] = some xs ∧
      replay (items outs) [] = some zs ∧
      (s.futures.filter (!·.isRemoving)).map (·.tag.2) = xs ∧
      ((s.futures.filter (!·.isRemoving)).map (·.tag.1.length)).Nodup ∧
      (∀ t ∈ s.futures, t.isRemoving = false → t.tag.1 ++ [t.tag.2] <+: s.calls) ∧
      (∀ t ∈ s.futures, Plays (f t.tag.1 t.tag.2) t.future ∧ ¬ t.future.completed ∧
        (t.isRemoving = true ↔ t.future.hist ≠ [])) ∧
      (∀ t ∈ s.gone, Plays (f t.tag.1 t.tag.2) t.future ∧
        ∃ pre w, t.future.hist = pre ++ [(w, .ready ())] ∧ ∀ x ∈ pre, x.2 = .pending) ∧
      (outs.getLast? = some .pending → s.pending = [] ∧ zs = s.futures.map (·.tag.2) ∧
        (∀ t ∈ s.futures, t.isRemoving = true → ∃ w, t.future.armed w) ∧
        (s.signal.src.ended → ∃ t ∈ s.futures, t.isRemoving = true)) ∧
      (.ready none ∈ outs → s.signal.src.ended ∧ (∀ t ∈ s.futures, t.isRemoving = false) ∧ zs = xs) := by
  obtain ⟨outs, s', xs, zs, h1, h2, h3, h4, h5, h6, -, h7, h8, h9⟩ := C17_delay_remove (byCall f) _ (wf_number hwf) ws
  have hm := run_mimics (VDelayF.mimics f) ws (VDelayF.init script)
    (VDelay.init (numScript VecDiff.number VecDiff.payload [] script)) ⟨inumd_mk' _ _ _, rfl, rfl, rfl⟩
  rw [h1] at hm
  obtain ⟨s, k1, k2⟩ := hm
  rw [k2.futures] at h4 h5 h6 h8 h9
  rw [k2.pending] at h4 h8 h9
  rw [k2.gone] at h7
  rw [k2.signal.src.ended] at h8 h9
  rw [k2.signal.src.got, ← h5] at h2
  obtain ⟨g1, g2⟩ := held_calls h2
  refine ⟨_, s, xs.map Prod.snd, zs.map Prod.snd, k1, k2.signal.src.calls, ?_, ?_, ?_, ?_, ?_, h6, h7, ?_, ?_⟩
  · rw [g1, h5]
  · rw [items_mapItem]
    exact replay_map Prod.snd h3
  · rw [← h5, List.map_map]; rfl
  · have := g2.apart
    rwa [List.map_map] at this
  · intro t ht hr
    rw [k2.signal.src.calls]
    exact g2.made _ (List.mem_map_of_mem (List.mem_filter.2 ⟨ht, by simp [hr]⟩))
  · intro h
    rw [last_mapItem_pending] at h
    obtain ⟨q1, q2, q3⟩ := h8 h
    rw [q1] at h4
    cases h4
    exact ⟨q1, by rw [List.map_map]; rfl, q2, q3⟩
  · intro h
    rw [mem_mapItem_none] at h
    obtain ⟨-, q2, q3, q4⟩ := h9 h
    exact ⟨q2, q3, by rw [q4]⟩

theorem numItems_callsOn (c vs : List α) : numItems (fun c v => (c, v)) (fun v => [v]) c vs = callsOn c vs := by
  induction vs generalizing c with
  | nil => rfl
  | cons v vs ih => simp [numItems, callsOn, ih]

/-- **C95**, `map_future`: `C54_map_future` with a callback with state.  One call for each value, in order; the futures
are those the calls made. -/
theorem C95_map_future (f : List α → α → List (Poll β)) (script : List (Poll (Option α))) (ws : List Waker) :
    ∃ outs s, run (SMapFutureF.poll f) ws (SMapFutureF.init script) = some (outs, s) ∧
      s.calls = s.signal.src.got ∧
      (s.old ++ s.future.toList).map (·.tag) = callsOn [] s.calls ∧
      (∀ x ∈ s.old ++ s.future.toList, Plays (f x.tag.1 x.tag.2) x.src ∧ x.src.fusedF) ∧
      (∃ lead, (lead = [] ∨ lead = [none]) ∧ (outs.head? = some (.ready (some none)) ↔ lead = [none]) ∧
        items outs = lead ++ ((s.old ++ s.future.toList).filterMap (·.src.output)).map some) ∧
      (∀ x, s.future = some x → ¬ x.src.completed) ∧
      (.ready none ∈ outs → s.signal.src.ended ∧ s.future = none) ∧
      (∀ w, ws.getLast? = some w → outs.getLast? = some .pending →
        (s.signal.src.ended ∨ s.signal.src.armed w) ∧ (∀ x, s.future = some x → x.src.armed w)) := by
  obtain ⟨outs, s', h1, h2, -, h4, h5, h6, -, -, h9, h10⟩ := C54_map_future (byCall f)
    (numScript (fun c v => (c, v)) (fun v => [v]) [] script) ws
  have hm := run_mimics (SMapFutureF.mimics f) ws (SMapFutureF.init script)
    (SMapFuture.init (numScript (fun c v => (c, v)) (fun v => [v]) [] script)) ⟨inumd_mk' _ _ _, rfl, rfl, rfl⟩
  rw [h1] at hm
  obtain ⟨s, k1, k2⟩ := hm
  rw [map_mapItem_id] at k1
  rw [k2.future, k2.old] at h2 h4 h5
  rw [k2.future] at h6 h9 h10
  rw [k2.signal.src.ended] at h9
  have hc : s.calls = s.signal.src.got := by
    have := k2.signal.src.calls
    simpa using this
  refine ⟨outs, s, k1, hc, ?_, h5, h2, h6, h9, ?_⟩
  · rw [h4, k2.signal.src.got, numItems_callsOn, hc]
  · intro w hw ho
    obtain ⟨q1, q2, -⟩ := h10 w hw ho
    rw [k2.signal.src.ended, k2.signal.src.armed] at q1
    exact ⟨q1, q2⟩

/-- **C95**, `switch_signal_vec` (partial, as `C22_switch_signal_vec_partial`).  The callback is called once for the
last one of the values that arrive between two `Pending`s, in order.  The `SignalVec` shown is the one that the last
call made, for the last value.

Missing for the full claim: the exception of `C22_switch_signal_vec_partial`, where it is false also for pure
callbacks (`C22_switch_fails`). -/
theorem C95_switch_signal_vec_partial (f : List τ → τ → List (Poll (Option (VecDiff α))))
    (script : List (Poll (Option τ))) (hf : ∀ c v, ∃ z, replay (items (f c v)) [] = some z) (ws : List Waker) :
    ∃ outs s zs ys, run (VSwitchF.poll f) ws (VSwitchF.init script) = some (outs, s) ∧
      s.calls = lastOfEach (s.signal.src.hist.map (·.2)) ∧
      s.calls.getLast? = s.signal.src.got.getLast? ∧
      (∀ c v, s.calls = c ++ [v] → s.inner.src.all = items (f c v)) ∧
      replay (items outs) [] = some zs ∧
      replay s.inner.src.got [] = some ys ∧
      (s.calls = [] → ys = []) ∧
      (zs = ys ∨ (.ready none ∈ outs ∧ ∃ w, s.inner.src.hist = [(w, .ready none)])) := by
  obtain ⟨outs, s', zs, ys, h1, h2, h3, h4, h5, h6⟩ := C22_switch_signal_vec_partial (byCall f)
    (batchScript [] none script) (fun t => hf t.1 t.2) ws
  have h7 := (C94_switch _ _ ws h1).1
  have hm := run_mimics (VSwitchF.mimics f) ws (VSwitchF.init script)
    (VSwitch.init (batchScript [] none script)) ⟨⟨rfl, rfl, rfl, rfl⟩, rfl, rfl, rfl, rfl, rfl⟩
  rw [h1] at hm
  obtain ⟨s, k1, k2⟩ := hm
  rw [map_mapItem_id] at k1
  rw [k2.inner] at h3 h4 h6
  rw [k2.cur] at h7
  have hg : s'.signal.src.got.getLast?.map Prod.snd = s.signal.src.got.getLast? := by
    rw [← k2.signal.got, List.getLast?_map]
  have hcalls := k2.calls
  rw [h7] at hcalls
  refine ⟨outs, s, zs, ys, k1, ?_, ?_, ?_, h2, h3, ?_, h6⟩
  · have := k2.signal.calls
    simp [lastOfEach, this]
  · rw [← hg, hcalls]
    cases s'.signal.src.got.getLast? <;> simp
  · intro c v hc
    cases hl : s'.signal.src.got.getLast? with
    | none =>
      rw [hl] at hcalls
      simp only at hcalls
      rw [hc] at hcalls
      simp at hcalls
    | some t =>
      rw [hl, hc] at hcalls
      simp only at hcalls
      obtain ⟨q1, q2⟩ := List.append_inj' hcalls rfl
      cases q2
      subst q1
      exact h4 t hl
  · intro hc
    apply h5
    cases hl : s'.signal.src.got.getLast? with
    | none => exact List.getLast?_eq_none_iff.1 hl
    | some t =>
      rw [hl, hc] at hcalls
      simp at hcalls

/-! ## Maps -/

section
variable {K V : Type}

/-- Different calls at different keys, all of which were made. -/
structure MApart (calls : List V) (m : K → Option (List V × V)) : Prop where
  made : ∀ k t, m k = some t → t.1 ++ [t.2] <+: calls
  apart : ∀ k k' t t', m k = some t → m k' = some t' → t.1.length = t'.1.length → k = k'

theorem callsOnEntries_bare (c : List V) (es : List (K × V)) :
    (callsOnEntries c es).map (fun e => (e.1, e.2.2)) = es := by
  induction es generalizing c with
  | nil => rfl
  | cons e es ih => simp [callsOnEntries, ih]

theorem mnumber_bare (c : List V) (d : MapDiff K V) : (d.number c).map Prod.snd = d := by
  cases d <;> simp [MapDiff.number, MapDiff.map, callsOnEntries_bare]

theorem mnumItems_bare (c : List V) (ds : List (MapDiff K V)) :
    (numItems MapDiff.number MapDiff.payload c ds).map (MapDiff.map Prod.snd) = ds := by
  induction ds generalizing c with
  | nil => rfl
  | cons d ds ih => simp [numItems, ih, mnumber_bare]

theorem callsOnEntries_spec (c : List V) (es : List (K × V)) :
    (∀ e ∈ callsOnEntries c es, e.2.1 ++ [e.2.2] <+: c ++ es.map (·.2) ∧ c.length ≤ e.2.1.length) ∧
    (∀ e ∈ callsOnEntries c es, ∀ e' ∈ callsOnEntries c es, e.2.1.length = e'.2.1.length → e = e') := by
  induction es generalizing c with
  | nil => simp [callsOnEntries]
  | cons e es ih =>
    obtain ⟨h1, h2⟩ := ih (c ++ [e.2])
    have h3 : ∀ x ∈ callsOnEntries (c ++ [e.2]) es, c.length < x.2.1.length := by
      intro x hx
      have := (h1 x hx).2
      simp at this
      omega
    refine ⟨?_, ?_⟩
    · intro x hx
      simp only [callsOnEntries, List.mem_cons] at hx
      rcases hx with rfl | hx
      · exact ⟨⟨es.map (·.2), by simp⟩, Nat.le_refl _⟩
      · exact ⟨by simpa using (h1 x hx).1, Nat.le_of_lt (h3 x hx)⟩
    · intro x hx y hy hl
      simp only [callsOnEntries, List.mem_cons] at hx hy
      rcases hx with rfl | hx <;> rcases hy with rfl | hy
      · rfl
      · have := h3 y hy
        simp only at hl
        omega
      · have := h3 x hx
        simp only at hl
        omega
      · exact h2 x hx y hy hl

variable [DecidableEq K]

theorem MApart.put {calls : List V} {m : K → Option (List V × V)} (h : MApart calls m) (key : K) (v : V) :
    MApart (calls ++ [v]) (upd m key (some (calls, v))) := by
  have lt : ∀ k t, m k = some t → t.1.length < calls.length := by
    intro k t ht
    have := (h.made k t ht).length_le
    simp at this
    omega
  refine ⟨?_, ?_⟩
  · intro k t ht
    unfold upd at ht
    split at ht
    · cases ht; exact List.prefix_refl _
    · exact (h.made k t ht).trans (List.prefix_append _ _)
  · intro k k' t t' ht ht' hl
    unfold upd at ht ht'
    split at ht <;> split at ht'
    · simp [*]
    · cases ht
      have := lt _ _ ht'
      simp only at hl
      omega
    · cases ht'
      have := lt _ _ ht
      simp only at hl
      omega
    · exact h.apart k k' t t' ht ht' hl

theorem MApart.apply {calls : List V} {m m' : K → Option (List V × V)} (h : MApart calls m) (d : MapDiff K V)
    (hd : (d.number calls).apply m = some m') : MApart (calls ++ d.payload) m' := by
  cases d with
  | replace es =>
    simp only [MapDiff.number, MapDiff.apply] at hd
    split at hd <;> cases hd
    obtain ⟨h1, h2⟩ := callsOnEntries_spec calls es
    refine ⟨fun k t ht => (h1 _ (mapOf_mem ht)).1, fun k k' t t' ht ht' hl => ?_⟩
    exact congrArg Prod.fst (h2 _ (mapOf_mem ht) _ (mapOf_mem ht') hl)
  | insert k v =>
    simp only [MapDiff.number, MapDiff.apply] at hd
    split at hd <;> cases hd
    exact h.put k v
  | update k v =>
    simp only [MapDiff.number, MapDiff.apply] at hd
    split at hd <;> cases hd
    exact h.put k v
  | remove key =>
    simp only [MapDiff.number, MapDiff.apply] at hd
    split at hd <;> cases hd
    simp only [MapDiff.payload, List.append_nil]
    have un : ∀ k t, upd m key none k = some t → m k = some t := by
      intro k t ht
      unfold upd at ht
      split at ht
      · cases ht
      · exact ht
    exact ⟨fun k t ht => h.made k t (un k t ht), fun k k' t t' ht ht' hl => h.apart k k' t t' (un _ _ ht) (un _ _ ht') hl⟩
  | clear =>
    simp only [MapDiff.number, MapDiff.apply, Option.some.injEq] at hd
    subst hd
    exact ⟨by simp [noKeys], by simp [noKeys]⟩

theorem MApart.replay {calls : List V} {m m' : K → Option (List V × V)} (h : MApart calls m) (ds : List (MapDiff K V))
    (hd : mreplay (numItems MapDiff.number MapDiff.payload calls ds) m = some m') :
    MApart (calls ++ ds.flatMap MapDiff.payload) m' := by
  induction ds generalizing calls m with
  | nil =>
    cases hd
    simpa using h
  | cons d ds ih =>
    simp only [numItems, mreplay] at hd
    cases hx : (d.number calls).apply m with
    | none => simp [hx] at hd
    | some ts =>
      simp only [hx] at hd
      have := ih (h.apply d hx) hd
      simpa [List.append_assoc] using this

theorem mreplay_bare (ds : List (MapDiff K (List V × V))) (m : K → Option (List V × V)) :
    mreplay (ds.map (MapDiff.map Prod.snd)) (fun k => (m k).map Prod.snd) =
      (mreplay ds m).map (fun m' k => (m' k).map Prod.snd) := by
  induction ds generalizing m with
  | nil => rfl
  | cons d ds ih =>
    simp only [List.map_cons, mreplay, map_apply']
    cases d.apply m with
    | none => rfl
    | some m1 => exact ih m1

end

/-- **C95**, `map_value_signal`: as `map_signal`, key by key. -/
theorem C95_map_value_signal {K V : Type} [LinearOrder K] (f : List V → V → List (Poll (Option β)))
    (hf : AlwaysEager f) (script : List (Poll (Option (MapDiff K V))))
    (hwf : ∃ m, mreplay (items script) noKeys = some m) (ws : List Waker) :
    ∃ outs s z, run (MMapSignalF.poll f) ws (MMapSignalF.init script) = some (outs, s) ∧
      s.calls = s.signal.src.got.flatMap MapDiff.payload ∧
      mreplay s.signal.src.got noKeys = some (fun k => (mapOf s.signals k).map (·.tag.2)) ∧
      (∀ k k' x x', mapOf s.signals k = some x → mapOf s.signals k' = some x' →
        x.tag.1.length = x'.tag.1.length → k = k') ∧
      (∀ k x, mapOf s.signals k = some x →
        x.tag.1 ++ [x.tag.2] <+: s.calls ∧ x.sig.src.all = items (f x.tag.1 x.tag.2)) ∧
      mreplay (items outs) noKeys = some z ∧
      (outs.getLast? = some .pending ∨ .ready none ∈ outs →
        ∀ k, z k = (mapOf s.signals k).bind (·.sig.src.got.getLast?)) := by
  have hwf' : ∃ m, mreplay (items (numScript MapDiff.number MapDiff.payload [] script)) noKeys = some m := by
    obtain ⟨z, hz⟩ := hwf
    rw [items_numScript]
    have := mreplay_bare (numItems MapDiff.number MapDiff.payload [] (items script)) noKeys
    rw [mnumItems_bare] at this
    have hz' : mreplay (items script) (fun k => (noKeys k : Option (List V × V)).map Prod.snd) = some z := hz
    rw [hz'] at this
    cases hm : mreplay (numItems MapDiff.number MapDiff.payload [] (items script)) noKeys with
    | none => rw [hm] at this; cases this
    | some m => exact ⟨m, rfl⟩
  obtain ⟨outs, s', m, z, h1, h2, h3, h4, h5, h6⟩ := C29_map_value_signal (byCall f) hf.byCall _ hwf' ws
  have hm := run_mimics (MMapSignalF.mimics f) ws (MMapSignalF.init script)
    (MMapSignal.init (numScript MapDiff.number MapDiff.payload [] script)) ⟨inumd_mk' _ _ _, rfl, rfl⟩
  rw [h1] at hm
  obtain ⟨s, k1, k2⟩ := hm
  rw [map_mapItem_id] at k1
  rw [k2.signal.src.got] at h3
  rw [k2.signals] at h4 h5 h6
  have hap : MApart s.calls m := by
    have := MApart.replay (calls := []) (m := noKeys) ⟨by simp [noKeys], by simp [noKeys]⟩ _ h3
    rw [k2.signal.src.calls]
    simpa using this
  have ht : ∀ k x, mapOf s.signals k = some x → m k = some x.tag := by
    intro k x hx
    rw [h4, hx]; rfl
  refine ⟨outs, s, z, k1, k2.signal.src.calls, ?_, ?_, ?_, h2, h6⟩
  · have := mreplay_bare (numItems MapDiff.number MapDiff.payload [] s.signal.src.got) noKeys
    rw [mnumItems_bare, h3] at this
    refine this.trans ?_
    simp only [Option.map_some, Option.some.injEq]
    funext k
    rw [h4, Option.map_map]; rfl
  · intro k k' x x' hx hx' hl
    exact hap.apart k k' _ _ (ht _ _ hx) (ht _ _ hx') hl
  · intro k x hx
    exact ⟨hap.made k _ (ht _ _ hx), h5 _ (mapOf_mem hx)⟩

/-! ## Examples

A callback that numbers its calls. -/

/-- The signal made by the `n`-th call (from 0) says `100 * n + v`, and `100 * n + v + 1` later. -/
def demoCalls (calls : List Nat) (v : Nat) : List (Poll (Option Nat)) :=
  [.ready (some (100 * calls.length + v)), .pending, .ready (some (100 * calls.length + v + 1)), .ready none]

example : AlwaysEager demoCalls := fun _ _ => ⟨_, _, rfl⟩

def demoCallsIn : List (Poll (Option (VecDiff Nat))) :=
  [.ready (some (.replace [7, 7])), .ready (some (.push 8)), .pending, .ready (some (.move 0 2)),
   .ready (some (.updateAt 0 9)), .ready (some .pop), .ready (some (.insertAt 1 7)), .ready none]

example : ∃ z, replay (items demoCallsIn) [] = some z := ⟨_, rfl⟩

/-- Five calls, although two of the elements are gone; equal elements have signals of different calls. -/
example : (run (VMapSignalF.poll demoCalls) (List.replicate 12 0) (VMapSignalF.init demoCallsIn)).map
    (fun q => (q.2.calls, q.2.signals.map (fun x => (x.tag.1.length, x.tag.2)), replay (items q.1) [])) =
    some ([7, 7, 8, 9, 7], [(3, 9), (4, 7), (2, 8)], some [310, 408, 209]) := by decide

def demoCallsBool (calls : List Nat) (_ : Nat) : List (Poll (Option Bool)) :=
  [.ready (some (calls.length % 2 == 0)), .pending, .ready (some (calls.length % 3 == 0)), .ready none]

example : AlwaysEager demoCallsBool := fun _ _ => ⟨_, _, rfl⟩
example : ∀ old new, (.move old new : VecDiff Nat) ∈ items demoCallsIn → old ≤ new := by
  simp [demoCallsIn, items]
example : (run (VFilterSignalF.poll demoCallsBool) (List.replicate 12 0) (VFilterSignalF.init demoCallsIn)).map
    (fun q => (q.2.calls, q.2.signals.map (fun x => (x.value.1.length, x.value.2)), replay (items q.1) [])) =
    some ([7, 7, 8, 9, 7], [(3, 9), (4, 7), (2, 8)], some [9]) := by decide

/-- Each second removal takes one more poll. -/
def demoCallsDelay (calls : List Nat) (_ : Nat) : List (Poll Unit) :=
  if calls.length % 2 = 0 then [.ready ()] else [.pending, .ready ()]

example : (run (VDelayF.poll demoCallsDelay) (List.replicate 12 0) (VDelayF.init demoCallsIn)).map
    (fun q => (q.2.calls, q.2.futures.map (fun x => (x.tag.1.length, x.tag.2)), replay (items q.1) [])) =
    some ([7, 7, 8, 9, 7], [(3, 9), (4, 7), (2, 8)], some [9, 7, 8]) := by decide

example : (run (SMapFutureF.poll (fun calls (v : Nat) => [Poll.pending, .ready (calls.length, v)]))
    [0, 0, 0, 0, 0] (SMapFutureF.init [.ready (some 5), .ready (some 5), .pending, .pending, .ready (some 6), .ready none])).map
    (fun q => (items q.1, q.2.calls)) = some ([none, some (1, 5), some (2, 6)], [5, 5, 6]) := by decide

example : (run (MMapSignalF.poll demoCalls) (List.replicate 8 0) (MMapSignalF.init
    [.ready (some (.replace [(1, 5), (2, 5)])), .pending, .ready (some (.update 1 5)), .ready none])).map
    (fun q => (q.2.calls, q.2.signals.map (fun e => (e.1, e.2.tag.1.length)))) =
    some ([5, 5, 5], [(1, 2), (2, 1)]) := by decide

/-- The outer signal's `1` is skipped. -/
example : (run (VSwitchF.poll (fun calls (v : Nat) => [.ready (some (.replace [calls.length, v]))])) [0, 0, 0]
    (VSwitchF.init [.ready (some 1), .ready (some 2), .pending, .ready (some 2), .ready none])).map
    (fun q => (q.2.calls, replay (items q.1) [])) = some ([2, 2], some [1, 2]) := by decide

end Verif
