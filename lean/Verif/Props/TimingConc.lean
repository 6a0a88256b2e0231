import Verif.Props.Timing
import Verif.Props.TellsConc
import Verif.SourceHubConc

/-!
# C104 with other threads
-/

namespace Verif.HubConc

variable {α β S D O : Type}

/-- A call, or a new subscriber; the rest is the progress of a call, and what is done with subscribers and handles. -/
def Ev.isCall : Ev O → Bool
  | .call _ => true
  | .subscribe => true
  | _ => false

theorem sentTo_calls (first : S → List D) (tells : O → S → List D) (next : O → S → Option S) (k n : Nat) (s : S)
    (es : List (Ev O)) : sentTo first tells next k n s es = sentTo first tells next k n s (es.filter Ev.isCall) := by
  induction es generalizing n s with
  | nil => rfl
  | cons e es ih =>
    cases e with
    | call o =>
      rw [List.filter_cons_of_pos rfl]
      simp only [sentTo]
      split
      · rfl
      · rw [ih]
    | subscribe =>
      rw [List.filter_cons_of_pos rfl]
      simp only [sentTo]
      rw [ih]
    | tick => exact ih _ _
    | poll _ _ => exact ih _ _
    | dropRx _ => exact ih _ _
    | cloneHandle => exact ih _ _
    | dropHandle => exact ih _ _

theorem sentTo_mono (first : S → List D) (tells : O → S → List D) (next : O → S → Option S) (k n : Nat) (s : S)
    (es es' : List (Ev O)) : sentTo first tells next k n s es <+: sentTo first tells next k n s (es ++ es') := by
  induction es generalizing n s with
  | nil => exact List.nil_prefix
  | cons e es ih =>
    cases e with
    | call o =>
      simp only [List.cons_append, sentTo]
      split
      · exact List.prefix_refl _
      · exact (List.prefix_append_right_inj _).2 (ih _ _)
    | subscribe =>
      simp only [List.cons_append, sentTo]
      exact (List.prefix_append_right_inj _).2 (ih _ _)
    | tick => exact ih _ _
    | poll _ _ => exact ih _ _
    | dropRx _ => exact ih _ _
    | cloneHandle => exact ih _ _
    | dropHandle => exact ih _ _

theorem got_none {api : Api S D O} {s : S} {w : World S D} {es : List (Ev O)} {os : List (Option (Poll (Option D)))}
    (h : (World.init s).runs api es = some (os, w)) {k : Nat} (hc : w.hub.links[k]? = none) : got k es os = [] := by
  rw [← runs_log h k]
  simp [Hub.log, hc]

/-- **C104** for a `MutableVec` with other threads: the calls take their effect in the same order in both histories (or one
history has more of them); when each of their sends happens, and when subscribers on other threads are polled or dropped in
between, may differ.  Then what a subscriber got in one history is the beginning of what it got in the other; and the same if
it is alive, nothing waits and no call is running. -/
theorem C104_vec_threads (l : List α) (es es' : List (Ev (MutVec.Op α))) (os os' : List (Option (Poll (Option (VecDiff α)))))
    (w w' : World (List α) (VecDiff α)) (h : (World.init l).runs (vecApi α) es = some (os, w))
    (h' : (World.init l).runs (vecApi α) es' = some (os', w')) (k : Nat) :
    (es.filter Ev.isCall <+: es'.filter Ev.isCall → got k es os <+: got k es' os' ∨ got k es' os' <+: got k es os) ∧
    (es.filter Ev.isCall = es'.filter Ev.isCall → w.job = none → w'.job = none →
      (∃ c, w.hub.links[k]? = some c ∧ c.rxAlive = true ∧ c.queue = []) →
      (∃ c, w'.hub.links[k]? = some c ∧ c.rxAlive = true ∧ c.queue = []) → got k es os = got k es' os') := by
  refine ⟨?_, ?_⟩
  · rintro ⟨x, hx⟩
    cases hc : w.hub.links[k]? with
    | none => exact .inl (by rw [got_none h hc]; exact List.nil_prefix)
    | some c =>
      cases hc' : w'.hub.links[k]? with
      | none => exact .inr (by rw [got_none h' hc']; exact List.nil_prefix)
      | some c' =>
        have a := (C97_vec_threads l es os w h k c hc).1
        have a' := (C97_vec_threads l es' os' w' h' k c' hc').1
        rw [sentTo_calls] at a a'
        have b := a.trans (sentTo_mono _ _ _ _ _ _ _ x)
        rw [hx] at b
        exact List.prefix_or_prefix_of_prefix b a'
  · rintro hx hj hj' ⟨c, c1, c2, c3⟩ ⟨c', c1', c2', c3'⟩
    have a := (C97_vec_threads l es os w h k c c1).2.2 c2 hj
    have a' := (C97_vec_threads l es' os' w' h' k c' c1').2.2 c2' hj'
    rw [sentTo_calls, c3, List.append_nil] at a
    rw [sentTo_calls, c3', List.append_nil, ← hx] at a'
    rw [a, a']

/-- **C104** for a `MutableBTreeMap` with other threads (see `C104_vec_threads`). -/
theorem C104_map_threads {K V : Type} [LinearOrder K] (m : MutMap.BMap K V) (es es' : List (Ev (MutMap.Op K V)))
    (os os' : List (Option (Poll (Option (MapDiff K V))))) (w w' : World (MutMap.BMap K V) (MapDiff K V))
    (h : (World.init m).runs (mapApi K V) es = some (os, w)) (h' : (World.init m).runs (mapApi K V) es' = some (os', w'))
    (k : Nat) :
    (es.filter Ev.isCall <+: es'.filter Ev.isCall → got k es os <+: got k es' os' ∨ got k es' os' <+: got k es os) ∧
    (es.filter Ev.isCall = es'.filter Ev.isCall → w.job = none → w'.job = none →
      (∃ c, w.hub.links[k]? = some c ∧ c.rxAlive = true ∧ c.queue = []) →
      (∃ c, w'.hub.links[k]? = some c ∧ c.rxAlive = true ∧ c.queue = []) → got k es os = got k es' os') := by
  refine ⟨?_, ?_⟩
  · rintro ⟨x, hx⟩
    cases hc : w.hub.links[k]? with
    | none => exact .inl (by rw [got_none h hc]; exact List.nil_prefix)
    | some c =>
      cases hc' : w'.hub.links[k]? with
      | none => exact .inr (by rw [got_none h' hc']; exact List.nil_prefix)
      | some c' =>
        have a := (C97_map_threads m es os w h k c hc).1
        have a' := (C97_map_threads m es' os' w' h' k c' hc').1
        rw [sentTo_calls] at a a'
        have b := a.trans (sentTo_mono _ _ _ _ _ _ _ x)
        rw [hx] at b
        exact List.prefix_or_prefix_of_prefix b a'
  · rintro hx hj hj' ⟨c, c1, c2, c3⟩ ⟨c', c1', c2', c3'⟩
    have a := (C97_map_threads m es os w h k c c1).2.2 c2 hj
    have a' := (C97_map_threads m es' os' w' h' k c' c1').2.2 c2' hj'
    rw [sentTo_calls, c3, List.append_nil] at a
    rw [sentTo_calls, c3', List.append_nil, ← hx] at a'
    rw [a, a']

/-- **C104** for a pipeline without `chain` on a `MutableVec` that other threads use: what it has sent in one history is the
beginning of what it has sent in the other; and the same if both are at rest, the subscribers are alive, nothing waits for
them and no call is running. -/
theorem C104_pipe_threads (l : List α) (es es' : List (Ev (MutVec.Op α))) (os os' : List (Option (Poll (Option (VecDiff α)))))
    (w w' : World (List α) (VecDiff α)) (h : (World.init l).runs (vecApi α) es = some (os, w))
    (h' : (World.init l).runs (vecApi α) es' = some (os', w')) (p : Pipe α β) (hs : p.Straight) (t t' : Trace β)
    (he : p.Exec (fun k => polled k es os) t) (he' : p.Exec (fun k => polled k es' os') t') :
    (es.filter Ev.isCall <+: es'.filter Ev.isCall → t.diffs <+: t'.diffs ∨ t'.diffs <+: t.diffs) ∧
    (es.filter Ev.isCall = es'.filter Ev.isCall → w.job = none → w'.job = none →
      (∃ c, w.hub.links[p.head]? = some c ∧ c.rxAlive = true ∧ c.queue = []) →
      (∃ c, w'.hub.links[p.head]? = some c ∧ c.rxAlive = true ∧ c.queue = []) → AtRest t → AtRest t' →
      t.diffs = t'.diffs) := by
  obtain ⟨a, b⟩ := C104_vec_threads l es es' os os' w w' h h' p.head
  have g : ∀ es (os : List (Option (Poll (Option (VecDiff α))))),
      Trace.diffs (polled p.head (es : List (Ev (MutVec.Op α))) os) = got p.head es os := fun es os => polled_got _ es os
  refine ⟨fun hx => ?_, fun hx hj hj' hq hq' ht ht' => ?_⟩
  · rcases a hx with c | c
    · exact C104_same_changes p hs _ _ t t' he he' (by rw [g, g]; exact c)
    · exact (C104_same_changes p hs _ _ t' t he' he (by rw [g, g]; exact c)).symm
  · exact (C104_at_rest p hs _ _ t t' he he' ht').2 ht (by rw [g, g]; exact b hx hj hj' hq hq')

/-- The two moves of a `swap`, polled between them and afterwards. -/
def swapEager : List (Ev (MutVec.Op Nat)) :=
  [.subscribe, .poll 0 7, .call (.swap 0 2), .tick, .poll 0 7, .tick, .poll 0 7, .tick, .poll 0 8, .tick, .tick,
    .poll 0 8, .tick, .tick, .poll 0 8]

def swapLazy : List (Ev (MutVec.Op Nat)) :=
  [.subscribe, .call (.swap 0 2), .tick, .tick, .tick, .tick, .tick, .tick, .tick, .poll 0 5, .poll 0 5, .poll 0 5, .poll 0 5]

example : ∃ os w os' w', (World.init [1, 2, 3]).runs (vecApi Nat) swapEager = some (os, w) ∧
    (World.init [1, 2, 3]).runs (vecApi Nat) swapLazy = some (os', w') ∧
    swapEager.filter Ev.isCall = swapLazy.filter Ev.isCall ∧ w.job.isNone ∧ w'.job.isNone ∧
    (∃ c, w.hub.links[0]? = some c ∧ c.rxAlive = true ∧ c.queue = []) ∧
    (∃ c, w'.hub.links[0]? = some c ∧ c.rxAlive = true ∧ c.queue = []) ∧
    got 0 swapLazy os' = [.replace [1, 2, 3], .move 0 2, .move 1 0] :=
  ⟨_, _, _, _, rfl, rfl, rfl, rfl, rfl, ⟨_, rfl, rfl, rfl⟩, ⟨_, rfl, rfl, rfl⟩, rfl⟩

/-- A pipeline on the subscriber in both histories. -/
example : ∃ os w os' w', (World.init [1, 2, 3]).runs (vecApi Nat) swapEager = some (os, w) ∧
    (World.init [1, 2, 3]).runs (vecApi Nat) swapLazy = some (os', w') ∧
    (∃ t, (Pipe.map (· * 2) (.source 0)).Exec (fun k => polled k swapEager os) t ∧ AtRest t) ∧
    (∃ t, (Pipe.map (· * 2) (.source 0)).Exec (fun k => polled k swapLazy os') t ∧ AtRest t ∧
      t.diffs = [.replace [2, 4, 6], .move 0 2, .move 1 0]) :=
  ⟨_, _, _, _, rfl, rfl,
    ⟨[(7, .ready (some (.replace [2, 4, 6]))), (7, .pending), (7, .ready (some (.move 0 2))), (8, .pending),
        (8, .ready (some (.move 1 0))), (8, .pending)], ⟨_, rfl, _, rfl, rfl⟩, 8, .pending, rfl, .inl rfl⟩,
    ⟨[(5, .ready (some (.replace [2, 4, 6]))), (5, .ready (some (.move 0 2))), (5, .ready (some (.move 1 0))), (5, .pending)],
      ⟨_, rfl, _, rfl, rfl⟩, ⟨5, .pending, rfl, .inl rfl⟩, rfl⟩⟩

end Verif.HubConc
