import Verif.Props.Timing
import Verif.Props.Tells
import Verif.Props.SignalMap

/-!
# C104 for maps
-/

namespace Verif

variable {K V W κ σ δ ο : Type}

/-- If what is sent is a function of what was taken, then of two runs the one that took less has sent a beginning of what the
other one has sent. -/
theorem run_exact {poll : Waker → σ → Option (Poll (Option ο) × σ)} {input : σ → Src (Option δ)}
    (owes : σ → List δ → List ο) (hn : ∀ s, owes s [] = [])
    (hstep : ∀ w s r s', poll w s = some (r, s') →
      ∃ ds, (input s').got = (input s).got ++ ds ∧ ∀ es, owes s (ds ++ es) = items [r] ++ owes s' es)
    {ws : List Waker} {s0 s : σ} {outs : List (Poll (Option ο))} (h0 : (input s0).got = [])
    (h : run poll ws s0 = some (outs, s)) : items outs = owes s0 (input s).got := by
  have key := run_trace (fun outs s => ∀ es, owes s0 ((input s).got ++ es) = items outs ++ owes s es)
    (by
      intro w outs s r s' i1 hp es
      obtain ⟨ds, g1, g2⟩ := hstep w s r s' hp
      rw [g1, List.append_assoc, i1, g2, items_append, List.append_assoc]) (outs0 := []) h (fun es => by rw [h0]; rfl)
  have := key []
  rw [hn, List.append_nil, List.append_nil] at this
  exact this.symm

/-- **C104**, `map_value`. -/
theorem C104_map_value (f : V → W) (script script' : List (Poll (Option (MapDiff K V)))) (ws ws' : List Waker)
    (outs outs' : List (Poll (Option (MapDiff K W)))) (s s' : MMapValue (List V) K V)
    (h : run (MMapValue.poll (logging f)) ws (MMapValue.init [] script) = some (outs, s))
    (h' : run (MMapValue.poll (logging f)) ws' (MMapValue.init [] script') = some (outs', s'))
    (hg : s.signal.got <+: s'.signal.got) : items outs <+: items outs' := by
  let body : List V → MapDiff K V → Ctl (List V) (MapDiff K W) :=
    fun k d => .ret (d.mapS (logging f) k).2 (d.mapS (logging f) k).1
  have step : ∀ w (s : MMapValue (List V) K V) r s', MMapValue.poll (logging f) w s = some (r, s') →
      ∃ ds, s'.signal.got = s.signal.got ++ ds ∧
        ∀ es, said body (fun e => [e]) s.st (ds ++ es) = items [r] ++ said body (fun e => [e]) s'.st es := by
    intro w s r s' h
    unfold MMapValue.poll at h
    split at h
    all_goals
      rename_i hp
      cases h
      exact ⟨_, src_took hp, fun es => rfl⟩
  rw [run_exact (fun s es => said body (fun e => [e]) s.st es) (fun _ => rfl) step rfl h,
    run_exact (fun s es => said body (fun e => [e]) s.st es) (fun _ => rfl) step rfl h']
  obtain ⟨x, hx⟩ := hg
  rw [← hx]
  exact said_mono _ _ _ _ _

section
variable [LinearOrder K]

/-- **C104**, `signal_vec_keys`, with any `binary_search`. -/
theorem C104_keys (bs : List K → K → Except Nat Nat) (script script' : List (Poll (Option (MapDiff K V))))
    (ws ws' : List Waker) (outs outs' : List (Poll (Option (VecDiff K)))) (s s' : MKeys K V)
    (h : run (MKeys.poll bs) ws (MKeys.init script) = some (outs, s))
    (h' : run (MKeys.poll bs) ws' (MKeys.init script') = some (outs', s'))
    (hg : s.signal.got <+: s'.signal.got) : items outs <+: items outs' := by
  have step : ∀ w (s : MKeys K V) r s', MKeys.poll bs w s = some (r, s') →
      ∃ ds, s'.signal.got = s.signal.got ++ ds ∧ ∀ es, said (keysBody bs) (fun e => [e]) s.keys (ds ++ es) =
        items [r] ++ said (keysBody bs) (fun e => [e]) s'.keys es := by
    intro w s r s' h
    unfold MKeys.poll at h
    split at h
    · cases h
    all_goals
      rename_i hp
      cases h
      exact loop_said (fun e => [e]) hp (by simp)
  rw [run_exact (fun s es => said (keysBody bs) (fun e => [e]) s.keys es) (fun _ => rfl) step rfl h,
    run_exact (fun s es => said (keysBody bs) (fun e => [e]) s.keys es) (fun _ => rfl) step rfl h']
  obtain ⟨x, hx⟩ := hg
  rw [← hx]
  exact said_mono _ _ _ _ _

/-- **C104**, `signal_vec_entries` and `entries_cloned`. -/
theorem C104_entries (bs : List K → K → Except Nat Nat) (script script' : List (Poll (Option (MapDiff K V))))
    (ws ws' : List Waker) (outs outs' : List (Poll (Option (VecDiff (K × V))))) (s s' : MKeys K V)
    (h : run (MEntries.poll bs) ws (MKeys.init script) = some (outs, s))
    (h' : run (MEntries.poll bs) ws' (MKeys.init script') = some (outs', s'))
    (hg : s.signal.got <+: s'.signal.got) : items outs <+: items outs' := by
  let body : List K → MapDiff K V → Ctl (List K) (VecDiff (K × V)) := fun keys d =>
    match entriesChange bs keys d with
    | none => .panic
    | some (d, keys) => .ret keys d
  have step : ∀ w (s : MKeys K V) r s', MEntries.poll bs w s = some (r, s') →
      ∃ ds, s'.signal.got = s.signal.got ++ ds ∧
        ∀ es, said body (fun e => [e]) s.keys (ds ++ es) = items [r] ++ said body (fun e => [e]) s'.keys es := by
    intro w s r s' h
    unfold MEntries.poll at h
    split at h
    · rename_i hp
      split at h
      · cases h
      · rename_i hc
        cases h
        refine ⟨_, src_took hp, fun es => ?_⟩
        simp [said, body, hc]
    · rename_i hp
      cases h
      exact ⟨_, src_took hp, fun es => rfl⟩
    · rename_i hp
      cases h
      exact ⟨_, src_took hp, fun es => rfl⟩
  rw [run_exact (fun s es => said body (fun e => [e]) s.keys es) (fun _ => rfl) step rfl h,
    run_exact (fun s es => said body (fun e => [e]) s.keys es) (fun _ => rfl) step rfl h']
  obtain ⟨x, hx⟩ := hg
  rw [← hx]
  exact said_mono _ _ _ _ _

end

/-- The same changes, waiting together and one at a time; the second input is one change behind. -/
def mapSlow : List (Poll (Option (MapDiff Nat Nat))) :=
  [.ready (some (.insert 3 1)), .ready (some (.update 3 2)), .ready (some (.insert 1 5)), .ready (some (.remove 3)), .pending]

def mapFast : List (Poll (Option (MapDiff Nat Nat))) :=
  [.pending, .ready (some (.insert 3 1)), .pending, .ready (some (.update 3 2)), .pending, .ready (some (.insert 1 5)), .pending]

example : ∃ outs s outs' s', run (MKeys.poll linearSearch) [1, 2, 3, 4, 5] (MKeys.init mapFast) = some (outs, s) ∧
    run (MKeys.poll linearSearch) [6, 6, 6, 6] (MKeys.init mapSlow) = some (outs', s') ∧ s.signal.got <+: s'.signal.got ∧
    items outs = [.insertAt 0 3, .insertAt 0 1] ∧ items outs' = [.insertAt 0 3, .insertAt 0 1, .removeAt 1] :=
  ⟨_, _, _, _, rfl, rfl, ⟨[.remove 3], rfl⟩, rfl, rfl⟩

example : ∃ outs s outs' s', run (MEntries.poll linearSearch) [1, 2, 3, 4, 5, 5] (MKeys.init mapFast) = some (outs, s) ∧
    run (MEntries.poll linearSearch) [6, 6, 6, 6] (MKeys.init mapSlow) = some (outs', s') ∧ s.signal.got <+: s'.signal.got ∧
    (items outs).length = 3 ∧ (items outs').length = 4 :=
  ⟨_, _, _, _, rfl, rfl, ⟨[.remove 3], rfl⟩, rfl, rfl⟩

example : ∃ outs s outs' s',
    run (MMapValue.poll (logging (· * 2))) [1, 2, 3, 4, 5, 5] (MMapValue.init [] mapFast) = some (outs, s) ∧
    run (MMapValue.poll (logging (· * 2))) [6, 6, 6, 6] (MMapValue.init [] mapSlow) = some (outs', s') ∧
    s.signal.got <+: s'.signal.got ∧
    items outs = [.insert 3 2, .update 3 4, .insert 1 10] ∧ (items outs').length = 4 :=
  ⟨_, _, _, _, rfl, rfl, ⟨[.remove 3], rfl⟩, rfl, rfl⟩

end Verif

namespace Verif.MutMap

variable {K V : Type} [LinearOrder K]

/-- Something that is done with the `MutableBTreeMap` itself, and not with one of its subscribers. -/
def Ev.isCall : Ev K V → Bool
  | .poll _ _ => false
  | .dropRx _ => false
  | _ => true

/-- Entries and handles after an event. -/
def Ev.vh : Ev K V → BMap K V × Nat → BMap K V × Nat
  | .op o, x => if x.2 = 0 then x else (o.next x.1, x.2)
  | .cloneHandle, x => if x.2 = 0 then x else (x.1, x.2 + 1)
  | .dropHandle, x => (x.1, x.2 - 1)
  | _, x => x

theorem hubSend_handles {D : Type} (h : Hub D) (s : Nat) (d : D) : (h.send s d).2.handles = h.handles := by
  unfold Hub.send
  split
  · rfl
  · split <;> rfl

theorem hubRetain_handles {D : Type} (d : D) (ss : List Nat) (h : Hub D) : (hubRetain d ss h).2.handles = h.handles := by
  induction ss generalizing h with
  | nil => rfl
  | cons s ss ih =>
    simp only [hubRetain]
    rw [ih, hubSend_handles]

theorem hubNotify_handles {D : Type} (ds : List D) (h : Hub D) : (ds.foldl Hub.notify h).handles = h.handles := by
  induction ds generalizing h with
  | nil => rfl
  | cons d ds ih =>
    rw [List.foldl_cons, ih]
    exact hubRetain_handles d h.senders h

theorem hubDropSenders_handles {D : Type} (ss : List Nat) (h : Hub D) : (hubDropSenders ss h).handles = h.handles := by
  induction ss generalizing h with
  | nil => rfl
  | cons s ss ih =>
    simp only [hubDropSenders]
    rw [ih]
    unfold Hub.dropTx
    split <;> rfl

theorem step_vh (w : World K V) (e : Ev K V) :
    ∃ w', w.step e = some w' ∧ (w'.values, w'.hub.handles) = e.vh (w.values, w.hub.handles) := by
  cases e with
  | op o =>
    simp only [World.step, Ev.vh]
    split
    · exact ⟨_, rfl, rfl⟩
    · rw [exec_eq]
      exact ⟨_, rfl, by simp [hubNotify_handles]⟩
  | subscribe =>
    simp only [World.step, Ev.vh]
    split
    · exact ⟨_, rfl, rfl⟩
    · exact ⟨_, rfl, rfl⟩
  | poll id cx =>
    simp only [World.step, Ev.vh]
    split
    · refine ⟨_, rfl, ?_⟩
      unfold Hub.pollRx
      split
      · rfl
      · split
        · rfl
        · split <;> rfl
    · exact ⟨_, rfl, rfl⟩
  | dropRx id =>
    simp only [World.step, Ev.vh]
    split
    · refine ⟨_, rfl, ?_⟩
      unfold Hub.dropRx
      split <;> rfl
    · exact ⟨_, rfl, rfl⟩
  | cloneHandle =>
    simp only [World.step, Ev.vh]
    split
    · exact ⟨_, rfl, rfl⟩
    · exact ⟨_, rfl, rfl⟩
  | dropHandle =>
    simp only [World.step, Ev.vh]
    split
    · rename_i h; exact ⟨_, rfl, by simp [h]⟩
    · refine ⟨_, rfl, ?_⟩
      unfold Hub.dropHandle
      simp only
      split
      · simp [hubDropSenders_handles]
      · rfl

theorem sentTo_calls (k n : Nat) (w w' : World K V) (hv : w.values = w'.values) (hh : w.hub.handles = w'.hub.handles)
    (h : List (Ev K V)) : sentTo k n w h = sentTo k n w' (h.filter Ev.isCall) := by
  induction h generalizing w w' n with
  | nil => rfl
  | cons e es ih =>
    obtain ⟨w1, hs, h1⟩ := step_vh w e
    obtain ⟨w1', hs', h2⟩ := step_vh w' e
    rw [← hv, ← hh, ← h1] at h2
    simp only [Prod.mk.injEq] at h2
    cases hc : e.isCall with
    | true =>
      rw [List.filter_cons_of_pos hc]
      simp only [sentTo, hs, hs', ih _ w1 w1' h2.1.symm h2.2.symm]
      cases e <;> simp [hv, hh]
    | false =>
      rw [List.filter_cons_of_neg (by simp [hc])]
      have hx : e.vh (w.values, w.hub.handles) = (w.values, w.hub.handles) := by cases e <;> simp_all [Ev.isCall, Ev.vh]
      rw [hx] at h1
      simp only [Prod.mk.injEq] at h1
      simp only [sentTo, hs, ih _ w1 w' (h1.1.trans hv) (h1.2.trans hh)]
      cases e <;> simp_all [Ev.isCall]

theorem sentTo_mono (k n : Nat) (w : World K V) (h h' : List (Ev K V)) : sentTo k n w h <+: sentTo k n w (h ++ h') := by
  induction h generalizing w n with
  | nil => exact List.nil_prefix
  | cons e es ih =>
    simp only [List.cons_append, sentTo]
    split
    · exact List.prefix_refl _
    · exact (List.prefix_append_right_inj _).2 (ih _ _)

theorem received_sentTo {vs : BMap K V} {h : List (Ev K V)} {w : World K V} (hr : (World.init vs).runs h = some w) (k : Nat) :
    received k (World.init vs) h <+: sentTo k 0 (World.init vs) (h.filter Ev.isCall) := by
  rw [← sentTo_calls k 0 _ _ rfl rfl]
  cases hc : w.hub.links[k]? with
  | some c => exact (C97_map vs h w hr k c hc).2
  | none =>
    have hlog := runs_log (inv_init vs) hr k
    have h0 : (World.init vs).hub.log k = [] := by simp [Hub.log, World.init]
    rw [h0, List.nil_append] at hlog
    rw [← hlog]
    simp [Hub.log, hc]

/-- **C104** for a `MutableBTreeMap`: in two histories with the same calls on it (or in which one makes more of them than the
other), in which the subscribers are polled and dropped at any times, what a subscriber has received in one is the beginning
of what it has received in the other; and the same if it is alive in both, nothing waits and the calls are the same. -/
theorem C104_map_subscriber (vs : BMap K V) (h h' : List (Ev K V)) (w w' : World K V)
    (hr : (World.init vs).runs h = some w) (hr' : (World.init vs).runs h' = some w') (k : Nat) :
    (h.filter Ev.isCall <+: h'.filter Ev.isCall → received k (World.init vs) h <+: received k (World.init vs) h' ∨
      received k (World.init vs) h' <+: received k (World.init vs) h) ∧
    (h.filter Ev.isCall = h'.filter Ev.isCall → (∃ c, w.hub.links[k]? = some c ∧ c.rxAlive = true ∧ c.queue = []) →
      (∃ c, w'.hub.links[k]? = some c ∧ c.rxAlive = true ∧ c.queue = []) →
      received k (World.init vs) h = received k (World.init vs) h') := by
  refine ⟨?_, ?_⟩
  · rintro ⟨x, hx⟩
    have a := (received_sentTo hr k).trans (sentTo_mono _ _ _ _ x)
    rw [hx] at a
    exact List.prefix_or_prefix_of_prefix a (received_sentTo hr' k)
  · rintro hc ⟨c, c1, c2, c3⟩ ⟨c', c1', c2', c3'⟩
    have a := (C97_map vs h w hr _ c c1).1 c2
    have a' := (C97_map vs h' w' hr' _ c' c1').1 c2'
    rw [c3, List.append_nil, sentTo_calls _ 0 _ _ rfl rfl, hc] at a
    rw [c3', List.append_nil, sentTo_calls _ 0 _ _ rfl rfl, ← a] at a'
    exact a'.symm

def eagerHist : List (Ev Nat Nat) :=
  [.subscribe, .poll 0 1, .op (.insert 4 6), .poll 0 1, .op (.insert 4 7), .poll 0 1, .op (.remove 4), .poll 0 1, .poll 0 1]

def lazyHist : List (Ev Nat Nat) :=
  [.subscribe, .op (.insert 4 6), .op (.insert 4 7), .op (.remove 4), .poll 0 2, .poll 0 2, .poll 0 2, .poll 0 2]

example : ∃ w w', (World.init demo0).runs eagerHist = some w ∧ (World.init demo0).runs lazyHist = some w' ∧
    eagerHist.filter Ev.isCall = lazyHist.filter Ev.isCall ∧
    (∃ c, w.hub.links[0]? = some c ∧ c.rxAlive = true ∧ c.queue = []) ∧
    (∃ c, w'.hub.links[0]? = some c ∧ c.rxAlive = true ∧ c.queue = []) ∧
    received 0 (World.init demo0) lazyHist = [.replace demo0.1, .insert 4 6, .update 4 7, .remove 4] :=
  ⟨_, _, rfl, rfl, rfl, ⟨_, rfl, rfl, rfl⟩, ⟨_, rfl, rfl, rfl⟩, rfl⟩

end Verif.MutMap
