import Verif.VolumeProofs2
import Verif.Props.SignalVecSort
import Mathlib.Data.Nat.Basic

/-!
# C93: what a combinator sends is proportional to what it received

`VecDiff.size` of a change is one, and one for each element it carries; `vol` of a list of changes is the
sum.  For all inputs, all callbacks and all sequences of polls, the volume of the changes sent is at
most a constant times the volume of the changes received, however long the lists are.  So a
combinator does not answer small changes with `Replace` of the whole list, and does not send anything
twice.  For combinators with inner signals or lists the bound counts what those give.
-/

namespace Verif

variable {α β ι κ τ K V W : Type}

/-! ## Lists -/

/-- `map` answers each change with one of the same size. -/
theorem C93_map (f : κ → α → β × κ) (k : κ) {script : List (Poll (Option (VecDiff α)))} {ws : List Waker}
    {outs : List (Poll (Option (VecDiff β)))} {s : VMap κ α}
    (h : run (VMap.poll f) ws (VMap.init k script) = some (outs, s)) :
    (items outs).map VecDiff.size = s.signal.got.map VecDiff.size := by
  have step : ∀ w (s : VMap κ α) r s', VMap.poll f w s = some (r, s') →
      s'.signal.got.map VecDiff.size = s.signal.got.map VecDiff.size ++ (items [r]).map VecDiff.size := by
    intro w s r s' h
    unfold VMap.poll at h
    have h2 := Src.poll_got w s.signal
    split at h <;> rename_i h1 <;> rw [h1] at h2 <;> cases h <;> simp [h2, VecDiff.mapS_size]
  have := run_sizes VecDiff.size (fun s : VMap κ α => s.signal.got.map VecDiff.size) step h
  simpa [VMap.init, Src.got_mk'] using this.symm

/-- `enumerate` answers each change with one of the same size. -/
theorem C93_enumerate {script : List (Poll (Option (VecDiff α)))} {ws : List Waker}
    {outs : List (Poll (Option (VecDiff (Nat × α))))} {s : VEnumerate α}
    (h : run VEnumerate.poll ws (VEnumerate.init script) = some (outs, s)) :
    (items outs).map VecDiff.size = s.signal.got.map VecDiff.size := by
  have step : ∀ w (s : VEnumerate α) r s', VEnumerate.poll w s = some (r, s') →
      s'.signal.got.map VecDiff.size = s.signal.got.map VecDiff.size ++ (items [r]).map VecDiff.size := by
    intro w s r s' h
    unfold VEnumerate.poll at h
    have h2 := Src.poll_got w s.signal
    split at h <;> rename_i h1 <;> rw [h1] at h2
    · split at h <;> cases h
      rename_i h3
      simp [h2, enumChange_size h3]
    all_goals cases h; simp [h2]
  have := run_sizes VecDiff.size (fun s : VEnumerate α => s.signal.got.map VecDiff.size) step h
  simpa [VEnumerate.init, Src.got_mk'] using this.symm

/-- `filter_map` sends at most as many changes, and at most as much, as it received. -/
theorem C93_filter_map (f : κ → α → Option β × κ) (k : κ) {script : List (Poll (Option (VecDiff α)))}
    {ws : List Waker} {outs : List (Poll (Option (VecDiff β)))} {s : VFilterMap κ α}
    (h : run (VFilterMap.poll f) ws (VFilterMap.init k script) = some (outs, s)) :
    (items outs).length ≤ s.signal.got.length ∧ vol (items outs) ≤ vol s.signal.got := by
  have step : ∀ (c : VecDiff β → Nat) (wt : VecDiff α → Nat),
      Pays (filterMapBody f) (fun _ => 0) c wt →
      ∀ w (s : VFilterMap κ α) r s', VFilterMap.poll f w s = some (r, s') →
      answer c r + 0 + sumBy wt s.signal.got ≤ 0 + sumBy wt s'.signal.got := by
    intro c wt hb w s r s' h
    unfold VFilterMap.poll at h
    split at h
    rotate_right
    · cases h
    all_goals
      rename_i h1
      cases h
      have := pollLoop_weight _ _ _ hb h1 (by simp)
      simp [Stop.weight] at this ⊢
      omega
  constructor
  · have := run_weight _ (fun _ => 0) _ (step (fun _ => 1) (fun _ => 1) (fun s a => by split <;> simp)) h
    simpa [sumBy_one, VFilterMap.init, Src.got_mk'] using this
  · have := run_weight _ (fun _ => 0) _ (step VecDiff.size VecDiff.size (fun s a => by
      have := filterMapBody_size f s a
      split <;> simp_all)) h
    simpa [vol, VFilterMap.init, Src.got_mk'] using this

/-- `filter` sends at most as many changes, and at most as much, as it received. -/
theorem C93_filter (f : κ → α → Bool × κ) (k : κ) {script : List (Poll (Option (VecDiff α)))}
    {ws : List Waker} {outs : List (Poll (Option (VecDiff α)))} {s : VFilterMap κ α}
    (h : run (VFilter.poll f) ws (VFilterMap.init k script) = some (outs, s)) :
    (items outs).length ≤ s.signal.got.length ∧ vol (items outs) ≤ vol s.signal.got :=
  C93_filter_map _ k h

/-- `sort_by_cloned` sends at most one and a half times what it received. -/
theorem C93_sort (S : SliceFns) (hS : ∀ c l, (S.sort c l).length = l.length) (cmp : α → α → Ordering)
    {script : List (Poll (Option (VecDiff α)))}
    {ws : List Waker} {outs : List (Poll (Option (VecDiff α)))} {s : VSort α}
    (h : run (VSort.poll S cmp) ws (VSort.init script) = some (outs, s)) :
    2 * vol (items outs) ≤ 3 * vol s.signal.got := by
  have hb : Pays (sortBody S cmp) (fun _ => 0) (fun e => 2 * (e.1.size + pendWeight e.2))
      (fun d => 3 * d.size) := by
    intro s d
    have := sortBody_size S hS cmp s d
    split <;> simp_all
  have step : ∀ w (s : VSort α) r s', VSort.poll S cmp w s = some (r, s') →
      answer (fun d => 2 * d.size) r + 2 * pendWeight s'.pending + 3 * vol s.signal.got ≤
        2 * pendWeight s.pending + 3 * vol s'.signal.got := by
    intro w s r s' h
    unfold VSort.poll at h
    split at h
    · rename_i h1
      cases h
      simp [h1, pendWeight]
    · rename_i hp
      split at h
      · cases h
      all_goals
        rename_i h1
        cases h
        have := pollLoop_weight _ _ _ hb h1 (by simp)
        simp only [sumBy_mul] at this
        simp [Stop.weight, vol, hp, pendWeight] at this ⊢
        omega
  have := run_weight _ (fun s : VSort α => 2 * pendWeight s.pending) _ step h
  rw [sumBy_mul] at this
  simp [VSort.init, pendWeight] at this
  unfold vol at *
  omega

/-- `chain` sends at most three times what it received from both. -/
theorem C93_chain {l r : List (Poll (Option (VecDiff α)))} {ws : List Waker}
    {outs : List (Poll (Option (VecDiff α)))} {s : VChain α}
    (h : run VChain.poll ws (VChain.init l r) = some (outs, s)) :
    vol (items outs) ≤ 3 * (vol s.left.src.got + vol s.right.src.got) := by
  have := run_weight VecDiff.size VChain.owed VChain.paid VChain.poll_owed h
  simp [VChain.init, VChain.owed, VChain.paid, Inp.mk'] at this
  unfold vol at *
  omega

/-- `flatten` sends at most one for each change of the outer list, and three times what the inner lists
it got give. -/
theorem C93_flatten (g : ι → List (Poll (Option (VecDiff β)))) {script : List (Poll (Option (VecDiff ι)))}
    {ws : List Waker} {outs : List (Poll (Option (VecDiff β)))} {s : VFlatten ι β}
    (h : run (VFlatten.poll g) ws (VFlatten.init script) = some (outs, s)) :
    vol (items outs) ≤ sumBy (flattenCost g) s.signal.src.got := by
  have := run_weight VecDiff.size VFlatten.owed (fun s : VFlatten ι β => sumBy (flattenCost g) s.signal.src.got)
    (VFlatten.poll_owed g) h
  simp [VFlatten.init, VFlatten.owed, Inp.mk'] at this
  unfold vol
  omega

/-- `map_signal` sends at most one for each change of the list, and two for each value of the signals
it made. -/
theorem C93_map_signal (g : ι → List (Poll (Option β))) {script : List (Poll (Option (VecDiff ι)))}
    {ws : List Waker} {outs : List (Poll (Option (VecDiff β)))} {s : VMapSignal ι β}
    (h : run (VMapSignal.poll g) ws (VMapSignal.init script) = some (outs, s)) :
    vol (items outs) ≤ sumBy (signalsCost g) s.signal.src.got := by
  have := run_weight VecDiff.size VMapSignal.owed
    (fun s : VMapSignal ι β => sumBy (signalsCost g) s.signal.src.got) (VMapSignal.poll_owed g) h
  simp [VMapSignal.init, VMapSignal.owed, Inp.mk'] at this
  unfold vol
  omega

/-- `filter_signal_cloned` likewise. -/
theorem C93_filter_signal (g : α → List (Poll (Option Bool))) {script : List (Poll (Option (VecDiff α)))}
    {ws : List Waker} {outs : List (Poll (Option (VecDiff α)))} {s : VFilterSignal α}
    (h : run (VFilterSignal.poll g) ws (VFilterSignal.init script) = some (outs, s)) :
    vol (items outs) ≤ sumBy (signalsCost g) s.signal.src.got := by
  have := run_weight VecDiff.size VFilterSignal.owed
    (fun s : VFilterSignal α => sumBy (signalsCost g) s.signal.src.got) (VFilterSignal.poll_owed g) h
  simp [VFilterSignal.init, VFilterSignal.owed, Inp.mk'] at this
  unfold vol
  omega

/-- `delay_remove` sends at most three times what it received. -/
theorem C93_delay_remove (g : α → List (Poll Unit)) {script : List (Poll (Option (VecDiff α)))}
    {ws : List Waker} {outs : List (Poll (Option (VecDiff α)))} {s : VDelay α}
    (h : run (VDelay.poll g) ws (VDelay.init script) = some (outs, s)) :
    vol (items outs) ≤ 3 * vol s.signal.src.got := by
  have := run_weight VecDiff.size VDelay.owed (fun s : VDelay α => 3 * vol s.signal.src.got)
    (VDelay.poll_owed g) h
  simp [VDelay.init, VDelay.owed, Inp.mk'] at this
  unfold vol at *
  omega

/-- `switch_signal_vec` sends at most one for each value of the signal, and what the lists it got give. -/
theorem C93_switch_signal_vec (g : τ → List (Poll (Option (VecDiff α)))) {script : List (Poll (Option τ))}
    {ws : List Waker} {outs : List (Poll (Option (VecDiff α)))} {s : VSwitch τ α}
    (h : run (VSwitch.poll g) ws (VSwitch.init script) = some (outs, s)) :
    vol (items outs) ≤ sumBy (switchCost g) s.signal.src.got := by
  have := run_weight VecDiff.size VSwitch.owed (fun s : VSwitch τ α => sumBy (switchCost g) s.signal.src.got)
    (VSwitch.poll_owed g) h
  simp [VSwitch.init, VSwitch.owed, Inp.mk', Src.mk'] at this
  simp [Src.got] at this
  unfold vol Src.got
  omega

/-! ## Maps -/

/-- `map_value` answers each change with one of the same size. -/
theorem C93_map_value (f : κ → V → W × κ) (k : κ) {script : List (Poll (Option (MapDiff K V)))} {ws : List Waker}
    {outs : List (Poll (Option (MapDiff K W)))} {s : MMapValue κ K V}
    (h : run (MMapValue.poll f) ws (MMapValue.init k script) = some (outs, s)) :
    (items outs).map MapDiff.size = s.signal.got.map MapDiff.size := by
  have step : ∀ w (s : MMapValue κ K V) r s', MMapValue.poll f w s = some (r, s') →
      s'.signal.got.map MapDiff.size = s.signal.got.map MapDiff.size ++ (items [r]).map MapDiff.size := by
    intro w s r s' h
    unfold MMapValue.poll at h
    have h2 := Src.poll_got w s.signal
    split at h <;> rename_i h1 <;> rw [h1] at h2 <;> cases h <;> simp [h2, MapDiff.mapS_size]
  have := run_sizes MapDiff.size (fun s : MMapValue κ K V => s.signal.got.map MapDiff.size) step h
  simpa [MMapValue.init, Src.got_mk'] using this.symm

section
variable [LinearOrder K]

/-- `signal_vec_entries` and `entries_cloned` answer each change with one of the same size. -/
theorem C93_entries (bs : List K → K → Except Nat Nat) {script : List (Poll (Option (MapDiff K V)))}
    {ws : List Waker} {outs : List (Poll (Option (VecDiff (K × V))))} {s : MKeys K V}
    (h : run (MEntries.poll bs) ws (MKeys.init script) = some (outs, s)) :
    (items outs).map VecDiff.size = s.signal.got.map MapDiff.size := by
  have step : ∀ w (s : MKeys K V) r s', MEntries.poll bs w s = some (r, s') →
      s'.signal.got.map MapDiff.size = s.signal.got.map MapDiff.size ++ (items [r]).map VecDiff.size := by
    intro w s r s' h
    unfold MEntries.poll at h
    have h2 := Src.poll_got w s.signal
    split at h <;> rename_i h1 <;> rw [h1] at h2
    · split at h <;> cases h
      rename_i h3
      simp [h2, entriesChange_size h3]
    all_goals cases h; simp [h2]
  have := run_sizes VecDiff.size (fun s : MKeys K V => s.signal.got.map MapDiff.size) step h
  simpa [MKeys.init, Src.got_mk'] using this.symm

/-- `signal_vec_keys` sends at most as much as it received. -/
theorem C93_keys (bs : List K → K → Except Nat Nat) {script : List (Poll (Option (MapDiff K V)))}
    {ws : List Waker} {outs : List (Poll (Option (VecDiff K)))} {s : MKeys K V}
    (h : run (MKeys.poll bs) ws (MKeys.init script) = some (outs, s)) :
    vol (items outs) ≤ sumBy MapDiff.size s.signal.got := by
  have step : ∀ w (s : MKeys K V) r s', MKeys.poll bs w s = some (r, s') →
      answer VecDiff.size r + 0 + sumBy MapDiff.size s.signal.got ≤ 0 + sumBy MapDiff.size s'.signal.got := by
    intro w s r s' h
    unfold MKeys.poll at h
    split at h
    · cases h
    all_goals
      rename_i h1
      cases h
      have := pollLoop_weight _ _ _ (keysBody_size bs) h1 (by simp)
      simp [Stop.weight] at this ⊢
      omega
  have := run_weight VecDiff.size (fun _ => 0) _ step h
  simpa [vol, MKeys.init, Src.got_mk'] using this

/-- `map_value_signal` sends at most one for each change of the map, and two for each value of the
signals it made. -/
theorem C93_map_value_signal (g : V → List (Poll (Option β))) {script : List (Poll (Option (MapDiff K V)))}
    {ws : List Waker} {outs : List (Poll (Option (MapDiff K β)))} {s : MMapSignal K V β}
    (h : run (MMapSignal.poll g) ws (MMapSignal.init script) = some (outs, s)) :
    sumBy MapDiff.size (items outs) ≤ sumBy (mapSignalsCost g) s.signal.src.got := by
  have := run_weight MapDiff.size MMapSignal.owed
    (fun s : MMapSignal K V β => sumBy (mapSignalsCost g) s.signal.src.got) (MMapSignal.poll_owed g) h
  simp [MMapSignal.init, MMapSignal.owed, Inp.mk'] at this
  omega

/-- `key_cloned` sends at most one value for each change, and one at the start. -/
theorem C93_key_cloned {key : K} {script : List (Poll (Option (MapDiff K V)))}
    {ws : List Waker} {outs : List (Poll (Option (Option V)))} {s : MWatch K V}
    (h : run MWatch.poll ws (MWatch.init key script) = some (outs, s)) :
    (items outs).length ≤ s.signal.got.length + 1 := by
  have := run_weight (fun _ => 1) (fun s : MWatch K V => flag s.first) (fun s => s.signal.got.length)
    MWatch.poll_count h
  simp [sumBy_one, MWatch.init] at this
  omega

end

/-! ## Signals -/

/-- `to_signal_map` and `to_signal_cloned` send at most one value for each change, and one at the
start. -/
theorem C93_to_signal_map (callback : List α → β) {script : List (Poll (Option (VecDiff α)))}
    {ws : List Waker} {outs : List (Poll (Option β))} {s : VToSignal α}
    (h : run (VToSignal.poll callback) ws (VToSignal.init script) = some (outs, s)) :
    (items outs).length ≤ s.signal.src.got.length + 1 := by
  have := run_weight (fun _ => 1) (fun s : VToSignal α => flag s.first) (fun s => s.signal.src.got.length)
    (VToSignal.poll_count callback) h
  simp [sumBy_one, VToSignal.init, Inp.mk'] at this
  omega

/-- `sum` likewise. -/
theorem C93_sum (add : α → α → α) (zero : α) {script : List (Poll (Option (VecDiff α)))}
    {ws : List Waker} {outs : List (Poll (Option α))} {s : VToSignal α}
    (h : run (VSum.poll add zero) ws (VToSignal.init script) = some (outs, s)) :
    (items outs).length ≤ s.signal.src.got.length + 1 := by
  have := run_weight (fun _ => 1) (fun s : VToSignal α => flag s.first) (fun s => s.signal.src.got.length)
    (VSum.poll_count add zero) h
  simp [sumBy_one, VToSignal.init, Inp.mk'] at this
  omega

/-- `len` likewise. -/
theorem C93_len {script : List (Poll (Option (VecDiff α)))}
    {ws : List Waker} {outs : List (Poll (Option Nat))} {s : VLen α}
    (h : run VLen.poll ws (VLen.init script) = some (outs, s)) :
    (items outs).length ≤ s.signal.src.got.length + 1 := by
  have := run_weight (fun _ => 1) (fun s : VLen α => flag s.first) (fun s => s.signal.src.got.length)
    VLen.poll_count h
  simp [sumBy_one, VLen.init, Inp.mk'] at this
  omega

/-- `is_empty` likewise. -/
theorem C93_is_empty {script : List (Poll (Option (VecDiff α)))}
    {ws : List Waker} {outs : List (Poll (Option Bool))} {s : VIsEmpty α}
    (h : run VIsEmpty.poll ws (VIsEmpty.init script) = some (outs, s)) :
    (items outs).length ≤ s.len.signal.src.got.length + 1 := by
  have := run_weight (fun _ => 1) (fun s : VIsEmpty α => flag s.len.first)
    (fun s => s.len.signal.src.got.length) VIsEmpty.poll_count h
  simp [sumBy_one, VIsEmpty.init, VLen.init, Inp.mk'] at this
  omega

/-- `flatten` and `switch` of signals send at most the values of the inner signals they got. -/
theorem C93_signal_flatten (g : ι → List (Poll (Option β))) {script : List (Poll (Option ι))}
    {ws : List Waker} {outs : List (Poll (Option β))} {s : SFlatten ι β}
    (h : run (SFlatten.poll g) ws (SFlatten.init script) = some (outs, s)) :
    (items outs).length ≤ sumBy (fun t => (items (g t)).length) s.signal.src.got := by
  have := run_weight (fun _ => 1) SFlatten.owed
    (fun s : SFlatten ι β => sumBy (fun t => (items (g t)).length) s.signal.src.got) (SFlatten.poll_count g) h
  simp [sumBy_one, SFlatten.init, SFlatten.owed, Inp.mk'] at this
  omega

/-- `map_future` sends at most one value for each value, and one at the start. -/
theorem C93_map_future (g : α → List (Poll β)) {script : List (Poll (Option α))}
    {ws : List Waker} {outs : List (Poll (Option (Option β)))} {s : SMapFuture α β}
    (h : run (SMapFuture.poll g) ws (SMapFuture.init script) = some (outs, s)) :
    (items outs).length ≤ s.signal.src.got.length + 1 := by
  have := run_weight (fun _ => 1) (fun s : SMapFuture α β => flag s.first + some? s.future)
    (fun s => s.signal.src.got.length) (SMapFuture.poll_count g) h
  simp [sumBy_one, SMapFuture.init, some?, Inp.mk'] at this
  omega

/-- `throttle` sends a value for each value it takes. -/
theorem C93_throttle (g : Nat → List (Poll Unit)) {script : List (Poll (Option α))}
    {ws : List Waker} {outs : List (Poll (Option α))} {s : SThrottle α}
    (h : run (SThrottle.poll g) ws (SThrottle.init script) = some (outs, s)) :
    (items outs).length = s.signal.src.got.length := by
  have := run_count (fun s : SThrottle α => s.signal.src.got.length) (SThrottle.poll_count g) h
  simpa [SThrottle.init, Inp.mk', Src.got_mk'] using this

/-- `from_stream` sends at most one value for each item, and one at the start. -/
theorem C93_from_stream {script : List (Poll (Option α))}
    {ws : List Waker} {outs : List (Poll (Option (Option α)))} {s : SFromStream α}
    (h : run SFromStream.poll ws (SFromStream.init script) = some (outs, s)) :
    (items outs).length ≤ s.stream.src.got.length + 1 := by
  have := run_weight (fun _ => 1) (fun s : SFromStream α => flag s.first) (fun s => s.stream.src.got.length)
    SFromStream.poll_count h
  simp [sumBy_one, SFromStream.init, Inp.mk'] at this
  omega

/-- `map_ref!` and `map_mut!` send at most one value for each value of the inputs. -/
theorem C93_map_mut (f : List α → β × List α) {scripts : List (List (Poll (Option α)))}
    {ws : List Waker} {outs : List (Poll (Option β))} {ms : List (MapRef1 α)}
    (h : run (SMapMut.poll f) ws (SMapRef.init scripts) = some (outs, ms)) :
    (items outs).length ≤ sumBy (fun m => m.signal.src.got.length) ms := by
  have := run_weight (fun _ => 1) (fun _ : List (MapRef1 α) => 0) inputsGot
    (fun w s r s' h => by have := SMapMut.poll_count f w s r s' h; omega) h
  simp [sumBy_one, inputsGot] at this
  omega

theorem C93_map_ref (f : List α → β) {scripts : List (List (Poll (Option α)))}
    {ws : List Waker} {outs : List (Poll (Option β))} {ms : List (MapRef1 α)}
    (h : run (SMapRef.poll f) ws (SMapRef.init scripts) = some (outs, ms)) :
    (items outs).length ≤ sumBy (fun m => m.signal.src.got.length) ms :=
  C93_map_mut _ h

/-- `sample_stream_cloned` sends an item for each item of the stream. -/
theorem C93_sample_stream {signal : List (Poll (Option α))} {stream : List (Poll (Option β))}
    {ws : List Waker} {outs : List (Poll (Option (α × β)))} {s : SSample α β}
    (h : run SSample.poll ws (SSample.init signal stream) = some (outs, s)) :
    (items outs).length = s.stream.got.length := by
  have := run_count (fun s : SSample α β => s.stream.got.length) SSample.poll_count h
  simpa [SSample.init, Src.got_mk'] using this

/-! ## Not vacuous -/

/-- Changes of different kinds. -/
def volDemo : List (Poll (Option (VecDiff Nat))) :=
  [.ready (some (.replace [3, 1, 2])), .pending, .ready (some (.updateAt 0 0)), .ready (some (.push 5)),
    .ready (some (.removeAt 1)), .ready (some (.move 0 1)), .ready none]

example : ∃ outs s, run (VMap.poll fun k a => (a + k, k + 1)) (List.replicate 7 0) (VMap.init 0 volDemo) =
    some (outs, s) ∧ (items outs).map VecDiff.size = [4, 2, 2, 1, 1] := ⟨_, _, rfl, rfl⟩

example : ∃ outs s, run (VFilterMap.poll fun (_ : Unit) a => (if a < 3 then some a else none, ()))
    (List.replicate 7 0) (VFilterMap.init () volDemo) = some (outs, s) ∧
    vol (items outs) = 7 ∧ vol s.signal.got = 10 := ⟨_, _, rfl, rfl, rfl⟩

example : ∀ c l, (demoFns.sort c l).length = l.length := fun c l => (insSort_perm c l).length_eq

example : ((run (VSort.poll demoFns byDigit) (List.replicate 20 0) (VSort.init sortScript)).map
    fun q => (vol (items q.1), vol q.2.signal.got)) = some (20, 19) := by decide

/-- A change of the left list of `chain` costs more than itself when the right list is not empty. -/
example : ∃ outs s, run VChain.poll (List.replicate 12 0)
    (VChain.init [.pending, .ready (some (.replace [1, 2, 3, 4])), .ready (some .clear)] [.ready (some (.push 9))]) =
    some (outs, s) ∧ vol (items outs) = 14 ∧ vol s.left.src.got + vol s.right.src.got = 8 :=
  ⟨_, _, rfl, rfl, rfl⟩

example : ∃ outs s, run (VFlatten.poll fun n : Nat => [.ready (some (.replace [n, n])), .pending, .ready (some .clear)])
    (List.replicate 12 0) (VFlatten.init [.ready (some (.replace [1, 2])), .pending, .ready (some (.push 3))]) =
    some (outs, s) ∧ vol (items outs) = 15 ∧ s.signal.src.got.length = 2 := ⟨_, _, rfl, rfl, rfl⟩

example : ∃ outs s, run (VDelay.poll fun _ : Nat => [.pending, .ready ()]) (List.replicate 12 0)
    (VDelay.init [.ready (some (.replace [1, 2])), .pending, .ready (some .clear), .pending]) =
    some (outs, s) ∧ vol (items outs) = 5 ∧ vol s.signal.src.got = 4 := ⟨_, _, rfl, rfl, rfl⟩

example : ∃ outs s, run (VMapSignal.poll fun n : Nat => [.ready (some n), .pending, .ready (some (n + 10))])
    (List.replicate 12 0) (VMapSignal.init [.ready (some (.replace [1, 2])), .pending, .ready (some (.push 3))]) =
    some (outs, s) ∧ vol (items outs) = 11 ∧ s.signal.src.got.length = 2 := ⟨_, _, rfl, rfl, rfl⟩

example : ∃ outs s, run (VFilterSignal.poll fun n : Nat => [.ready (some (n == 1)), .pending, .ready (some (n == 2))])
    (List.replicate 12 0) (VFilterSignal.init [.ready (some (.replace [1, 2])), .pending, .ready (some (.push 2))]) =
    some (outs, s) ∧ vol (items outs) = 7 ∧ s.signal.src.got.length = 2 := ⟨_, _, rfl, rfl, rfl⟩

example : ∃ outs s, run (VSwitch.poll fun n : Nat => [.ready (some (.replace [n, n])), .pending, .ready (some (.push n))])
    (List.replicate 12 0) (VSwitch.init [.ready (some 1), .pending, .pending, .ready (some 2)]) =
    some (outs, s) ∧ vol (items outs) = 8 ∧ s.signal.src.got.length = 2 := ⟨_, _, rfl, rfl, rfl⟩

example : ∃ outs s, run (SFlatten.poll fun n : Nat => [.ready (some n), .pending, .ready (some (n + 10))])
    (List.replicate 12 0) (SFlatten.init [.ready (some 1), .pending, .pending, .ready (some 2)]) =
    some (outs, s) ∧ (items outs).length = 4 ∧ s.signal.src.got.length = 2 := ⟨_, _, rfl, rfl, rfl⟩

example : ∃ outs s, run VLen.poll (List.replicate 7 0) (VLen.init volDemo) = some (outs, s) ∧
    (items outs).length = 2 ∧ s.signal.src.got.length = 5 := ⟨_, _, rfl, rfl, rfl⟩

example : ∃ outs s, run (SThrottle.poll fun _ => [.pending, .ready ()]) (List.replicate 7 0)
    (SThrottle.init [.ready (some 1), .ready (some 2), .ready (some 3)]) = some (outs, s) ∧
    (items outs).length = 3 := ⟨_, _, rfl, rfl⟩

example : ∃ outs s, run (MWatch.poll (K := Nat) (V := Nat)) (List.replicate 7 0)
    (MWatch.init 4 [.pending, .ready (some (.insert 4 1)), .ready (some (.update 4 2)), .ready (some (.insert 5 2)), .ready none]) =
    some (outs, s) ∧ (items outs).length = 2 ∧ s.signal.got.length = 3 := ⟨_, _, rfl, rfl, rfl⟩

example : ∃ outs ms, run (SMapRef.poll fun l : List Nat => l.sum) (List.replicate 7 0)
    (SMapRef.init [[.ready (some 1), .pending, .ready (some 2)], [.ready (some 4), .ready (some 5), .pending]]) =
    some (outs, ms) ∧ (items outs).length = 3 := ⟨_, _, rfl, rfl⟩

end Verif
