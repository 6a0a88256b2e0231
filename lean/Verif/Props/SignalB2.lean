import Verif.MapRefProofs

/-!
# C49, C56: `map_ref!`, `map_mut!`, `and`, `or`, `sample_stream_cloned`
-/

namespace Verif

variable {α β : Type}

/-! ## C49 -/

theorem mapMutLive_init {scripts : List (List (Poll (Option α)))}
    (hg : ∀ script ∈ scripts, ∃ a rest, script = .ready (some a) :: rest) :
    MapMutLive scripts (SMapRef.init scripts) := by
  refine ⟨?_, ?_, ?_⟩
  · simp only [SMapRef.init, List.mem_map, forall_exists_index, and_imp, forall_apply_eq_imp_iff₂]
    exact fun _ _ => Inp.ok_mk' _
  · simp only [SMapRef.init, List.mem_map, forall_exists_index, and_imp, forall_apply_eq_imp_iff₂]
    exact fun script hs => .inr ⟨rfl, hg script hs⟩
  · clear hg
    induction scripts with
    | nil => exact .nil
    | cons s ss ih => exact .cons (plays_mk' _) ih

/-- One poll of `map_mut!` in any state the consumer can get to (the inputs answer their first poll
with a value, as `Signal` requires, and the body leaves as many values as it gets).  It does not
panic.  It produces a value iff an input did so during the poll, and that value is the result of the
body, which is shown for each input the value it just produced or else what the body left of the
previous one.  Otherwise the values stay as they are, and it ends if all inputs ended, and if not
then every input that has not ended is armed.  No input is polled after its end. -/
theorem C49_map_mut (f : List α → β × List α) (hf : ∀ vs, (f vs).2.length = vs.length)
    (scripts : List (List (Poll (Option α))))
    (hg : ∀ script ∈ scripts, ∃ a rest, script = .ready (some a) :: rest)
    {outs : List (Poll (Option β))} {s : List (MapRef1 α)}
    (h : Reach (SMapMut.poll f) (SMapRef.init scripts) outs s) (w : Waker) :
    ∃ r s', SMapMut.poll f w s = some (r, s') ∧
      List.Forall₂ (fun script m => Plays script m.signal.src ∧ m.signal.src.fused) scripts s' ∧
      Grows s s' ∧
      match r with
      | .ready (some b) => (∃ vs, List.zipWith shown s s' = vs.map some ∧ b = (f vs).1 ∧
          s'.map (·.value) = (f vs).2.map some) ∧
          s'.map (·.signal.src.got) ≠ s.map (·.signal.src.got)
      | .ready none => s'.map (·.signal.src.got) = s.map (·.signal.src.got) ∧
          s'.map (·.value) = s.map (·.value) ∧ ∀ m ∈ s', m.signal.src.ended
      | .pending => s'.map (·.signal.src.got) = s.map (·.signal.src.got) ∧
          s'.map (·.value) = s.map (·.value) ∧
          (∀ m ∈ s', m.signal.src.ended ∨ m.signal.src.armed w) ∧ ∃ m ∈ s', ¬ m.signal.src.ended := by
  have hl : MapMutLive scripts s := reach_inv (Inv := fun _ s => MapMutLive scripts s)
    (fun w outs s hl => by
      obtain ⟨r, s', h1, h2, -⟩ := SMapMut.step hf hl w
      exact ⟨r, s', h1, h2⟩) (mapMutLive_init hg) h
  obtain ⟨r, s', h1, h2, h3⟩ := SMapMut.step hf hl w
  exact ⟨r, s', h1, forall₂_and_mem h2.plays fun m hm => (h2.inp m hm).fused, h3⟩

/-- `map_ref!` over whole runs, for any number of inputs: no panic; as soon as it was polled, the
last value it produced is `f` of the latest values of all inputs; every poll polls each input that
has not ended; `Pending` means that every input ended or is armed, and that one has not ended; the
end means that all inputs ended; no input is polled after its end. -/
theorem C49_map_ref (f : List α → β) (scripts : List (List (Poll (Option α)))) (hne : scripts ≠ [])
    (hg : ∀ script ∈ scripts, ∃ a rest, script = .ready (some a) :: rest) (ws : List Waker) :
    ∃ outs s, run (SMapRef.poll f) ws (SMapRef.init scripts) = some (outs, s) ∧
      List.Forall₂ (fun script m => Plays script m.signal.src ∧ m.signal.src.fused) scripts s ∧
      (ws ≠ [] → ∃ vs, s.map (·.signal.src.got.getLast?) = vs.map some ∧
        (items outs).getLast? = some (f vs)) ∧
      (.ready none ∈ outs → ∀ m ∈ s, m.signal.src.ended) ∧
      (∀ w, ws.getLast? = some w → outs.getLast? = some .pending →
        (∀ m ∈ s, m.signal.src.ended ∨ m.signal.src.armed w) ∧ ∃ m ∈ s, ¬ m.signal.src.ended) := by
  obtain ⟨outs, s, h1, ⟨h2, h3, h4, h5⟩, h6, h7⟩ := full_run (poll := SMapRef.poll f)
    (fun outs s => MapMutLive scripts s ∧ (∀ m ∈ s, m.value = m.signal.src.got.getLast?) ∧
      (outs ≠ [] → ∃ vs, s.map (·.value) = vs.map some ∧ (items outs).getLast? = some (f vs)) ∧
      (outs = [] → s = SMapRef.init scripts))
    (fun w r s => match r with
      | .ready none => ∀ m ∈ s, m.signal.src.ended
      | .pending => (∀ m ∈ s, m.signal.src.ended ∨ m.signal.src.armed w) ∧
          ∃ m ∈ s, ¬ m.signal.src.ended
      | _ => True)
    (by
      rintro w outs s ⟨hl, hv, hlast, hinit⟩ -
      obtain ⟨r, s', k1, k2, k3⟩ := SMapMut.step (f := fun vs => (f vs, vs)) (fun _ => rfl) hl w
      obtain ⟨e0, hsome⟩ := SMapRef.poll_state hl.primed k1
      have hv' : ∀ m ∈ s', m.value = m.signal.src.got.getLast? := by
        rw [e0]
        simp only [List.mem_map, forall_exists_index, and_imp, forall_apply_eq_imp_iff₂]
        exact fun m hm => MapRef1.poll_latest w (hl.inp m hm) (hv m hm)
      -- the first poll produces a value
      have first : s'.map (·.value) = s.map (·.value) → outs ≠ [] := by
        intro e2 ho
        have hs := hinit ho
        have h0 : ∀ m ∈ s, m.value = none := by
          rw [hs]
          simp [SMapRef.init]
        cases hs' : s' with
        | nil =>
          rw [hs', hs] at e2
          simp [SMapRef.init] at e2
          exact hne e2
        | cons m ms =>
          have : m.value ∈ s.map (·.value) := by rw [← e2, hs']; simp
          obtain ⟨x, hx, hxe⟩ := List.mem_map.1 this
          rw [h0 x hx] at hxe
          exact hsome m (by simp [hs']) hxe.symm
      obtain (_ | b) | _ := r
      · obtain ⟨-, e1, e2, e3⟩ := k3
        obtain ⟨vs, g3, g4⟩ := hlast (first e2)
        exact ⟨_, _, k1, ⟨k2, hv', fun _ => ⟨vs, by rw [e2, g3], by simpa [items_append] using g4⟩,
          by simp⟩, e3⟩
      · obtain ⟨-, ⟨vs, e1, e2, e3⟩, -⟩ := k3
        exact ⟨_, _, k1, ⟨k2, hv', fun _ => ⟨vs, e3, by simp [e2, items_append]⟩, by simp⟩, trivial⟩
      · obtain ⟨-, e1, e2, e3⟩ := k3
        obtain ⟨vs, g3, g4⟩ := hlast (first e2)
        exact ⟨_, _, k1, ⟨k2, hv', fun _ => ⟨vs, by rw [e2, g3], by simpa [items_append] using g4⟩,
          by simp⟩, e3⟩)
    ws (SMapRef.init scripts) ⟨mapMutLive_init hg, by simp [SMapRef.init, Inp.mk', Src.mk', Src.got],
      by simp, by simp⟩
  refine ⟨outs, s, h1, forall₂_and_mem h2.plays fun m hm => (h2.inp m hm).fused, fun hws => ?_,
    fun he => (h6 he).elim fun _ k => k, fun w hw hp => h7 w _ hw hp (by simp)⟩
  obtain ⟨vs, k1, k2⟩ := h4 (run_ne_nil h1 hws)
  exact ⟨vs, by rw [← k1]; exact (List.map_inj_left.2 h3).symm, k2⟩

example : ((run (SMapRef.poll List.sum) [0, 1, 2, 3, 4] (SMapRef.init [[.ready (some 1), .pending,
    .ready (some 2), .ready none], [.ready (some 10), .ready (some 20), .ready none]])).map (·.1)) =
    some [.ready (some 11), .ready (some 21), .ready (some 22), .ready none] := by rfl

example : ((run (SMapMut.poll fun vs => (vs.sum, vs.map (· + 100))) [0, 1, 2]
    (SMapRef.init [[.ready (some 1), .pending, .ready none], [.ready (some 10), .ready (some 20)]])).map
    (·.1)) = some [.ready (some 11), .ready (some 121), .pending] := by rfl

/-- If an input does not answer its first poll with a value, `map_ref!` can panic. -/
theorem C49_map_ref_panics : ∃ (scripts : List (List (Poll (Option Nat)))) (ws : List Waker),
    run (SMapRef.poll List.sum) ws (SMapRef.init scripts) = none :=
  ⟨[[.ready (some 1)], [.pending]], [0], rfl⟩

/-- `and`: the last value produced is the conjunction of the latest values of both inputs. -/
theorem C49_and (a b : Bool) (l r : List (Poll (Option Bool))) (ws : List Waker) (hws : ws ≠ []) :
    ∃ outs x y, run SAnd.poll ws (SMapRef.init [.ready (some a) :: l, .ready (some b) :: r]) =
        some (outs, [x, y]) ∧ Plays (.ready (some a) :: l) x.signal.src ∧
      Plays (.ready (some b) :: r) y.signal.src ∧
      ∃ u v, x.signal.src.got.getLast? = some u ∧ y.signal.src.got.getLast? = some v ∧
        (items outs).getLast? = some (u && v) := by
  obtain ⟨outs, s, h1, h2, h3, -⟩ := C49_map_ref (fun vs : List Bool => match vs with
    | [a, b] => a && b
    | _ => false) [.ready (some a) :: l, .ready (some b) :: r] (by simp) (by simp) ws
  obtain ⟨vs, h4, h5⟩ := h3 hws
  cases h2 with
  | cons h6 h2 =>
    cases h2 with
    | cons h7 h2 =>
      cases h2
      rename_i x y
      match vs, h4, h5 with
      | [u, v], h4, h5 =>
        simp only [List.map_cons, List.map_nil, List.cons.injEq, and_true] at h4
        exact ⟨outs, x, y, h1, h6.1, h7.1, u, v, h4.1, h4.2, h5⟩
      | [], h4, _ => simp at h4
      | [_], h4, _ => simp at h4
      | _ :: _ :: _ :: _, h4, _ => simp at h4

/-- `or`: the last value produced is the disjunction of the latest values of both inputs. -/
theorem C49_or (a b : Bool) (l r : List (Poll (Option Bool))) (ws : List Waker) (hws : ws ≠ []) :
    ∃ outs x y, run SOr.poll ws (SMapRef.init [.ready (some a) :: l, .ready (some b) :: r]) =
        some (outs, [x, y]) ∧ Plays (.ready (some a) :: l) x.signal.src ∧
      Plays (.ready (some b) :: r) y.signal.src ∧
      ∃ u v, x.signal.src.got.getLast? = some u ∧ y.signal.src.got.getLast? = some v ∧
        (items outs).getLast? = some (u || v) := by
  obtain ⟨outs, s, h1, h2, h3, -⟩ := C49_map_ref (fun vs : List Bool => match vs with
    | [a, b] => a || b
    | _ => false) [.ready (some a) :: l, .ready (some b) :: r] (by simp) (by simp) ws
  obtain ⟨vs, h4, h5⟩ := h3 hws
  cases h2 with
  | cons h6 h2 =>
    cases h2 with
    | cons h7 h2 =>
      cases h2
      rename_i x y
      match vs, h4, h5 with
      | [u, v], h4, h5 =>
        simp only [List.map_cons, List.map_nil, List.cons.injEq, and_true] at h4
        exact ⟨outs, x, y, h1, h6.1, h7.1, u, v, h4.1, h4.2, h5⟩
      | [], h4, _ => simp at h4
      | [_], h4, _ => simp at h4
      | _ :: _ :: _ :: _, h4, _ => simp at h4

example : ((run SAnd.poll [0, 1] (SMapRef.init [[.ready (some true)], [.ready (some false),
    .ready (some true)]])).map (·.1)) = some [.ready (some false), .ready (some true)] := by rfl

example : ((run SOr.poll [0, 1] (SMapRef.init [[.ready (some false)], [.ready (some true),
    .ready (some false)]])).map (·.1)) = some [.ready (some true), .ready (some false)] := by rfl

/-! ## C56: `sample_stream_cloned` -/

/-- `sample_stream_cloned` of a signal that has a value at once: it answers exactly like the stream,
each item being paired with the latest value of the signal at that moment, i.e. the signal has just
been polled until it was pending or ended.  `Pending` means that the stream is armed; it ends with
the stream; nothing is polled after its end. -/
theorem C56_sample_stream (a0 : α) (rest : List (Poll (Option α))) (stream : List (Poll (Option β)))
    (ws : List Waker) :
    ∃ outs s, run SSample.poll ws (SSample.init (.ready (some a0) :: rest) stream) = some (outs, s) ∧
      outs.map (Poll.mapItem Prod.snd) = s.stream.hist.map (·.2) ∧
      s.stream.fused ∧ s.signal.src.fused ∧
      (∀ w a b, ws.getLast? = some w → outs.getLast? = some (.ready (some (a, b))) →
        s.signal.src.got.getLast? = some a ∧ (s.signal.src.ended ∨ s.signal.src.armed w)) ∧
      (.ready none ∈ outs → s.stream.ended) ∧
      (∀ w, ws.getLast? = some w → outs.getLast? = some .pending → s.stream.armed w) := by
  obtain ⟨outs, s, h1, ⟨h2, h3, h4, -, -, h5, -⟩, h6, h7⟩ := full_run (poll := SSample.poll)
    (fun outs s => outs.map (Poll.mapItem Prod.snd) = s.stream.hist.map (·.2) ∧ s.stream.fused ∧
      s.signal.Ok ∧ s.value = s.signal.src.got.getLast? ∧ SampleReady s.signal ∧
      (.ready none ∈ outs ↔ s.stream.ended) ∧ True)
    (fun w r s => match r with
      | .ready none => s.stream.ended
      | .pending => s.stream.armed w
      | .ready (some (a, _)) => s.signal.src.got.getLast? = some a ∧ Settled w s.signal)
    (by
      rintro w outs s ⟨k1, k2, k3, k4, k5, k6, -⟩ hn
      have hne : ¬ s.stream.ended := fun h => hn (k6.2 h)
      have hh := Src.poll_hist w s.stream
      obtain ⟨r, src', g1, g2, -, -, g5⟩ := Src.poll_rule w s.stream hne
      unfold SSample.poll
      rw [g1] at hh ⊢
      simp only at hh
      obtain (_ | b) | _ := r
      · exact ⟨_, _, rfl, ⟨by simp [k1, hh, Poll.mapItem], g2, k3, k4, k5, by simpa using g5, trivial⟩,
          g5⟩
      · obtain ⟨st, a, i', l1, l2, l3, l4⟩ := sample_loop_ready (w := w) k3 k5
        simp only [k4, l1]
        refine ⟨_, _, rfl, ⟨by simp [k1, hh, Poll.mapItem], g2, l2, l4.symm, .inl ?_, ?_, trivial⟩, l4, l3⟩
        · intro h; simp [h] at l4
        · simpa [hn] using g5
      · exact ⟨_, _, rfl, ⟨by simp [k1, hh, Poll.mapItem], g2, k3, k4, k5,
          by simpa [hn] using g5.1, trivial⟩, g5.2⟩)
    ws (SSample.init (.ready (some a0) :: rest) stream)
    ⟨rfl, fused_of_not_ended (not_ended_mk' _), Inp.ok_mk' _, rfl, .inr ⟨rfl, _, _, rfl⟩,
      by simpa [SSample.init] using not_ended_mk' _, trivial⟩
  refine ⟨outs, s, h1, h2, h3, h4.fused, fun w a b hw ho => ?_, fun he => (h6 he).elim fun _ k => k,
    fun w hw ho => h7 w _ hw ho (by simp)⟩
  obtain ⟨k1, k2⟩ := h7 w _ hw ho (by simp)
  exact ⟨k1, k2.imp h4.dead.2 id⟩

example : ((run SSample.poll [0, 1, 2, 3] (SSample.init [.ready (some 1), .pending, .ready (some 2),
    .ready (some 3)] [.ready (some 10), .pending, .ready (some 11), .ready none])).map (·.1)) =
    some [.ready (some (1, 10)), .pending, .ready (some (3, 11)), .ready none] := by rfl

/-- If the signal has no value yet when the stream produces an item, `sample_stream_cloned` panics. -/
theorem C56_sample_stream_panics : ∃ (signal : List (Poll (Option Nat)))
    (stream : List (Poll (Option Nat))) (ws : List Waker),
    run SSample.poll ws (SSample.init signal stream) = none :=
  ⟨[.pending], [.ready (some 1)], [0], rfl⟩

end Verif
