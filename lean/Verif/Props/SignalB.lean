import Verif.SignalBProofs

/-!
# C49, C52, C54, C55, C56: `Signal` combinators with several inputs

All theorems are for every script of every input and every sequence of polls of the combinator.
`s.old ++ s.inner.toList` are all signals the callback made, in order: the dropped ones and the
current one, if any.  (`s.old` is a ghost.)
-/

namespace Verif

variable {α β ι : Type}

/-! ## C52: `flatten`, `switch` -/

/-- `flatten` and `switch`: one inner signal is made per value of the outer signal, in order (`g t`
is the script of the one made from `t`).  The answers are exactly the values of the inner signals,
all those of one signal coming before those of the next.  No signal is polled after its end.  The
end is reported only if the outer signal and the latest inner signal ended. -/
theorem C52_flatten (g : ι → List (Poll (Option β))) (script : List (Poll (Option ι)))
    (ws : List Waker) :
    ∃ outs s, run (SFlatten.poll g) ws (SFlatten.init script) = some (outs, s) ∧
      items outs = (s.old ++ s.inner.toList).flatMap (·.src.got) ∧
      (s.old ++ s.inner.toList).map (·.tag) = s.signal.src.got ∧
      (∀ x ∈ s.old ++ s.inner.toList, Plays (g x.tag) x.src ∧ x.src.fused) ∧
      s.signal.src.fused ∧
      (.ready none ∈ outs → s.signal.src.ended ∧
        ∀ x, (s.old ++ s.inner.toList).getLast? = some x → x.src.ended) := by
  obtain ⟨outs, s, h1, ⟨h2, h3⟩, h4, -⟩ := full_run (poll := SFlatten.poll g)
    (fun outs s => FlatLive g s ∧ s.vals = items outs)
    (fun _ r s => r = .ready none → s.signal.alive = false ∧ s.inner = none)
    (by
      rintro w outs s ⟨hl, hv⟩ -
      obtain ⟨r, s', k1, k2, k3, k4, -⟩ := SFlatten.step hl w
      exact ⟨r, s', k1, ⟨k2, by rw [k3, hv, items_append]⟩, k4⟩)
    ws (SFlatten.init script) ⟨⟨Inp.ok_mk' _, rfl, by simp [SFlatten.made, SFlatten.init],
      by simp [SFlatten.made, SFlatten.init], by simp [SFlatten.init], by simp [SFlatten.init]⟩, rfl⟩
  refine ⟨outs, s, h1, h3.symm, h2.tags, fun x hx => ⟨h2.plays x hx, h2.fused x hx⟩, h2.inp.fused,
    fun he => ?_⟩
  obtain ⟨w, h⟩ := h4 he
  obtain ⟨h5, h6⟩ := h rfl
  refine ⟨h2.inp.dead.2 h5, ?_⟩
  rw [h6]
  simpa using h2.gone h6

/-- Two inner signals for the examples: `1` is `10, 11` and then pending, `2` is `20` and ends. -/
def demoFlatInner : Nat → List (Poll (Option Nat))
  | 1 => [.ready (some 10), .ready (some 11)]
  | _ => [.ready (some 20), .ready none]

example : ((run (SFlatten.poll demoFlatInner) [0, 1, 2, 3, 4] (SFlatten.init [.ready (some 1), .pending,
    .ready (some 2), .ready none])).map fun p => (p.1, p.2.old.length)) =
    some ([.ready (some 10), .ready (some 11), .ready (some 20), .ready none], 2) := by rfl

/-- If all inner signals answer their first poll with a value, as `Signal` requires, then the last
value produced is always the latest value of the latest inner signal, `Pending` means that the outer
signal ended or is armed, and the current inner signal, if any, is armed. -/
theorem C52_flatten_current (g : ι → List (Poll (Option β))) (hg : Eager g)
    (script : List (Poll (Option ι))) (ws : List Waker) :
    ∃ outs s, run (SFlatten.poll g) ws (SFlatten.init script) = some (outs, s) ∧
      (items outs).getLast? =
        ((s.old ++ s.inner.toList).getLast?).bind (fun x => x.src.got.getLast?) ∧
      (∀ x ∈ s.old ++ s.inner.toList, x.src.got ≠ []) ∧
      (∀ w, ws.getLast? = some w → outs.getLast? = some .pending →
        (s.signal.src.ended ∨ s.signal.src.armed w) ∧ (∀ x, s.inner = some x → x.src.armed w) ∧
        ¬ (s.signal.src.ended ∧ s.inner = none)) := by
  obtain ⟨outs, s, h1, ⟨h2, h3, h3'⟩, -, h4⟩ := full_run (poll := SFlatten.poll g)
    (fun outs s => FlatLive g s ∧ s.vals = items outs ∧ ∀ x ∈ s.made, x.src.got ≠ [])
    (fun w r m' => r = .pending → Settled w m'.signal ∧ (∀ x, m'.inner = some x → x.src.armed w) ∧
        (m'.signal.alive = true ∨ m'.inner ≠ none))
    (by
      rintro w outs s ⟨hl, hv, hne⟩ -
      obtain ⟨r, s', k1, k2, k3, k4, k5, k6⟩ := SFlatten.step hl w
      exact ⟨r, s', k1, ⟨k2, by rw [k3, hv, items_append], k6 hg hne⟩, k5 hg⟩)
    ws (SFlatten.init script) ⟨⟨Inp.ok_mk' _, rfl, by simp [SFlatten.made, SFlatten.init],
      by simp [SFlatten.made, SFlatten.init], by simp [SFlatten.init], by simp [SFlatten.init]⟩, rfl,
      by simp [SFlatten.made, SFlatten.init]⟩
  refine ⟨outs, s, h1, ?_, h3', fun w hw hp => ?_⟩
  · rw [← h3, SFlatten.vals]
    have key : ∀ l : List (Made ι (Option β)), (∀ x ∈ l, x.src.got ≠ []) →
        (l.flatMap (·.src.got)).getLast? = l.getLast?.bind (fun x => x.src.got.getLast?) := by
      intro l hl
      rcases List.eq_nil_or_concat l with rfl | ⟨l, x, rfl⟩
      · rfl
      · have hx := hl x (by simp)
        rw [List.concat_eq_append, List.flatMap_append, List.getLast?_append]
        have : (List.flatMap (fun x : Made ι (Option β) => x.src.got) [x]) = x.src.got := by simp
        rw [this]
        cases hh : x.src.got.getLast? with
        | none => exact absurd (List.getLast?_eq_none_iff.1 hh) hx
        | some b => simp [hh]
    exact key _ h3'
  · obtain ⟨k1, k2, k3⟩ := h4 w _ hw hp (by simp) rfl
    refine ⟨?_, k2, ?_⟩
    · rcases k1 with k1 | k1
      · exact .inl (h2.inp.dead.2 k1)
      · exact .inr k1
    · rintro ⟨k4, k5⟩
      rcases k3 with k3 | k3
      · exact h2.inp.alive k3 k4
      · exact k3 k5

/-- The hypothesis is met by the example. -/
example : Eager demoFlatInner := by
  intro t
  unfold demoFlatInner
  split <;> exact ⟨_, _, rfl⟩

/-- The hypothesis is needed for the wake-up guarantee: if a new inner signal is pending at its
first poll, `flatten` answers `Pending` although the outer signal was not polled since it produced
that inner signal, so that a further change of the outer signal does not wake anybody. -/
theorem C57_flatten_needs_eager :
    ∃ (g : Unit → List (Poll (Option Nat))) (script : List (Poll (Option Unit))) (w : Waker) (s : _),
      run (SFlatten.poll g) [w] (SFlatten.init script) = some ([.pending], s) ∧
      ¬ s.signal.src.ended ∧ ¬ s.signal.src.armed w := by
  refine ⟨fun _ => [.pending, .ready (some 1)], [.ready (some ())], 0, _, rfl, ?_, ?_⟩
  · rintro ⟨w, h⟩
    simp [SFlatten.init, Inp.mk', Src.mk'] at h
  · simp [SFlatten.init, Inp.mk', Src.mk', Src.armed]

/-! ## C54: `map_future` -/

/-- `map_future`: one future is made per value of the input, in order.  The answers are `None` first,
unless the future is ready at the first poll, and then the outputs of the futures, in order: a
replaced future that was not ready yet contributes nothing, and is not polled any more; the last one
is kept until it is ready.  `Pending`
means that the input ended or is armed and that the current future, if any, is armed; the end means
that the input ended and no future is left. -/
theorem C54_map_future (g : α → List (Poll β)) (script : List (Poll (Option α))) (ws : List Waker) :
    ∃ outs s, run (SMapFuture.poll g) ws (SMapFuture.init script) = some (outs, s) ∧
      (∃ lead, (lead = [] ∨ lead = [none]) ∧ (outs.head? = some (.ready (some none)) ↔ lead = [none]) ∧
        items outs = lead ++ ((s.old ++ s.future.toList).filterMap (·.src.output)).map some) ∧
      (∀ r, outs.head? = some r → ∃ v, r = .ready (some v)) ∧
      (s.old ++ s.future.toList).map (·.tag) = s.signal.src.got ∧
      (∀ x ∈ s.old ++ s.future.toList, Plays (g x.tag) x.src ∧ x.src.fusedF) ∧
      (∀ x, s.future = some x → ¬ x.src.completed) ∧
      (s.future = none → ∀ x, s.old.getLast? = some x → ∃ b, x.src.output = some b) ∧
      s.signal.src.fused ∧
      (.ready none ∈ outs → s.signal.src.ended ∧ s.future = none) ∧
      (∀ w, ws.getLast? = some w → outs.getLast? = some .pending →
        (s.signal.src.ended ∨ s.signal.src.armed w) ∧ (∀ x, s.future = some x → x.src.armed w) ∧
        ¬ (s.signal.src.ended ∧ s.future = none)) := by
  obtain ⟨outs, s, h1, ⟨h2, h3, h4, h5⟩, h6, h7⟩ := full_run (poll := SMapFuture.poll g)
    (fun outs s => MapFutLive g s ∧ (s.first = true ↔ outs = []) ∧
      (∃ lead, (lead = [] ∨ lead = [none]) ∧ (outs.head? = some (.ready (some none)) ↔ lead = [none]) ∧
        items outs = lead ++ s.outputs.map some) ∧
      (∀ r, outs.head? = some r → ∃ v, r = .ready (some v)))
    (fun w r m' => match r with
      | .ready none => m'.signal.alive = false ∧ m'.future = none
      | .pending => Settled w m'.signal ∧ (∀ x, m'.future = some x → x.src.armed w) ∧
        (m'.signal.alive = true ∨ m'.future ≠ none)
      | _ => True)
    (by
      rintro w outs s ⟨hl, hfirst, ⟨lead, hlead, hhead, hitems⟩, hsome⟩ -
      obtain ⟨r, s', k1, k2, k3, k4⟩ := SMapFuture.step hl w
      have hlen : outs = [] → s.outputs = [] ∧ lead = [] := by
        rintro rfl
        rcases hlead with rfl | rfl
        · exact ⟨by simpa using hitems.symm, rfl⟩
        · simp at hhead
      refine ⟨r, s', k1, ⟨k2, by simp [k3], ?_, ?_⟩, ?_⟩
      · by_cases h0 : outs = []
        · obtain ⟨ho, hl0⟩ := hlen h0
          have hf := hfirst.2 h0
          subst h0
          obtain (_ | (_ | v)) | _ := r
          · simp [hf] at k4
          · exact ⟨[none], .inr rfl, by simp, by simp [k4.2, ho]⟩
          · exact ⟨[], .inl rfl, by simp, by simp [k4, ho]⟩
          · simp [hf] at k4
        · have hf : s.first = false := by simpa [h0] using hfirst
          have hh : (outs ++ [r]).head? = outs.head? := by
            cases outs with
            | nil => exact absurd rfl h0
            | cons a l => rfl
          refine ⟨lead, hlead, by rw [hh]; exact hhead, ?_⟩
          rw [items_append, hitems]
          obtain (_ | (_ | v)) | _ := r
          · simp [k4.2.1]
          · simp [hf] at k4
          · simp [k4]
          · simp [k4.2.1]
      · intro r' hr'
        by_cases h0 : outs = []
        · have hf := hfirst.2 h0
          subst h0
          simp only [List.nil_append, List.head?_cons, Option.some.injEq] at hr'
          subst hr'
          obtain (_ | v) | _ := r
          · simp [hf] at k4
          · exact ⟨_, rfl⟩
          · simp [hf] at k4
        · cases outs with
          | nil => exact absurd rfl h0
          | cons a l => exact hsome r' (by simpa using hr')
      · obtain (_ | (_ | v)) | _ := r
        · exact k4.2.2
        · trivial
        · trivial
        · exact k4.2.2)
    ws (SMapFuture.init script) ⟨⟨Inp.ok_mk' _, rfl, by simp [SMapFuture.made, SMapFuture.init],
      by simp [SMapFuture.made, SMapFuture.init], by simp [SMapFuture.init],
      by simp [SMapFuture.init]⟩,
      by simp [SMapFuture.init], ⟨[], .inl rfl, by simp, rfl⟩, by simp⟩
  refine ⟨outs, s, h1, h4, h5, h2.tags, fun x hx => ⟨h2.plays x hx, h2.fused x hx⟩,
    fun x hx => (h2.live x hx).1, h2.last, h2.inp.fused, fun he => ?_, fun w hw hp => ?_⟩
  · obtain ⟨w, k1, k2⟩ := h6 he
    exact ⟨h2.inp.dead.2 k1, k2⟩
  · obtain ⟨k1, k2, k3⟩ := h7 w _ hw hp (by simp)
    refine ⟨?_, k2, ?_⟩
    · rcases k1 with k1 | k1
      · exact .inl (h2.inp.dead.2 k1)
      · exact .inr k1
    · rintro ⟨k4, k5⟩
      rcases k3 with k3 | k3
      · exact h2.inp.alive k3 k4
      · exact k3 k5

/-- Futures for the examples: that of `1` is never ready, others are ready at the second poll. -/
def demoFuture : Nat → List (Poll Nat)
  | 1 => []
  | n => [.pending, .ready (n * 10)]

example : ((run (SMapFuture.poll demoFuture) [0, 1, 2, 3, 4] (SMapFuture.init [.ready (some 1),
    .pending, .ready (some 2), .pending, .ready none])).map fun p => (p.1, p.2.old.length)) =
    some ([.ready (some none), .pending, .ready (some (some 20)), .ready none], 2) := by rfl

/-! ## C55: `throttle` -/

/-- `throttle` produces exactly the values of its input, in order.  It makes one future per value,
after producing it, and does not look at the input again before that future is ready: whenever a
value is produced, the futures made for all earlier values have completed.  `Pending` means that
the current future is armed, or that there is none and the input is armed.  Nothing is polled after
its end. -/
theorem C55_throttle (g : Nat → List (Poll Unit)) (script : List (Poll (Option α)))
    (ws : List Waker) :
    ∃ outs s, run (SThrottle.poll g) ws (SThrottle.init script) = some (outs, s) ∧
      items outs = s.signal.src.got ∧
      (s.old ++ s.future.toList).map (·.tag) = List.range (items outs).length ∧
      (∀ x ∈ s.old ++ s.future.toList, Plays (g x.tag) x.src ∧ x.src.fusedF) ∧
      (∀ x ∈ s.old, x.src.completed) ∧
      (∀ x, s.future = some x → ¬ x.src.completed) ∧
      s.signal.src.fused ∧
      (.ready none ∈ outs → s.signal.src.ended ∧ s.future = none) ∧
      (∀ w, ws.getLast? = some w → outs.getLast? = some .pending →
        (∃ x, s.future = some x ∧ x.src.armed w) ∨ (s.future = none ∧ s.signal.src.armed w)) := by
  obtain ⟨outs, s, h1, ⟨h2, h3⟩, h4, h5⟩ := full_run (poll := SThrottle.poll g)
    (fun outs s => ThrottleLive g s ∧ items outs = s.signal.src.got)
    (fun w r m' => (r = .ready none → m'.signal.alive = false ∧ m'.future = none) ∧
      (r = .pending → (∃ x, m'.future = some x ∧ x.src.armed w) ∨
        (m'.future = none ∧ m'.signal.src.armed w)))
    (by
      rintro w outs s ⟨hl, hv⟩ -
      obtain ⟨r, s', k1, k2, k3, k4, k5⟩ := SThrottle.step hl w
      exact ⟨r, s', k1, ⟨k2, by rw [items_append, hv, k3]⟩, k4, k5⟩)
    ws (SThrottle.init script) ⟨⟨Inp.ok_mk' _, rfl, rfl, by simp [SThrottle.made, SThrottle.init],
      by simp [SThrottle.made, SThrottle.init], by simp [SThrottle.init], by simp [SThrottle.init]⟩,
      rfl⟩
  refine ⟨outs, s, h1, h3, ?_, fun x hx => ⟨h2.plays x hx, h2.fused x hx⟩, h2.gone,
    fun x hx => (h2.live x hx).1, h2.inp.fused, fun he => ?_, fun w hw hp => ?_⟩
  · rw [h3, ← h2.calls]; exact h2.tags
  · obtain ⟨w, k1, -⟩ := h4 he
    exact ⟨h2.inp.dead.2 (k1 rfl).1, (k1 rfl).2⟩
  · exact (h5 w _ hw hp (by simp)).2 rfl

example : ((run (SThrottle.poll fun _ => [.pending, .pending, .ready ()]) [0, 1, 2, 3, 4]
    (SThrottle.init [.ready (some 1), .ready (some 2), .ready none])).map fun p => (p.1, p.2.old.length)) =
    some ([.ready (some 1), .pending, .ready (some 2), .pending, .ready none], 2) := by rfl

end Verif
