import Verif.SignalAProofs
import Verif.Props.Polite1

/-!
# C48, C50, C51, C53, and parts of C54 and C56: `Signal` combinators with one input

All theorems are for every script of the input and every sequence of polls of the combinator.
`s.signal.hist` are the polls the input received, with its answers; `s.signal.got` the values among
them.
-/

namespace Verif

variable {α β ε κ : Type}

/-! ## C48: `map`, `inspect`, `not` -/

/-- `map` polls its input exactly once per poll, with the waker it was given, answers with the
image of that answer, and calls the callback once for each value, in order. -/
theorem C48_map (f : α → β) (script : List (Poll (Option α))) (ws : List Waker) :
    ∃ outs s, run (SMap.poll (logging f)) ws (SMap.init [] script) = some (outs, s) ∧
      outs = s.signal.hist.map (fun p => p.2.mapItem f) ∧
      s.signal.hist.map (·.1) = ws.take outs.length ∧
      s.st = s.signal.got := by
  obtain ⟨outs, s, h, h1, h2, h3, h4, h5, -⟩ := trace_run (poll := SMap.poll (logging f))
    (·.signal) (·.st) (Poll.mapItem f) (fun _ => True)
    (by
      intro w s _
      obtain ⟨r, src', e⟩ : ∃ r s', s.signal.poll w = (r, s') := ⟨_, _, rfl⟩
      simp only [SMap.poll, e]
      obtain (_ | a) | _ := r
      · exact ⟨_, rfl, rfl, by simp, trivial⟩
      · exact ⟨_, rfl, rfl, rfl, trivial⟩
      · exact ⟨_, rfl, rfl, by simp, trivial⟩)
    ws (SMap.init [] script) trivial
  refine ⟨outs, s, h1, ?_⟩
  have h2' : s.signal.hist = h := by simpa [SMap.init, Src.mk'] using h2
  rw [Src.got, h2']
  exact ⟨h3, h4, by simpa [SMap.init] using h5⟩

example : run (SMap.poll (logging (· * 2))) [0, 1, 2] (SMap.init [] [.ready (some 1), .pending,
    .ready none]) = some ([.ready (some 2), .pending, .ready none],
      ⟨⟨[], [(0, .ready (some 1)), (1, .pending), (2, .ready none)]⟩, [1]⟩) := by rfl

/-- `inspect` passes on every answer unchanged, and shows each value to the callback exactly
once, in order. -/
theorem C48_inspect (script : List (Poll (Option α))) (ws : List Waker) :
    ∃ outs s, run (SInspect.poll observing) ws (SMap.init [] script) = some (outs, s) ∧
      outs = s.signal.hist.map (·.2) ∧
      s.signal.hist.map (·.1) = ws.take outs.length ∧
      s.st = s.signal.got := by
  obtain ⟨outs, s, h, h1, h2, h3, h4, h5, -⟩ := trace_run (poll := SInspect.poll (observing (α := α)))
    (·.signal) (·.st) id (fun _ => True)
    (by
      intro w s _
      obtain ⟨r, src', e⟩ : ∃ r s', s.signal.poll w = (r, s') := ⟨_, _, rfl⟩
      simp only [SInspect.poll, e]
      obtain (_ | a) | _ := r
      · exact ⟨_, rfl, rfl, by simp, trivial⟩
      · exact ⟨_, rfl, rfl, rfl, trivial⟩
      · exact ⟨_, rfl, rfl, by simp, trivial⟩)
    ws (SMap.init [] script) trivial
  refine ⟨outs, s, h1, ?_⟩
  have h2' : s.signal.hist = h := by simpa [SMap.init, Src.mk'] using h2
  rw [Src.got, h2']
  exact ⟨h3, h4, by simpa [SMap.init] using h5⟩

example : run (SInspect.poll observing) [0, 1, 2] (SMap.init [] [.ready (some 1), .pending,
    .ready (some 3)]) = some ([.ready (some 1), .pending, .ready (some 3)],
      ⟨⟨[], [(0, .ready (some 1)), (1, .pending), (2, .ready (some 3))]⟩, [1, 3]⟩) := by rfl

/-- `not` answers with the negation of each value, one poll of its input per poll. -/
theorem C48_not (script : List (Poll (Option Bool))) (ws : List Waker) :
    ∃ outs s, run SNot.poll ws (SMap.init () script) = some (outs, s) ∧
      outs = s.signal.hist.map (fun p => p.2.mapItem (fun b => !b)) ∧
      s.signal.hist.map (·.1) = ws.take outs.length := by
  obtain ⟨outs, s, h, h1, h2, h3, h4, -, -⟩ := trace_run (poll := SNot.poll)
    (·.signal) (fun s => s.signal.got) (Poll.mapItem (fun b => !b)) (fun _ => True)
    (by
      intro w s _
      have hh := Src.poll_hist w s.signal
      obtain ⟨r, src', e⟩ : ∃ r s', s.signal.poll w = (r, s') := ⟨_, _, rfl⟩
      rw [e] at hh
      have hg : src'.got = s.signal.got ++ items [r] := by
        simp only at hh
        simp only [Src.got, hh, List.map_append, items_append]; rfl
      simp only [SNot.poll, SMap.poll, e]
      obtain (_ | a) | _ := r
      · exact ⟨_, rfl, rfl, hg, trivial⟩
      · exact ⟨_, rfl, rfl, hg, trivial⟩
      · exact ⟨_, rfl, rfl, hg, trivial⟩)
    ws (SMap.init () script) trivial
  refine ⟨outs, s, h1, ?_⟩
  have h2' : s.signal.hist = h := by simpa [SMap.init, Src.mk'] using h2
  rw [h2']
  exact ⟨h3, h4⟩

example : ((run SNot.poll [0, 1] (SMap.init () [.ready (some true), .ready (some false)])).map
    (·.1)) = some [.ready (some false), .ready (some true)] := by rfl

/-- `Signal::map` (C57, C58, C59), for any callback. -/
theorem C57_signal_map (f : κ → α → β × κ) (k : κ) (script : List (Poll (Option α))) :
    Polite (SMap.poll f) (·.signal) (SMap.init k script) := by
  refine polite_of_step (fun s => ¬ s.signal.ended) (fun s h => fused_of_not_ended h) ?_ _
    (not_ended_mk' _)
  intro w s r s' hl hp
  obtain ⟨q, src', h1, h2, h3, h4⟩ := Src.poll_any w s.signal hl
  simp only [SMap.poll, h1] at hp
  obtain (_ | a) | _ := q
  · cases hp; exact ⟨h2, h3.2 rfl⟩
  · cases hp; simpa using h3
  · cases hp; exact ⟨by simpa using h3, h4 rfl⟩

/-- `inspect` (C57, C58, C59), for any callback. -/
theorem C57_inspect (f : κ → α → κ) (k : κ) (script : List (Poll (Option α))) :
    Polite (SInspect.poll f) (·.signal) (SMap.init k script) := by
  refine polite_of_step (fun s => ¬ s.signal.ended) (fun s h => fused_of_not_ended h) ?_ _
    (not_ended_mk' _)
  intro w s r s' hl hp
  obtain ⟨q, src', h1, h2, h3, h4⟩ := Src.poll_any w s.signal hl
  simp only [SInspect.poll, h1] at hp
  obtain (_ | a) | _ := q
  · cases hp; exact ⟨h2, h3.2 rfl⟩
  · cases hp; simpa using h3
  · cases hp; exact ⟨by simpa using h3, h4 rfl⟩

/-! ## C50: `eq`, `neq`, `dedupe`, `dedupe_cloned`, `dedupe_map` -/

/-- `eq`: the answers are the comparisons with `value`, without repetitions. -/
theorem C50_eq [BEq α] (value : α) (script : List (Poll (Option α))) (ws : List Waker) :
    ∃ outs s, run SEq.poll ws (SEq.init value script) = some (outs, s) ∧
      items outs = dedup (s.signal.got.map (· == value)) := by
  obtain ⟨outs, s, h1, -, -, h4, -⟩ := run_rule (poll := SEq.poll)
    (fun outs s => s.value = value ∧ (.ready none ∉ outs → ¬ s.signal.ended) ∧
      items outs = dedup (s.signal.got.map (· == value)) ∧
      s.matched = (dedup (s.signal.got.map (· == value))).getLast?)
    (by
      rintro w outs s ⟨rfl, hne, hi, hm⟩ hno
      obtain ⟨st, m', src', e, -, hst⟩ := Src.loop_rule (w := w) (body := eqBody s.value)
        (fun m g _ => dedup (g.map (· == s.value)) = items outs ∧ m = (items outs).getLast?)
        (fun b m g _ => dedup (g.map (· == s.value)) = items outs ++ [b] ∧ m = some b)
        (by
          rintro m g a t ⟨hg, rfl⟩
          have hk := distinctFrom_snoc id none (g.map (· == s.value)) (a == s.value)
          rw [show distinctFrom id none (g.map (· == s.value)) = items outs from hg] at hk
          have e2 : dedup ((g ++ [a]).map (· == s.value)) =
              distinctFrom id none (g.map (· == s.value) ++ [a == s.value]) := by
            rw [List.map_append]; rfl
          have hk' := e2.trans hk
          simp only [eqBody]
          cases hl : (items outs).getLast? with
          | none => simp only [hl] at hk' ⊢; simpa using hk'
          | some b =>
            simp only [hl] at hk' ⊢
            by_cases hb : b = (a == s.value)
            · simp [hb] at hk' ⊢; exact hk'
            · simp [hb] at hk' ⊢; exact hk')
        s.signal s.matched (hne hno) ⟨hi.symm, hm.trans (by rw [hi])⟩
      simp only [SEq.poll, e]
      cases st with
      | panic => exact hst.elim
      | ret b =>
        obtain ⟨⟨g1, g2⟩, g3⟩ := hst
        refine ⟨_, _, rfl, rfl, fun _ => g3, ?_, ?_⟩
        · rw [items_append]; exact g1.symm
        · show m' = _
          rw [g1, g2]; simp
      | ended =>
        obtain ⟨⟨g1, g2⟩, g3⟩ := hst
        exact ⟨_, _, rfl, rfl, by simp, by simpa [items_append] using g1.symm, by rw [g2, ← g1]⟩
      | pending =>
        obtain ⟨⟨g1, g2⟩, g3, -⟩ := hst
        exact ⟨_, _, rfl, rfl, fun _ => g3, by simpa [items_append] using g1.symm, by rw [g2, ← g1]⟩)
    ws [] (SEq.init value script) ⟨rfl, fun _ => not_ended_mk' _, rfl, rfl⟩ (by simp)
  exact ⟨outs, s, h1, by simpa using h4⟩

example : ((run SEq.poll [0, 1, 2] (SEq.init 5 [.ready (some 5), .ready (some 5), .ready (some 4),
    .ready (some 3), .ready none])).map (·.1)) =
    some [.ready (some true), .ready (some false), .ready none] := by rfl

/-- `neq`: the negated comparisons, without repetitions. -/
theorem C50_neq [BEq α] (value : α) (script : List (Poll (Option α))) (ws : List Waker) :
    ∃ outs s, run SNeq.poll ws (SEq.init value script) = some (outs, s) ∧
      items outs = dedup (s.signal.got.map (fun x => !(x == value))) := by
  obtain ⟨outs, s, h1, -, -, h4, -⟩ := run_rule (poll := SNeq.poll)
    (fun outs s => s.value = value ∧ (.ready none ∉ outs → ¬ s.signal.ended) ∧
      items outs = dedup (s.signal.got.map (· != value)) ∧
      s.matched = (dedup (s.signal.got.map (· != value))).getLast?)
    (by
      rintro w outs s ⟨rfl, hne, hi, hm⟩ hno
      obtain ⟨st, m', src', e, -, hst⟩ := Src.loop_rule (w := w) (body := neqBody s.value)
        (fun m g _ => dedup (g.map (· != s.value)) = items outs ∧ m = (items outs).getLast?)
        (fun b m g _ => dedup (g.map (· != s.value)) = items outs ++ [b] ∧ m = some b)
        (by
          rintro m g a t ⟨hg, rfl⟩
          have hk := distinctFrom_snoc id none (g.map (· != s.value)) (a != s.value)
          rw [show distinctFrom id none (g.map (· != s.value)) = items outs from hg] at hk
          have e2 : dedup ((g ++ [a]).map (· != s.value)) =
              distinctFrom id none (g.map (· != s.value) ++ [a != s.value]) := by
            rw [List.map_append]; rfl
          have hk' := e2.trans hk
          simp only [neqBody]
          cases hl : (items outs).getLast? with
          | none => simp only [hl] at hk' ⊢; simpa using hk'
          | some b =>
            simp only [hl] at hk' ⊢
            by_cases hb : b = (a != s.value)
            · simp [hb] at hk' ⊢; exact hk'
            · simp [hb] at hk' ⊢; exact hk')
        s.signal s.matched (hne hno) ⟨hi.symm, hm.trans (by rw [hi])⟩
      simp only [SNeq.poll, e]
      cases st with
      | panic => exact hst.elim
      | ret b =>
        obtain ⟨⟨g1, g2⟩, g3⟩ := hst
        refine ⟨_, _, rfl, rfl, fun _ => g3, ?_, ?_⟩
        · rw [items_append]; exact g1.symm
        · show m' = _
          rw [g1, g2]; simp
      | ended =>
        obtain ⟨⟨g1, g2⟩, g3⟩ := hst
        exact ⟨_, _, rfl, rfl, by simp, by simpa [items_append] using g1.symm, by rw [g2, ← g1]⟩
      | pending =>
        obtain ⟨⟨g1, g2⟩, g3, -⟩ := hst
        exact ⟨_, _, rfl, rfl, fun _ => g3, by simpa [items_append] using g1.symm, by rw [g2, ← g1]⟩)
    ws [] (SEq.init value script) ⟨rfl, fun _ => not_ended_mk' _, rfl, rfl⟩ (by simp)
  exact ⟨outs, s, h1, h4⟩

example : ((run SNeq.poll [0, 1, 2] (SEq.init 5 [.ready (some 5), .ready (some 5), .ready (some 4),
    .ready (some 3), .ready none])).map (·.1)) =
    some [.ready (some false), .ready (some true), .ready none] := by rfl

/-- `dedupe_map` with a callback that may change the value it is given (`g` gives the result and the
value it leaves): the callback is called exactly for the values which differ from the one left
behind by the previous call, and its results are the answers.  `==` is not assumed to be an
equivalence. -/
theorem C50_dedupe_map [BEq α] (g : α → β × α) (script : List (Poll (Option α)))
    (ws : List Waker) :
    ∃ outs s, run (SDedupeMap.poll (logging g)) ws (SDedupe.init [] script) = some (outs, s) ∧
      items outs = (distinctFrom (fun a => (g a).2) none s.signal.got).map (fun a => (g a).1) ∧
      s.st = distinctFrom (fun a => (g a).2) none s.signal.got := by
  obtain ⟨outs, s, h1, -, h4, h5, -⟩ := run_rule (poll := SDedupeMap.poll (logging g))
    (fun outs s => (.ready none ∉ outs → ¬ s.signal.ended) ∧
      items outs = s.st.map (fun a => (g a).1) ∧
      s.st = distinctFrom (fun a => (g a).2) none s.signal.got ∧
      s.oldValue = s.st.getLast?.map (fun a => (g a).2))
    (by
      rintro w outs s ⟨hne, hi, hst0, ho⟩ hno
      obtain ⟨st, ⟨old', k'⟩, src', e, -, hst⟩ := Src.loop_rule (w := w)
        (body := dedupeBody (logging g))
        (fun p gt _ => p.2 = s.st ∧ p.2 = distinctFrom (fun a => (g a).2) none gt ∧
          p.1 = p.2.getLast?.map (fun a => (g a).2))
        (fun b p gt _ => ∃ a, p.2 = s.st ++ [a] ∧ b = (g a).1 ∧
          p.2 = distinctFrom (fun a => (g a).2) none gt ∧ p.1 = p.2.getLast?.map (fun a => (g a).2))
        (by
          rintro ⟨old, k⟩ gt a t ⟨rfl, h2, h3⟩
          have hk := distinctFrom_snoc (fun a => (g a).2) none gt a
          simp only at h2 h3
          rw [← h2, ← h3] at hk
          simp only [dedupeBody]
          cases old with
          | none =>
            simp only [Option.or_none] at hk
            simpa [logging] using hk.symm
          | some o =>
            simp only [Option.or_none] at hk
            by_cases ho : (o == a) = true
            · simp only [bne, ho, if_true, List.append_nil] at hk ⊢
              simpa using ⟨hk.symm, h3⟩
            · simp only [bne, ho, Bool.false_eq_true, if_false] at hk ⊢
              simpa [logging] using hk.symm)
        s.signal (s.oldValue, s.st) (hne hno) ⟨rfl, hst0, ho⟩
      simp only [SDedupeMap.poll, e]
      cases st with
      | panic => exact hst.elim
      | ret b =>
        obtain ⟨⟨a, g1, g2, g3, g4⟩, g5⟩ := hst
        refine ⟨_, _, rfl, fun _ => g5, ?_, g3, g4⟩
        rw [items_append, hi]
        simp only at g1
        simp [g1, g2]
      | ended =>
        obtain ⟨⟨g1, g2, g3⟩, g4⟩ := hst
        simp only at g1
        subst g1
        exact ⟨_, _, rfl, by simp, by simpa [items_append] using hi, g2, g3⟩
      | pending =>
        obtain ⟨⟨g1, g2, g3⟩, g4, -⟩ := hst
        simp only at g1
        subst g1
        exact ⟨_, _, rfl, fun _ => g4, by simpa [items_append] using hi, g2, g3⟩)
    ws [] (SDedupe.init [] script) ⟨fun _ => not_ended_mk' _, rfl, rfl, rfl⟩ (by simp)
  refine ⟨outs, s, h1, ?_, h5⟩
  rw [← h5]
  simpa using h4

example : ((run (SDedupeMap.poll (logging fun n => (n * 10, n + 1))) [0, 1, 2]
    (SDedupe.init [] [.ready (some 1), .ready (some 2), .ready (some 1), .pending])).map
      fun p => (p.1, p.2.st)) =
    some ([.ready (some 10), .ready (some 10), .pending], [1, 1]) := by rfl

/-- `dedupe` and `dedupe_cloned`: the values without consecutive repetitions. -/
theorem C50_dedupe [BEq α] (script : List (Poll (Option α))) (ws : List Waker) :
    ∃ outs s, run SDedupe.poll ws (SDedupe.init () script) = some (outs, s) ∧
      items outs = dedup s.signal.got := by
  obtain ⟨outs, s, h1, -, h4, -⟩ := run_rule (poll := SDedupe.poll (α := α))
    (fun outs s => (.ready none ∉ outs → ¬ s.signal.ended) ∧
      items outs = dedup s.signal.got ∧ s.oldValue = (items outs).getLast?)
    (by
      rintro w outs s ⟨hne, hi, ho⟩ hno
      obtain ⟨st, ⟨old', k'⟩, src', e, -, hst⟩ := Src.loop_rule (w := w)
        (body := dedupeBody (κ := Unit) (fun _ (value : α) => ((value, value), ())))
        (fun p gt _ => items outs = dedup gt ∧ p.1 = (items outs).getLast?)
        (fun b p gt _ => items outs ++ [b] = dedup gt ∧ p.1 = some b)
        (by
          rintro ⟨old, k⟩ gt a t ⟨h2, h3⟩
          have hk := distinctFrom_snoc id none gt a
          simp only at h2 h3
          rw [show distinctFrom id none gt = items outs from h2.symm] at hk
          simp only [Option.map_id, id, ← h3] at hk
          simp only [dedupeBody]
          cases old with
          | none =>
            simp only [Option.or_none] at hk
            exact ⟨hk.symm, rfl⟩
          | some o =>
            simp only [Option.or_none] at hk
            by_cases ho : (o == a) = true
            · simp only [bne, ho, if_true, List.append_nil] at hk ⊢
              exact ⟨hk.symm, h3⟩
            · simp only [bne, ho, Bool.false_eq_true, if_false] at hk ⊢
              exact ⟨hk.symm, rfl⟩)
        s.signal (s.oldValue, s.st) (hne hno) ⟨hi, ho⟩
      simp only [SDedupe.poll, SDedupeMap.poll, e]
      cases st with
      | panic => exact hst.elim
      | ret b =>
        obtain ⟨⟨g1, g2⟩, g5⟩ := hst
        refine ⟨_, _, rfl, fun _ => g5, ?_, ?_⟩
        · rw [items_append]; exact g1
        · rw [items_append]; simpa using g2
      | ended =>
        obtain ⟨⟨g1, g2⟩, g4⟩ := hst
        exact ⟨_, _, rfl, by simp, by simpa [items_append] using g1, by simpa [items_append] using g2⟩
      | pending =>
        obtain ⟨⟨g1, g2⟩, g4, -⟩ := hst
        exact ⟨_, _, rfl, fun _ => g4, by simpa [items_append] using g1,
          by simpa [items_append] using g2⟩)
    ws [] (SDedupe.init () script) ⟨fun _ => not_ended_mk' _, rfl, rfl⟩ (by simp)
  exact ⟨outs, s, h1, by simpa using h4⟩

example : ((run SDedupe.poll [0, 1, 2] (SDedupe.init () [.ready (some 1), .ready (some 1),
    .ready (some 2), .pending])).map (·.1)) =
    some [.ready (some 1), .ready (some 2), .pending] := by rfl

/-- In particular no two consecutive values of `dedupe` are equal, and the last one is the current
value of the input. -/
theorem C50_dedupe_consecutive [BEq α] [LawfulBEq α] (script : List (Poll (Option α)))
    (ws : List Waker) :
    ∃ outs s, run SDedupe.poll ws (SDedupe.init () script) = some (outs, s) ∧
      (∀ i a b, (items outs)[i]? = some a → (items outs)[i + 1]? = some b → a ≠ b) ∧
      (items outs).getLast? = s.signal.got.getLast? := by
  obtain ⟨outs, s, h1, h2⟩ := C50_dedupe script ws
  refine ⟨outs, s, h1, ?_, ?_⟩
  · rw [h2]; exact dedup_consecutive _
  · rw [h2]; exact dedup_getLast? _

/-- `eq` (C57, C58, C59). -/
theorem C57_eq [BEq α] (value : α) (script : List (Poll (Option α))) :
    Polite SEq.poll (·.signal) (SEq.init value script) := by
  refine polite_of_step (fun s => ¬ s.signal.ended) (fun s h => fused_of_not_ended h) ?_ _
    (not_ended_mk' _)
  intro w s r s' hl hp
  obtain ⟨st, m', src', h1, h2, h3, h4⟩ := Src.loop_any w (eqBody s.value) s.signal s.matched hl
  simp only [SEq.poll, h1] at hp
  cases st with
  | pending => cases hp; exact ⟨by simpa using h3, h4 rfl⟩
  | ended => cases hp; exact ⟨h2, h3.2 rfl⟩
  | ret d => cases hp; simpa using h3
  | panic => cases hp

/-- `neq` (C57, C58, C59). -/
theorem C57_neq [BEq α] (value : α) (script : List (Poll (Option α))) :
    Polite SNeq.poll (·.signal) (SEq.init value script) := by
  refine polite_of_step (fun s => ¬ s.signal.ended) (fun s h => fused_of_not_ended h) ?_ _
    (not_ended_mk' _)
  intro w s r s' hl hp
  obtain ⟨st, m', src', h1, h2, h3, h4⟩ := Src.loop_any w (neqBody s.value) s.signal s.matched hl
  simp only [SNeq.poll, h1] at hp
  cases st with
  | pending => cases hp; exact ⟨by simpa using h3, h4 rfl⟩
  | ended => cases hp; exact ⟨h2, h3.2 rfl⟩
  | ret d => cases hp; simpa using h3
  | panic => cases hp

/-- `dedupe_map` (C57, C58, C59), for any callback. -/
theorem C57_dedupe_map [BEq α] (f : κ → α → (β × α) × κ) (k : κ)
    (script : List (Poll (Option α))) :
    Polite (SDedupeMap.poll f) (·.signal) (SDedupe.init k script) := by
  refine polite_of_step (fun s => ¬ s.signal.ended) (fun s h => fused_of_not_ended h) ?_ _
    (not_ended_mk' _)
  intro w s r s' hl hp
  obtain ⟨st, ⟨o', k'⟩, src', h1, h2, h3, h4⟩ :=
    Src.loop_any w (dedupeBody f) s.signal (s.oldValue, s.st) hl
  simp only [SDedupeMap.poll, h1] at hp
  cases st with
  | pending => cases hp; exact ⟨by simpa using h3, h4 rfl⟩
  | ended => cases hp; exact ⟨h2, h3.2 rfl⟩
  | ret d => cases hp; simpa using h3
  | panic => cases hp

/-- `dedupe`, `dedupe_cloned` (C57, C58, C59). -/
theorem C57_dedupe [BEq α] (script : List (Poll (Option α))) :
    Polite SDedupe.poll (·.signal) (SDedupe.init (α := α) () script) :=
  C57_dedupe_map _ () script

/-! ## C51: `filter_map` -/

/-- The answers of `filter_map` are `f` of the first value, then the accepted ones; the callback is
called exactly once on each value, in order. -/
theorem C51_filter_map (f : α → Option β) (script : List (Poll (Option α))) (ws : List Waker) :
    ∃ outs s, run (SFilterMap.poll (logging f)) ws (SFilterMap.init [] script) = some (outs, s) ∧
      items outs = filterMapSpec f s.signal.got ∧
      s.st = s.signal.got := by
  obtain ⟨outs, s, h1, -, h3, h4, -⟩ := run_rule (poll := SFilterMap.poll (logging f))
    (fun outs s => (.ready none ∉ outs → ¬ s.signal.ended) ∧
      items outs = filterMapSpec f s.signal.got ∧ s.st = s.signal.got ∧
      (s.first = true ↔ s.signal.got = []))
    (by
      rintro w outs s ⟨hne, hi, hs, hf⟩ hno
      obtain ⟨st, ⟨k', first'⟩, src', e, -, hst⟩ := Src.loop_rule (w := w)
        (body := filterMapSBody (logging f))
        (fun p g _ => items outs = filterMapSpec f g ∧ p.1 = g ∧ (p.2 = true ↔ g = []))
        (fun b p g _ => items outs ++ [b] = filterMapSpec f g ∧ p.1 = g ∧ (p.2 = true ↔ g = []))
        (by
          rintro ⟨k, fi⟩ g a t ⟨h1, rfl, h3⟩
          have hk := filterMapSpec_snoc f k a
          simp only at h1 h3 hk
          simp only [filterMapSBody, logging]
          cases hfa : f a with
          | some b => simp only [hfa] at hk ⊢; exact ⟨by rw [hk, h1], trivial, by simp⟩
          | none =>
            simp only [hfa] at hk ⊢
            by_cases hk0 : k = []
            · have := h3.2 hk0
              simp only [this, hk0, if_true] at hk ⊢
              exact ⟨by rw [hk, h1, hk0], trivial, by simp⟩
            · have : fi = false := by simpa [hk0] using h3
              simp only [this, hk0, if_false, List.append_nil, Bool.false_eq_true] at hk ⊢
              exact ⟨by rw [hk, h1], trivial, by simp⟩)
        s.signal (s.st, s.first) (hne hno) ⟨hi, hs, hf⟩
      simp only [SFilterMap.poll, e]
      cases st with
      | panic => exact hst.elim
      | ret b =>
        obtain ⟨⟨g1, g2, g3⟩, g5⟩ := hst
        exact ⟨_, _, rfl, fun _ => g5, by rw [items_append]; exact g1, g2, g3⟩
      | ended =>
        obtain ⟨⟨g1, g2, g3⟩, g4⟩ := hst
        exact ⟨_, _, rfl, by simp, by simpa [items_append] using g1, g2, g3⟩
      | pending =>
        obtain ⟨⟨g1, g2, g3⟩, g4, -⟩ := hst
        exact ⟨_, _, rfl, fun _ => g4, by simpa [items_append] using g1, g2, g3⟩)
    ws [] (SFilterMap.init [] script) ⟨fun _ => not_ended_mk' _, rfl, rfl, by
      simp [SFilterMap.init, Src.mk', Src.got]⟩ (by simp)
  exact ⟨outs, s, h1, by simpa using h3, h4⟩

example : ((run (SFilterMap.poll (logging fun n => if n < 5 then some (n * 10) else none)) [0, 1, 2]
    (SFilterMap.init [] [.ready (some 7), .ready (some 6), .ready (some 2), .ready (some 9),
      .pending])).map fun p => (p.1, p.2.st)) =
    some ([.ready (some none), .ready (some (some 20)), .pending], [7, 6, 2, 9]) := by rfl

/-- `Signal::filter_map` (C57, C58, C59), for any callback. -/
theorem C57_signal_filter_map (f : κ → α → Option β × κ) (k : κ)
    (script : List (Poll (Option α))) :
    Polite (SFilterMap.poll f) (·.signal) (SFilterMap.init k script) := by
  refine polite_of_step (fun s => ¬ s.signal.ended) (fun s h => fused_of_not_ended h) ?_ _
    (not_ended_mk' _)
  intro w s r s' hl hp
  obtain ⟨st, ⟨o', k'⟩, src', h1, h2, h3, h4⟩ :=
    Src.loop_any w (filterMapSBody f) s.signal (s.st, s.first) hl
  simp only [SFilterMap.poll, h1] at hp
  cases st with
  | pending => cases hp; exact ⟨by simpa using h3, h4 rfl⟩
  | ended => cases hp; exact ⟨h2, h3.2 rfl⟩
  | ret d => cases hp; simpa using h3
  | panic => cases hp

end Verif
