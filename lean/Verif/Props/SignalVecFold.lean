import Verif.FoldProofs
import Verif.Props.SignalVecMap

/-!
# `enumerate`, `to_signal_map`, `len`, `is_empty`, `sum`, `always`, `from_stream`
(properties C16, C18–C21, C23)
-/

namespace Verif

variable {α β : Type}

/-- **C16.**  `enumerate`: for every well-formed input history and every schedule no poll panics;
the emitted diffs describe a list of pairs `(cell, element)` whose elements are those of the input
in the same order; the cell handed out with the element at position `i` holds `Some(i)`; every
other cell ever handed out holds `None`. -/
theorem C16_enumerate (script : List (Poll (Option (VecDiff α))))
    (hwf : ∃ z, replay (items script) [] = some z) (ws : List Waker) :
    ∃ outs s ys, run VEnumerate.poll ws (VEnumerate.init script) = some (outs, s) ∧
      replay (items outs) [] = some ys ∧
      replay s.signal.got [] = some (ys.map (·.2)) ∧
      (∀ (i : Nat) (y : Nat × α), ys[i]? = some y → s.cells[y.1]? = some (some i)) ∧
      (∀ d ∈ items outs, ∀ y ∈ d.payload, y.1 ∉ ys.map (·.1) → s.cells[y.1]? = some none) := by
  let Good (outs : List (Poll (Option (VecDiff (Nat × α))))) (s : VEnumerate α) : Prop :=
    ∃ ys, replay (items outs) [] = some ys ∧ Valid anyDiff s.signal (ys.map (·.2)) ∧
      s.mutables = ys.map (·.1) ∧ CellInv (ys.map (·.1)) s.cells ∧
      (∀ d ∈ items outs, ∀ y ∈ d.payload, y.1 < s.cells.length)
  obtain ⟨outs, s, h1, h2, h3⟩ := sig_run (poll := VEnumerate.poll (α := α))
    (fun outs s => ¬ s.signal.ended ∧ Good outs s) Good
    (by
      rintro w outs s ⟨hne, ys, g1, g2, g3, g4, g5⟩
      obtain ⟨r, src', xs', h1, h2, h3, h4⟩ := Src.vpoll_rule w s.signal _ hne g2
      cases r with
      | pending =>
        obtain ⟨rfl, he, -⟩ := h4
        exact ⟨.pending, ⟨src', s.mutables, s.cells⟩, by simp [VEnumerate.poll, h1], he, ys,
          by simpa [items_append] using g1, h3, g3, g4, by simpa [items_append] using g5⟩
      | ready x =>
        cases x with
        | none =>
          obtain ⟨rfl, -⟩ := h4
          exact ⟨.ready none, ⟨src', s.mutables, s.cells⟩, by simp [VEnumerate.poll, h1], ys,
            by simpa [items_append] using g1, h3, g3, g4, by simpa [items_append] using g5⟩
        | some d =>
          obtain ⟨-, hd, he⟩ := h4
          obtain ⟨e, ys', cells', e1, e2, e3, e4, e5, e6⟩ := enumChange_spec g4 hd
          subst e3
          refine ⟨.ready (some e), ⟨src', ys'.map (·.1), cells'⟩,
            by simp [VEnumerate.poll, h1, g3, e1], he, ys', ?_, h3, rfl, e4, ?_⟩
          · rw [items_append]; exact replay_append_some g1 (by simp [replay, e2])
          · simp only [items_append, items_some, items_nil, List.mem_append, List.mem_singleton]
            rintro d' (hd' | rfl) y hy
            · exact Nat.lt_of_lt_of_le (g5 d' hd' y hy) e5
            · exact e6 y hy)
    ws (VEnumerate.init script) ⟨not_ended_mk' _, [], rfl, valid_mk' (feed_any.2 hwf), rfl,
      ⟨by simp, trivial, by simp [VEnumerate.init]⟩, by simp⟩
  have hgood : Good outs s := by
    by_cases he : .ready none ∈ outs
    · exact h3 he
    · exact (h2 he).2
  obtain ⟨ys, g1, g2, g3, g4, g5⟩ := hgood
  refine ⟨outs, s, ys, h1, g1, g2.now, fun i y hy => ?_, fun d hd y hy hn => ?_⟩
  · have := idx_get g4.idx (i := i) (id := y.1) (by simp [hy])
    simpa using this
  · have hlt := g5 d hd y hy
    have hs : s.cells[y.1]? = some s.cells[y.1] := by simp [hlt]
    rw [hs, g4.rest _ _ hs hn]

example : ∃ outs s, run VEnumerate.poll [0, 0, 0, 0, 0] (VEnumerate.init demoScript) = some (outs, s) ∧
    s.cells = [some 2, some 1, some 3, some 0] := ⟨_, _, rfl, by decide⟩

/-- The invariant of `to_signal_map`. -/
private def ToSignalInv (f : List α → β) (outs : List (Poll (Option β))) (s : VToSignal α) : Prop :=
  s.signal.Ok ∧ ∃ xs, Valid anyDiff s.signal.src xs ∧ s.values = xs ∧
    (s.first = true ↔ outs = []) ∧
    (outs ≠ [] → (items outs).getLast? = some (f xs) ∧ ∃ b, outs.head? = some (.ready (some b)))

private theorem toSignal_step (f : List α → β) : ∀ w outs (s : VToSignal α), ToSignalInv f outs s →
    ∃ r s', VToSignal.poll f w s = some (r, s') ∧ ToSignalInv f (outs ++ [r]) s' := by
  rintro w outs s ⟨hok, xs, hv, hR, hf, ho⟩
  obtain ⟨r, s', xs', new, h1, h2, h3, h4, h5, h6⟩ := VToSignal.step f w hok hv hR
  refine ⟨r, s', h1, ?_⟩
  have hhead : ∀ r : Poll (Option β), outs ≠ [] → (outs ++ [r]).head? = outs.head? := by
    intro r hne
    cases outs with
    | nil => exact absurd rfl hne
    | cons a l => rfl
  cases r with
  | pending =>
    obtain ⟨rfl, rfl, a, b, -⟩ := h6
    have hne : outs ≠ [] := fun e => by rw [hf.2 e] at a; cases a
    exact ⟨h2, xs', h3, h4, by simp [b], fun _ => by
      rw [hhead _ hne]; simpa [items_append] using ho hne⟩
  | ready x =>
    cases x with
    | none =>
      obtain ⟨rfl, rfl, a, b, -⟩ := h6
      have hne : outs ≠ [] := fun e => by rw [hf.2 e] at a; cases a
      exact ⟨h2, xs', h3, h4, by simp [b], fun _ => by
        rw [hhead _ hne]; simpa [items_append] using ho hne⟩
    | some b =>
      obtain ⟨rfl, a, -⟩ := h6
      refine ⟨h2, xs', h3, h4, by simp [a], fun _ => ⟨by simp [items_append], ?_⟩⟩
      by_cases hne : outs = []
      · subst hne; exact ⟨_, rfl⟩
      · rw [hhead _ hne]; exact (ho hne).2

private theorem toSignal_init (f : List α → β) {script : List (Poll (Option (VecDiff α)))}
    (hwf : ∃ z, replay (items script) [] = some z) :
    ToSignalInv f [] (VToSignal.init script) :=
  ⟨Inp.ok_mk' _, [], valid_mk' (feed_any.2 hwf), rfl, by simp [VToSignal.init], by simp⟩

/-- **C18.**  `to_signal_map`: for every well-formed history, every `f` and schedule no poll
panics; once polled, the last value produced is `f` of the vector described by all diffs consumed so
far (in particular at the end); the first poll produces a value. -/
theorem C18_to_signal_map (f : List α → β) (script : List (Poll (Option (VecDiff α))))
    (hwf : ∃ z, replay (items script) [] = some z) (ws : List Waker) (hws : ws ≠ []) :
    ∃ outs s xs, run (VToSignal.poll f) ws (VToSignal.init script) = some (outs, s) ∧
      replay s.signal.src.got [] = some xs ∧
      (items outs).getLast? = some (f xs) ∧
      (∃ b, outs.head? = some (.ready (some b))) := by
  obtain ⟨outs, s, h1, hI⟩ := inv_run (poll := VToSignal.poll f) (ToSignalInv f)
       (toSignal_step f) ws (VToSignal.init script) (toSignal_init f hwf)
  obtain ⟨hok, xs, hv, hR, hf, ho⟩ := hI
  have hne : outs ≠ [] := by
    rintro rfl
    cases ws with
    | nil => exact hws rfl
    | cons w ws =>
      simp only [run] at h1
      split at h1 <;> try simp at h1
      split at h1 <;> simp at h1
  exact ⟨outs, s, xs, h1, hv.now, (ho hne).1, (ho hne).2⟩

/-- **C18**, no spurious values: a poll after the first produces a value only if it consumed a
further diff. -/
theorem C18_only_after_diff (f : List α → β) (script : List (Poll (Option (VecDiff α))))
    (hwf : ∃ z, replay (items script) [] = some z) {outs : List (Poll (Option β))} {s : VToSignal α}
    (hs : Reach (VToSignal.poll f) (VToSignal.init script) outs s) (hne : outs ≠ [])
    {w : Waker} {b : β} {s' : VToSignal α}
    (hp : VToSignal.poll f w s = some (.ready (some b), s')) :
    ∃ d ds, s'.signal.src.got = s.signal.src.got ++ d :: ds := by
  obtain ⟨hok, xs, hv, hR, hf, ho⟩ := reach_inv (toSignal_step f)
    (toSignal_init f hwf) hs
  obtain ⟨r, s'', xs', new, h1, h2, h3, h4, h5, h6⟩ := VToSignal.step f w hok hv hR
  rw [hp] at h1
  cases h1
  rcases h6.2.2 with h | h
  · exact absurd (hf.1 h) hne
  · cases new with
    | nil => exact absurd rfl h
    | cons d ds => exact ⟨d, ds, h5⟩

/-- **C18**, the end: once the input has ended and its last vector was produced, the next poll
reports the end. -/
theorem C18_end (f : List α → β) (script : List (Poll (Option (VecDiff α))))
    (hwf : ∃ z, replay (items script) [] = some z) {outs : List (Poll (Option β))} {s : VToSignal α}
    (hs : Reach (VToSignal.poll f) (VToSignal.init script) outs s) (hne : outs ≠ [])
    (he : s.signal.src.ended) (w : Waker) :
    ∃ s', VToSignal.poll f w s = some (.ready none, s') := by
  obtain ⟨hok, xs, hv, hR, hf, ho⟩ := reach_inv (toSignal_step f)
    (toSignal_init f hwf) hs
  have ha := hok.dead.1 he
  have hf' : s.first = false := by
    cases h : s.first with
    | true => exact absurd (hf.1 h) hne
    | false => rfl
  simp [VToSignal.poll, Inp.loop, ha, hf']

example : ∃ outs s, run (VToSignal.poll id) [0, 0, 0, 0, 0, 0] (VToSignal.init demoScript) = some (outs, s) ∧
    outs = [.ready (some [1, 4, 2, 3]), .ready (some [4, 5, 3, 8]), .ready (some [4, 5, 3]),
      .ready none] := ⟨_, _, rfl, by decide⟩

/-- The invariant of `sum`. -/
private def SumInv (add : α → α → α) (zero : α) (outs : List (Poll (Option α))) (s : VToSignal α) :
    Prop :=
  s.signal.Ok ∧ ∃ xs, Valid anyDiff s.signal.src xs ∧ s.values = xs ∧
    (s.first = true ↔ outs = []) ∧
    (outs ≠ [] → (items outs).getLast? = some (xs.foldr add zero) ∧
      ∃ b, outs.head? = some (.ready (some b)))

private theorem sum_step {add : α → α → α} {zero : α} (hcomm : ∀ a b, add a b = add b a)
    (hassoc : ∀ a b c, add (add a b) c = add a (add b c)) :
    ∀ w outs (s : VToSignal α), SumInv add zero outs s →
    ∃ r s', VSum.poll add zero w s = some (r, s') ∧ SumInv add zero (outs ++ [r]) s' := by
  rintro w outs s ⟨hok, xs, hv, hR, hf, ho⟩
  obtain ⟨r, s', xs', new, h1, h2, h3, h4, h5, h6⟩ := VSum.step (zero := zero) hcomm hassoc w hok hv hR
  refine ⟨r, s', h1, ?_⟩
  have hhead : ∀ r : Poll (Option α), outs ≠ [] → (outs ++ [r]).head? = outs.head? := by
    intro r hne
    cases outs with
    | nil => exact absurd rfl hne
    | cons a l => rfl
  cases r with
  | pending =>
    obtain ⟨e, a, b, -⟩ := h6
    have hne : outs ≠ [] := fun e => by rw [hf.2 e] at a; cases a
    exact ⟨h2, xs', h3, h4, by simp [b], fun _ => by
      rw [hhead _ hne, e]; simpa [items_append] using ho hne⟩
  | ready x =>
    cases x with
    | none =>
      obtain ⟨e, a, b, -⟩ := h6
      have hne : outs ≠ [] := fun e => by rw [hf.2 e] at a; cases a
      exact ⟨h2, xs', h3, h4, by simp [b], fun _ => by
        rw [hhead _ hne, e]; simpa [items_append] using ho hne⟩
    | some b =>
      obtain ⟨rfl, a, -⟩ := h6
      refine ⟨h2, xs', h3, h4, by simp [a], fun _ => ⟨by simp [items_append], ?_⟩⟩
      by_cases hne : outs = []
      · subst hne; exact ⟨_, rfl⟩
      · rw [hhead _ hne]; exact (ho hne).2

/-- **C21.**  `sum`, for an associative and commutative addition: for every well-formed history and
schedule no poll panics; once polled, the last value produced is the sum of the vector described by
all diffs consumed so far; the first poll produces a value. -/
theorem C21_sum {add : α → α → α} {zero : α} (hcomm : ∀ a b, add a b = add b a)
    (hassoc : ∀ a b c, add (add a b) c = add a (add b c))
    (script : List (Poll (Option (VecDiff α))))
    (hwf : ∃ z, replay (items script) [] = some z) (ws : List Waker) (hws : ws ≠ []) :
    ∃ outs s xs, run (VSum.poll add zero) ws (VToSignal.init script) = some (outs, s) ∧
      replay s.signal.src.got [] = some xs ∧
      (items outs).getLast? = some (xs.foldr add zero) ∧
      (∃ b, outs.head? = some (.ready (some b))) := by
  obtain ⟨outs, s, h1, hI⟩ := inv_run (poll := VSum.poll add zero) (SumInv add zero)
   (sum_step hcomm hassoc) ws (VToSignal.init script)
    ⟨Inp.ok_mk' _, [], valid_mk' (feed_any.2 hwf), rfl, by simp [VToSignal.init], by simp⟩
  obtain ⟨hok, xs, hv, hR, hf, ho⟩ := hI
  have hne := run_ne_nil h1 hws
  exact ⟨outs, s, xs, h1, hv.now, (ho hne).1, (ho hne).2⟩

/-- Commutativity is needed: with a non-commutative addition a `Move` goes unnoticed. -/
theorem C21_needs_comm :
    ∃ (script : List (Poll (Option (VecDiff (List Nat))))),
      replay (items script) [] = some [[2], [1]] ∧
      ∃ outs s, run (VSum.poll (· ++ ·) []) [0, 0] (VToSignal.init script) = some (outs, s) ∧
        outs = [.ready (some [1, 2]), .pending] :=
  ⟨[.ready (some (.replace [[1], [2]])), .pending, .ready (some (.move 1 0))], by decide, _, _, rfl,
    by decide⟩

example : ∃ outs s, run (VSum.poll (· + ·) 0) [0, 0, 0, 0] (VToSignal.init demoScript) = some (outs, s) ∧
    outs = [.ready (some 10), .ready (some 20), .ready (some 12), .ready none] := ⟨_, _, rfl, by decide⟩

/-- The invariant of `len`. -/
private def LenInv (outs : List (Poll (Option Nat))) (s : VLen α) : Prop :=
  s.signal.Ok ∧ ∃ xs, Valid anyDiff s.signal.src xs ∧ s.len = xs.length ∧
    (s.first = true ↔ outs = []) ∧
    (outs ≠ [] → (items outs).getLast? = some xs.length ∧ ∃ b, outs.head? = some (.ready (some b)))

private theorem len_step : ∀ w outs (s : VLen α), LenInv outs s →
    ∃ r s', VLen.poll w s = some (r, s') ∧ LenInv (outs ++ [r]) s' := by
  rintro w outs s ⟨hok, xs, hv, hR, hf, ho⟩
  obtain ⟨r, s', xs', new, h1, h2, h3, h4, h5, -, h6⟩ := VLen.step w hok hv hR
  refine ⟨r, s', h1, ?_⟩
  have hhead : ∀ r : Poll (Option Nat), outs ≠ [] → (outs ++ [r]).head? = outs.head? := by
    intro r hne
    cases outs with
    | nil => exact absurd rfl hne
    | cons a l => rfl
  cases r with
  | pending =>
    obtain ⟨e, a, b, -⟩ := h6
    have hne : outs ≠ [] := fun e => by rw [hf.2 e] at a; cases a
    exact ⟨h2, xs', h3, h4, by simp [b], fun _ => by
      rw [hhead _ hne, e]; simpa [items_append] using ho hne⟩
  | ready x =>
    cases x with
    | none =>
      obtain ⟨e, a, b, -⟩ := h6
      have hne : outs ≠ [] := fun e => by rw [hf.2 e] at a; cases a
      exact ⟨h2, xs', h3, h4, by simp [b], fun _ => by
        rw [hhead _ hne, e]; simpa [items_append] using ho hne⟩
    | some b =>
      obtain ⟨rfl, a, -⟩ := h6
      refine ⟨h2, xs', h3, h4, by simp [a], fun _ => ⟨by simp [items_append], ?_⟩⟩
      by_cases hne : outs = []
      · subst hne; exact ⟨_, rfl⟩
      · rw [hhead _ hne]; exact (ho hne).2

private theorem len_init {script : List (Poll (Option (VecDiff α)))}
    (hwf : ∃ z, replay (items script) [] = some z) : LenInv [] (VLen.init script) :=
  ⟨Inp.ok_mk' _, [], valid_mk' (feed_any.2 hwf), rfl, by simp [VLen.init], by simp⟩

/-- **C19** (partial; missing is only that consecutive values differ, see `C19_len_repeats`).
`len`: for every well-formed history and schedule no poll panics; once polled, the last value
produced is the length of the vector described by the diffs consumed so far; the first poll
produces a value. -/
theorem C19_len_partial (script : List (Poll (Option (VecDiff α))))
    (hwf : ∃ z, replay (items script) [] = some z) (ws : List Waker) (hws : ws ≠ []) :
    ∃ outs s xs, run VLen.poll ws (VLen.init script) = some (outs, s) ∧
      replay s.signal.src.got [] = some xs ∧
      (items outs).getLast? = some xs.length ∧
      (∃ b, outs.head? = some (.ready (some b))) := by
  obtain ⟨outs, s, h1, hI⟩ := inv_run (poll := VLen.poll (α := α)) LenInv
       (len_step (α := α)) ws (VLen.init script) (len_init hwf)
  obtain ⟨hok, xs, hv, hR, hf, ho⟩ := hI
  have hne := run_ne_nil h1 hws
  exact ⟨outs, s, xs, h1, hv.now, (ho hne).1, (ho hne).2⟩

/-- **C19**, what is true of repeated values: a poll after the first produces a value only if the
length changed at some moment since the poll before, i.e. after some prefix `pre` of the diffs
`new` consumed by this poll.  In particular, if the poll consumed at most one diff, then the value
differs from the one last produced. -/
theorem C19_len_changes_partial (script : List (Poll (Option (VecDiff α))))
    (hwf : ∃ z, replay (items script) [] = some z) {outs : List (Poll (Option Nat))} {s : VLen α}
    (hs : Reach VLen.poll (VLen.init script) outs s) (hne : outs ≠ [])
    {w : Waker} {n : Nat} {s' : VLen α} (hp : VLen.poll w s = some (.ready (some n), s')) :
    ∃ new, s'.signal.src.got = s.signal.src.got ++ new ∧
      (∃ xs pre zs, replay s.signal.src.got [] = some xs ∧ pre <+: new ∧
        replay pre xs = some zs ∧ zs.length ≠ xs.length) ∧
      (new.length ≤ 1 → (items outs).getLast? ≠ some n) := by
  obtain ⟨hok, xs, hv, hR, hf, ho⟩ := reach_inv (len_step (α := α)) (len_init hwf) hs
  obtain ⟨r, s'', xs', new, h1, h2, h3, h4, h5, h5', h6⟩ := VLen.step w hok hv hR
  rw [hp] at h1
  cases h1
  obtain ⟨rfl, -, h6⟩ := h6
  rcases h6 with h | ⟨pre, zs, g1, g2, g3⟩
  · exact absurd (hf.1 h) hne
  · refine ⟨new, h5, ⟨xs, pre, zs, hv.now, g1, g2, g3⟩, fun hlen => ?_⟩
    rw [(ho hne).1]
    have : pre = new := by
      cases pre with
      | nil => simp [replay] at g2; subst g2; exact absurd rfl g3
      | cons d ds => exact g1.eq_of_length_le (by simp; omega)
    subst this
    rw [h5'] at g2
    cases g2
    intro e
    exact g3 (Option.some.inj e).symm

/-- **C19**, the end: once the input has ended and its last length was produced, the next poll
reports the end. -/
theorem C19_end (script : List (Poll (Option (VecDiff α))))
    (hwf : ∃ z, replay (items script) [] = some z) {outs : List (Poll (Option Nat))} {s : VLen α}
    (hs : Reach VLen.poll (VLen.init script) outs s) (hne : outs ≠ [])
    (he : s.signal.src.ended) (w : Waker) :
    ∃ s', VLen.poll w s = some (.ready none, s') := by
  obtain ⟨hok, xs, hv, hR, hf, ho⟩ := reach_inv (len_step (α := α)) (len_init hwf) hs
  have ha := hok.dead.1 he
  have hf' : s.first = false := by
    cases h : s.first with
    | true => exact absurd (hf.1 h) hne
    | false => rfl
  simp [VLen.poll, Inp.loop, ha, hf']

/-- **C19**, counterexample to the missing part: a push and a pop consumed by one poll make `len`
produce the same length again. -/
theorem C19_len_repeats :
    ∃ script : List (Poll (Option (VecDiff Nat))), replay (items script) [] = some [1] ∧
      ∃ s, run VLen.poll [0, 0] (VLen.init script) = some ([.ready (some 1), .ready (some 1)], s) :=
  ⟨[.ready (some (.replace [1])), .pending, .ready (some (.push 2)), .ready (some .pop)], by decide,
    _, rfl⟩

example : ∃ outs s, run VLen.poll [0, 0, 0, 0] (VLen.init demoScript) = some (outs, s) ∧
    outs = [.ready (some 4), .ready (some 4), .ready (some 3), .ready none] := ⟨_, _, rfl, by decide⟩

/-- **C20** (partial; missing: that the end is reported, see `C20_is_empty_fails`).  `is_empty`: for
every well-formed history and schedule no poll panics; once polled, the last value produced tells
whether the vector described by the diffs consumed so far is empty; the first poll produces a
value; consecutive values differ. -/
theorem C20_is_empty_partial (script : List (Poll (Option (VecDiff α))))
    (hwf : ∃ z, replay (items script) [] = some z) (ws : List Waker) (hws : ws ≠ []) :
    ∃ outs s xs, run VIsEmpty.poll ws (VIsEmpty.init script) = some (outs, s) ∧
      replay s.len.signal.src.got [] = some xs ∧
      (items outs).getLast? = some xs.isEmpty ∧
      (∃ b, outs.head? = some (.ready (some b))) ∧
      (∀ p a b q, items outs = p ++ a :: b :: q → a ≠ b) := by
  let Inv (outs : List (Poll (Option Bool))) (s : VIsEmpty α) : Prop :=
    s.len.signal.Ok ∧ ∃ xs, Valid anyDiff s.len.signal.src xs ∧ s.len.len = xs.length ∧
      (s.len.first = true ↔ outs = []) ∧ s.old = (items outs).getLast? ∧
      (outs ≠ [] → s.old = some xs.isEmpty ∧ ∃ b, outs.head? = some (.ready (some b))) ∧
      (∀ p a b q, items outs = p ++ a :: b :: q → a ≠ b)
  have hstep : ∀ w outs (s : VIsEmpty α), Inv outs s →
      ∃ r s', VIsEmpty.poll w s = some (r, s') ∧ Inv (outs ++ [r]) s' := by
    rintro w outs s ⟨hok, xs, hv, hR, hf, hold, ho, hch⟩
    obtain ⟨r, s', xs', new, h1, h2, h3, h4, h5, -, h6⟩ := VLen.step w hok hv hR
    have hhead : ∀ r : Poll (Option Bool), outs ≠ [] → (outs ++ [r]).head? = outs.head? := by
      intro r hne
      cases outs with
      | nil => exact absurd rfl hne
      | cons a l => rfl
    have hemp : ∀ l l' : List α, l.length = l'.length → l.isEmpty = l'.isEmpty := by
      intro l l' h
      cases l <;> cases l' <;> simp at h ⊢
    cases r with
    | pending =>
      obtain ⟨e, a, b, -⟩ := h6
      have hne : outs ≠ [] := fun e => by rw [hf.2 e] at a; cases a
      refine ⟨.pending, ⟨s', s.old⟩, by simp [VIsEmpty.poll, h1], h2, xs', h3, h4, by simp [b],
        by simpa [items_append] using hold, fun _ => ?_, by simpa [items_append] using hch⟩
      rw [hhead _ hne, hemp _ _ e]; exact ho hne
    | ready x =>
      cases x with
      | none =>
        obtain ⟨e, a, b, -⟩ := h6
        have hne : outs ≠ [] := fun e => by rw [hf.2 e] at a; cases a
        refine ⟨.ready none, ⟨s', s.old⟩, by simp [VIsEmpty.poll, h1], h2, xs', h3, h4, by simp [b],
          by simpa [items_append] using hold, fun _ => ?_, by simpa [items_append] using hch⟩
        rw [hhead _ hne, hemp _ _ e]; exact ho hne
      | some n =>
        obtain ⟨rfl, a, -⟩ := h6
        have hz : (xs'.length == 0) = xs'.isEmpty := by cases xs' <;> rfl
        by_cases hc : s.old = some xs'.isEmpty
        · have hne : outs ≠ [] := by rintro rfl; rw [hold] at hc; simp at hc
          refine ⟨.pending, ⟨s', s.old⟩, by simp [VIsEmpty.poll, h1, hz, hc], h2, xs', h3, h4, by simp [a],
            by simpa [items_append] using hold, fun _ => ⟨hc, ?_⟩, by simpa [items_append] using hch⟩
          rw [hhead _ hne]; exact (ho hne).2
        · refine ⟨.ready (some xs'.isEmpty), ⟨s', some xs'.isEmpty⟩,
            by simp [VIsEmpty.poll, h1, hz, hc], h2, xs', h3, h4, by simp [a],
            by simp [items_append], fun _ => ⟨rfl, ?_⟩, ?_⟩
          · by_cases hne : outs = []
            · subst hne; exact ⟨_, rfl⟩
            · rw [hhead _ hne]; exact (ho hne).2
          · intro p a b q heq
            rw [items_append] at heq
            simp only [items_some, items_nil] at heq
            rcases List.eq_nil_or_concat q with rfl | ⟨q', c, rfl⟩
            · have heq' : items outs ++ [xs'.isEmpty] = (p ++ [a]) ++ [b] := by simpa using heq
              obtain ⟨e1, e2⟩ := List.append_inj' heq' rfl
              cases e2
              rintro rfl
              apply hc
              rw [hold, e1]; simp
            · have heq' : items outs ++ [xs'.isEmpty] = (p ++ a :: b :: q') ++ [c] := by simpa using heq
              obtain ⟨e1, e2⟩ := List.append_inj' heq' rfl
              exact hch _ _ _ _ e1
  obtain ⟨outs, s, h1, h2⟩ := run_rule (poll := VIsEmpty.poll (α := α)) Inv
    (fun w outs s h _ => hstep w outs s h) ws [] (VIsEmpty.init script)
    ⟨Inp.ok_mk' _, [], valid_mk' (feed_any.2 hwf), rfl, by simp [VIsEmpty.init, VLen.init],
      rfl, by simp, by simp⟩ (by simp)
  simp only [List.nil_append] at h2
  obtain ⟨-, xs, hv, -, -, hold, ho, hch⟩ := h2
  have hne := run_ne_nil h1 hws
  exact ⟨outs, s, xs, h1, hv.now, by rw [← hold]; exact (ho hne).1, (ho hne).2, hch⟩

/-- **C20**, counterexample: the input has ended, but `is_empty` answers `Pending` and nothing will
wake it: its only input has ended, without the end having been reported. -/
theorem C20_is_empty_fails :
    ∃ script : List (Poll (Option (VecDiff Nat))), replay (items script) [] = some [1, 2] ∧
      ∃ s, run VIsEmpty.poll [0, 0] (VIsEmpty.init script) =
          some ([.ready (some false), .pending], s) ∧ s.len.signal.src.ended :=
  ⟨[.ready (some (.replace [1])), .pending, .ready (some (.push 2)), .ready none], by decide,
    _, rfl, ⟨0, by decide⟩⟩

/-- **C23**, `signal_vec::always`: it describes its vector, then ends. -/
theorem C23_always (xs : List α) (ws : List Waker) :
    ∃ s, run VAlways.poll ws ⟨some xs⟩ =
      some (List.take ws.length [.ready (some (.replace xs)), .ready none], s) := by
  match ws with
  | [] => exact ⟨_, rfl⟩
  | [w] => exact ⟨_, rfl⟩
  | w :: w' :: ws => exact ⟨⟨none⟩, by simp [run, VAlways.poll]⟩

/-- **C23**, `signal_vec::from_stream`: it describes the items received so far, in order. -/
theorem C23_from_stream (script : List (Poll (Option α))) (ws : List Waker) :
    ∃ outs s, run VFromStream.poll ws ⟨Src.mk' script⟩ = some (outs, s) ∧
      replay (items outs) [] = some s.stream.got := by
  obtain ⟨outs, s, h1, h2⟩ := run_rule (poll := VFromStream.poll (α := α))
    (fun outs s => (.ready none ∉ outs → ¬ s.stream.ended) ∧ replay (items outs) [] = some s.stream.got)
    (by
      rintro w outs s ⟨h0, h⟩ hne
      obtain ⟨r, src', h1, h2, h3, h4, h5⟩ := Src.poll_rule w s.stream (h0 hne)
      cases r with
      | pending =>
        exact ⟨.pending, ⟨src'⟩, by simp [VFromStream.poll, h1], fun _ => h5.1,
          by simpa [items_append, h3] using h⟩
      | ready x =>
        cases x with
        | none => exact ⟨.ready none, ⟨src'⟩, by simp [VFromStream.poll, h1], by simp,
            by simpa [items_append, h3] using h⟩
        | some a =>
          refine ⟨.ready (some (.push a)), ⟨src'⟩, by simp [VFromStream.poll, h1], fun _ => h5, ?_⟩
          rw [items_append, h3]
          exact replay_append_some h (by simp [replay, VecDiff.apply]))
    ws [] ⟨Src.mk' script⟩ ⟨fun _ => not_ended_mk' _, rfl⟩ (by simp)
  exact ⟨outs, s, h1, h2.2⟩

example : ∃ outs s, run VFromStream.poll [0, 0, 0, 0]
      ⟨Src.mk' [.ready (some 3), .pending, .ready (some 4), .ready none]⟩ = some (outs, s) ∧
    replay (items outs) [] = some [3, 4] := ⟨_, _, rfl, by decide⟩

end Verif
