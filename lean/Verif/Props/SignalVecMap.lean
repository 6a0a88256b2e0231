import Verif.SignalVec1Proofs

/-!
# `VecDiff::map`, `SignalVec::map`, `filter`, `filter_map` (properties C06, C08, C10, C11)
-/

namespace Verif

variable {α β κ : Type}

/-- **C06.**  Mapping the diff and the vector commutes with applying, panics included. -/
theorem C06_map_natural (f : α → β) (d : VecDiff α) (xs : List α) :
    (d.map f).apply (xs.map f) = (d.apply xs).map (List.map f) := by
  cases h : d.apply xs with
  | none => exact map_apply_none f h
  | some ys => exact map_apply f h

example : ((VecDiff.move 2 0).map (· * 10)).apply ([1, 2, 3].map (· * 10)) = some [30, 10, 20] := by
  decide
example : ((VecDiff.updateAt 3 7).map (· * 10)).apply ([1, 2, 3].map (· * 10)) = none := by decide

/-- **C08.**  `map`: for every well-formed input history, every schedule of polls and every `f`,
no poll panics, the emitted diffs describe the `f`-image of what the consumed diffs describe, and
the callback was called once for each value carried by a consumed diff, in order. -/
theorem C08_map (f : α → β) (script : List (Poll (Option (VecDiff α))))
    (hwf : ∃ z, replay (items script) [] = some z) (ws : List Waker) :
    ∃ outs s xs, run (VMap.poll (logging f)) ws (VMap.init [] script) = some (outs, s) ∧
      replay s.signal.got [] = some xs ∧
      replay (items outs) [] = some (xs.map f) ∧
      s.st = s.signal.got.flatMap VecDiff.payload := by
  obtain ⟨outs, s, ys, h1, h2, h3, h4, h5⟩ := vec_run (poll := VMap.poll (logging f))
    (fun s ys => ¬ s.signal.ended ∧ s.st = s.signal.got.flatMap VecDiff.payload ∧
      ∃ xs, Valid anyDiff s.signal xs ∧ ys = xs.map f)
    (fun s ys => ¬ s.signal.ended ∧ s.st = s.signal.got.flatMap VecDiff.payload ∧
      ∃ xs, Valid anyDiff s.signal xs ∧ ys = xs.map f)
    (fun s ys => s.st = s.signal.got.flatMap VecDiff.payload ∧
      ∃ xs, Valid anyDiff s.signal xs ∧ ys = xs.map f)
    (fun _ _ h => h)
    (by
      rintro w s ys ⟨hne, hst, xs, hv, rfl⟩
      obtain ⟨r, src', xs', h1, h2, h3, h4⟩ := Src.vpoll_rule w s.signal xs hne hv
      obtain ⟨r', src'', g1, -, g3, -, -⟩ := Src.poll_rule w s.signal hne
      rw [h1] at g1; cases g1
      match r with
      | .ready (some d) =>
        obtain ⟨-, hd, he⟩ := h4
        refine ⟨.ready (some (d.map f)), ⟨src', s.st ++ d.payload⟩, ?_, xs'.map f, ?_, he, ?_, xs', h3, rfl⟩
        · simp [VMap.poll, h1, VecDiff.mapS_logging]
        · exact map_apply f hd
        · simp [g3, hst]
      | .ready none =>
        obtain ⟨rfl, he⟩ := h4
        exact ⟨.ready none, ⟨src', s.st⟩, by simp [VMap.poll, h1], by simp [g3, hst], xs', h3, rfl⟩
      | .pending =>
        obtain ⟨rfl, he, -⟩ := h4
        exact ⟨.pending, ⟨src', s.st⟩, by simp [VMap.poll, h1], he, by simp [g3, hst], xs', h3, rfl⟩)
    ws (VMap.init [] script) ⟨not_ended_mk' _, rfl, [], valid_mk' (feed_any.2 hwf), rfl⟩
  by_cases he : .ready none ∈ outs
  · obtain ⟨hst, xs, hv, rfl⟩ := h5 he
    exact ⟨outs, s, xs, h1, hv.now, h2, hst⟩
  · obtain ⟨-, hst, xs, hv, rfl⟩ := h3 he
    exact ⟨outs, s, xs, h1, hv.now, h2, hst⟩

/-- A well-formed history with diffs of many kinds and a `Pending` in between. -/
def demoScript : List (Poll (Option (VecDiff Nat))) :=
  [.ready (some (.replace [1, 2, 3])), .ready (some (.insertAt 1 4)), .pending,
   .ready (some (.updateAt 0 5)), .ready (some (.move 0 2)), .ready (some (.removeAt 1)),
   .ready (some (.push 8)), .pending, .ready (some .pop), .ready none]

example : ∃ z, replay (items demoScript) [] = some z := ⟨[4, 5, 3], by decide⟩

/-- **C11** (partial).  `filter_map`: for every input history whose diffs are applicable and
satisfy `MoveOk`, every schedule and every `f`, no poll panics, the emitted diffs describe the
kept and mapped elements of what the consumed diffs describe, and the callback was called once for
each value carried by a consumed diff, in order.

Missing for the full claim: the side condition `MoveOk`, without which it is false
(`C11_filter_map_fails`). -/
theorem C11_filter_map_partial (f : α → Option β) (script : List (Poll (Option (VecDiff α))))
    (hwf : Feed (MoveOk f) (items script) []) (ws : List Waker) :
    ∃ outs s xs, run (VFilterMap.poll (logging f)) ws (VFilterMap.init [] script) = some (outs, s) ∧
      replay s.signal.got [] = some xs ∧
      replay (items outs) [] = some (xs.filterMap f) ∧
      s.st = s.signal.got.flatMap VecDiff.payload := by
  let Good (s : VFilterMap (List α) α) (ys : List β) : Prop :=
    ∃ xs, Valid (MoveOk f) s.signal xs ∧ s.indexes = flags f xs ∧
      s.st = s.signal.got.flatMap VecDiff.payload ∧ ys = xs.filterMap f
  obtain ⟨outs, s, ys, h1, h2, h3, h4, h5⟩ := vec_run (poll := VFilterMap.poll (logging f))
    (fun s ys => ¬ s.signal.ended ∧ Good s ys) (fun s ys => ¬ s.signal.ended ∧ Good s ys) Good
    (fun _ _ h => h)
    (by
      rintro w s ys ⟨hne, xs, hv, hix, hst, rfl⟩
      obtain ⟨st, s', src', g1, g2, g3⟩ := Src.loop_rule (w := w) (body := filterMapBody (logging f))
        (fun s g t => ∃ zs, replay g [] = some zs ∧ Feed (MoveOk f) t zs ∧ s.1 = flags f zs ∧
          s.2 = g.flatMap VecDiff.payload ∧ zs.filterMap f = xs.filterMap f)
        (fun (e : VecDiff β) s g t => ∃ zs, replay g [] = some zs ∧ Feed (MoveOk f) t zs ∧
          s.1 = flags f zs ∧ s.2 = g.flatMap VecDiff.payload ∧
          e.apply (xs.filterMap f) = some (zs.filterMap f))
        (by
          rintro ⟨ix, log⟩ g d t ⟨zs, hg, ⟨hok, zs', hd, ht⟩, h1, h2, h3⟩
          simp only at h1 h2
          subst h1 h2
          have hg' : replay (g ++ [d]) [] = some zs' := replay_append_some hg (by simp [replay, hd])
          rcases filterMapBody_spec f (g.flatMap VecDiff.payload) hd hok with ⟨e1, e2⟩ | ⟨e, e1, e2⟩
          · rw [e1]
            exact ⟨zs', hg', ht, rfl, by simp, e2.trans h3⟩
          · rw [e1]
            exact ⟨zs', hg', ht, rfl, by simp, by rw [← h3]; exact e2⟩)
        s.signal (s.indexes, s.st) hne ⟨xs, hv.now, hv.rest, hix, hst, rfl⟩
      obtain ⟨ix, k⟩ := s'
      match st with
      | .panic => exact g3.elim
      | .ret e =>
        obtain ⟨⟨zs, a1, a2, a3, a4, a5⟩, hne'⟩ := g3
        exact ⟨.ready (some e), ⟨ix, src', k⟩, by simp [VFilterMap.poll, g1], _, a5, hne', zs,
          ⟨a1, a2⟩, a3, a4, rfl⟩
      | .ended =>
        obtain ⟨⟨zs, a1, a2, a3, a4, a5⟩, -⟩ := g3
        exact ⟨.ready none, ⟨ix, src', k⟩, by simp [VFilterMap.poll, g1], zs,
          ⟨a1, a2⟩, a3, a4, a5.symm⟩
      | .pending =>
        obtain ⟨⟨zs, a1, a2, a3, a4, a5⟩, hne', -⟩ := g3
        exact ⟨.pending, ⟨ix, src', k⟩, by simp [VFilterMap.poll, g1], hne', zs,
          ⟨a1, a2⟩, a3, a4, a5.symm⟩)
    ws (VFilterMap.init [] script) ⟨not_ended_mk' _, [], valid_mk' hwf, rfl, rfl, rfl⟩
  have hgood : Good s ys := by
    by_cases he : .ready none ∈ outs
    · exact h5 he
    · exact (h3 he).2
  obtain ⟨xs, hv, -, hst, rfl⟩ := hgood
  exact ⟨outs, s, xs, h1, hv.now, h2, hst⟩

/-- **C10** (partial).  `filter`: as `C11_filter_map_partial`, with the elements satisfying `p`.

Missing for the full claim: the side condition `MoveOk` (`C10_filter_fails`). -/
theorem C10_filter_partial (p : α → Bool) (script : List (Poll (Option (VecDiff α))))
    (hwf : Feed (MoveOk (keep p)) (items script) []) (ws : List Waker) :
    ∃ outs s xs, run (VFilter.poll (logging p)) ws (VFilterMap.init [] script) = some (outs, s) ∧
      replay s.signal.got [] = some xs ∧
      replay (items outs) [] = some (xs.filter p) ∧
      s.st = s.signal.got.flatMap VecDiff.payload := by
  have h := C11_filter_map_partial (keep p) script hwf ws
  have e1 : VFilter.poll (logging p) = VFilterMap.poll (logging (keep p)) := by
    funext w m; rfl
  have e2 : ∀ xs : List α, xs.filterMap (keep p) = xs.filter p := by
    intro xs
    induction xs with
    | nil => rfl
    | cons a xs ih => by_cases h : p a <;> simp [keep, h, List.filterMap_cons, List.filter_cons] at ih ⊢ <;> exact ih
  rw [e1]
  simpa only [e2] using h

/-- The side condition holds in particular for every applicable history without moves towards the
front. -/
theorem feed_moveOk_of_no_back_moves (f : α → Option β) (ds : List (VecDiff α)) (xs ys : List α)
    (hr : replay ds xs = some ys) (hm : ∀ old new, .move old new ∈ ds → old ≤ new) :
    Feed (MoveOk f) ds xs := by
  induction ds generalizing xs with
  | nil => trivial
  | cons d ds ih =>
    simp only [replay] at hr
    cases hd : d.apply xs with
    | none => simp [hd] at hr
    | some zs =>
      simp only [hd] at hr
      refine ⟨?_, zs, hd, ih zs hr (fun old new h => hm old new (by simp [h]))⟩
      unfold MoveOk
      split
      · rename_i old new
        intro hlt
        have := hm old new (by simp)
        omega
      · trivial

example : Feed (MoveOk (keep (fun n => n % 2 == 1))) (items demoScript) [] :=
  feed_moveOk_of_no_back_moves _ _ _ [4, 5, 3] (by decide)
    (by intro old new h; simp [demoScript] at h; omega)
/-- The side condition also admits moves towards the front. -/
example : Feed (MoveOk (keep (fun n => n % 2 == 1)))
    [.replace [1, 2, 3, 5], .move 3 0, .move 2 1] [] := by
  refine ⟨trivial, _, rfl, ?_, _, rfl, ?_, _, rfl, trivial⟩ <;> simp [MoveOk, keep]

/-- **C10**, counterexample.  Well-formed input, but the emitted `Move` is out of range of the
output: keep the odd elements of `[1, 2, 3]`, then move the last element to the front. -/
theorem C10_filter_fails :
    ∃ script : List (Poll (Option (VecDiff Nat))), replay (items script) [] = some [3, 1, 2] ∧
      ∃ outs s, run (VFilter.poll (logging (fun n => n % 2 == 1))) [0, 0]
        (VFilterMap.init [] script) = some (outs, s) ∧
      replay (items outs) [] = none :=
  ⟨[.ready (some (.replace [1, 2, 3])), .ready (some (.move 2 0))], by decide,
    [.ready (some (.replace [1, 3])), .ready (some (.move 2 0))], _, rfl, by decide⟩

/-- **C11**, counterexample: the output replays, but describes the wrong list. -/
theorem C11_filter_map_fails :
    ∃ script : List (Poll (Option (VecDiff Nat))), replay (items script) [] = some [3, 1, 2, 5] ∧
      ∃ outs s, run (VFilterMap.poll (logging (keep (fun n => n % 2 == 1)))) [0, 0]
        (VFilterMap.init [] script) = some (outs, s) ∧
      replay (items outs) [] = some [5, 1, 3] ∧ [3, 1, 2, 5].filter (fun n => n % 2 == 1) = [3, 1, 5] :=
  ⟨[.ready (some (.replace [1, 2, 3, 5])), .ready (some (.move 2 0))], by decide,
    [.ready (some (.replace [1, 3, 5])), .ready (some (.move 2 0))], _, rfl, by decide, by decide⟩

/-- **C10 / C11**, the defect in general: whenever a kept element is moved towards the front and the
element just before it is filtered out, the emitted `old_index` is one too large. -/
theorem C11_move_off_by_one (f : α → Option β) (log : List α) (p m : List α) (c a : α)
    (q : List α) (b : β) (ha : f a = some b) (hc : f c = none) :
    (VecDiff.move (p.length + m.length + 1) p.length).apply (p ++ m ++ c :: a :: q) =
      some (p ++ a :: m ++ c :: q) ∧
    filterMapBody (logging f) (flags f (p ++ m ++ c :: a :: q), log)
        (.move (p.length + m.length + 1) p.length) =
      .ret (flags f (p ++ a :: m ++ c :: q), log)
        (.move ((p ++ m ++ [c]).filterMap f |>.length |> (· + 1)) (p.filterMap f).length) := by
  constructor
  · rw [apply_eq_some]
    simpa [Nat.add_assoc] using Applies.moveBack p (m ++ [c]) a q
  · have hrem := vRemove_append (flags f p ++ flags f m ++ [false]) (flags f q) true
    have hins := vInsert_append (flags f p) (flags f m ++ false :: flags f q) true
    have h1 := findIndex_flags f p (true :: (flags f m ++ false :: flags f q))
    have h2 := findIndex_flags f (p ++ a :: m) (false :: flags f q)
    simp [ha, hc, Nat.add_assoc] at hrem hins h1 h2
    simp [filterMapBody, ha, hc, Nat.add_assoc, hrem, hins, h1, h2]

end Verif
