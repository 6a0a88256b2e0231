import Verif.Props.SignalVecMap

/-!
# `filter` and `filter_map` on any history, and exactly when they are right (C10, C11)
-/

namespace Verif

variable {α β : Type}

/-! ## One diff -/

/-- A move that breaks `MoveOk` takes a kept element towards the front over a filtered one directly
before it. -/
theorem not_moveOk {f : α → Option β} {d : VecDiff α} {xs ys : List α} (hd : d.apply xs = some ys)
    (h : ¬ MoveOk f d xs) : ∃ p m c a q b, f a = some b ∧ f c = none ∧
      d = .move (p.length + m.length + 1) p.length ∧ xs = p ++ m ++ c :: a :: q ∧
      ys = p ++ a :: m ++ c :: q := by
  rw [apply_eq_some] at hd
  cases hd with
  | moveBack p m a q =>
    simp only [MoveOk, Classical.not_imp, not_or, Classical.not_forall] at h
    obtain ⟨hlt, ⟨a', ha', hfa⟩, c', hc', hfc⟩ := h
    have hm : m ≠ [] := by intro e; subst e; simp at hlt
    obtain ⟨m', c, rfl⟩ : ∃ m' c, m = m' ++ [c] :=
      ⟨m.dropLast, m.getLast hm, (List.dropLast_concat_getLast hm).symm⟩
    simp at ha' hc'
    have e1 : a' = a := by grind
    have e2 : c' = c := by grind
    subst e1 e2
    obtain ⟨b, hb⟩ := Option.ne_none_iff_exists'.1 hfa
    exact ⟨p, m', c', a', q, b, hb, by simpa using hfc, by simp [Nat.add_assoc], by simp, by simp⟩
  | moveFwd p a m q =>
    exact absurd (fun hlt => by omega) h
  | _ => exact absurd trivial h

/-- The length a diff leaves. -/
def lenAfter (n : Nat) : VecDiff β → Nat
  | .replace vs => vs.length
  | .insertAt _ _ => n + 1
  | .updateAt _ _ => n
  | .removeAt _ => n - 1
  | .move _ _ => n
  | .push _ => n + 1
  | .pop => n - 1
  | .clear => 0

theorem apply_lenAfter {e : VecDiff β} {zs zs' : List β} (h : e.apply zs = some zs') :
    zs'.length = lenAfter zs.length e := by
  rw [apply_eq_some] at h
  cases h <;> simp [lenAfter] <;> omega

/-- The length it leaves depends only on the length. -/
theorem apply_length_eq {e : VecDiff β} {zs zs' us us' : List β} (hz : e.apply zs = some zs')
    (hu : e.apply us = some us') (h : zs.length = us.length) : zs'.length = us'.length := by
  rw [apply_lenAfter hz, apply_lenAfter hu, h]

/-- The flags and the calls of the callback are right for every applicable diff; so is the number of
elements. -/
theorem filterMapBody_any (f : α → Option β) (log : List α) {d : VecDiff α} {xs ys : List α}
    (hd : d.apply xs = some ys) :
    (filterMapBody (logging f) (flags f xs, log) d = .cont (flags f ys, log ++ d.payload) ∧
      ys.filterMap f = xs.filterMap f) ∨
    ∃ e, filterMapBody (logging f) (flags f xs, log) d = .ret (flags f ys, log ++ d.payload) e ∧
      ∀ zs zs' : List β, zs.length = (xs.filterMap f).length → e.apply zs = some zs' →
        zs'.length = (ys.filterMap f).length := by
  by_cases hok : MoveOk f d xs
  · rcases filterMapBody_spec f log hd hok with h | ⟨e, h1, h2⟩
    · exact .inl h
    · exact .inr ⟨e, h1, fun zs zs' hl hz => apply_length_eq hz h2 hl⟩
  · obtain ⟨p, m, c, a, q, b, ha, hc, rfl, rfl, rfl⟩ := not_moveOk hd hok
    have h2 := (C11_move_off_by_one f log p m c a q b ha hc).2
    refine .inr ⟨.move (((p ++ m ++ [c]).filterMap f).length + 1) (p.filterMap f).length,
      h2.trans (by simp only [VecDiff.payload, List.append_nil]), ?_⟩
    intro zs zs' hl hz
    rw [apply_lenAfter hz]
    simp [ha, hc] at hl ⊢
    simp only [lenAfter]
    omega

/-- Where `MoveOk` does not hold and no element is shown twice, what is sent is wrong. -/
theorem filterMapBody_exact (f : α → Option β) (log : List α) {d : VecDiff α} {xs ys : List α}
    (hd : d.apply xs = some ys) (hnd : (xs.filterMap f).Nodup) (hok : ¬ MoveOk f d xs) :
    ∃ s e, filterMapBody (logging f) (flags f xs, log) d = .ret s e ∧
      e.apply (xs.filterMap f) ≠ some (ys.filterMap f) := by
  obtain ⟨p, m, c, a, q, b, ha, hc, rfl, rfl, rfl⟩ := not_moveOk hd hok
  refine ⟨_, _, (C11_move_off_by_one f log p m c a q b ha hc).2, ?_⟩
  intro h
  simp only [List.filterMap_append, List.filterMap_cons, ha, hc, List.length_append,
    List.filterMap_nil, List.append_nil] at h hnd
  generalize p.filterMap f = P at h hnd
  generalize m.filterMap f = M at h hnd
  generalize q.filterMap f = Q at h hnd
  cases Q with
  | nil => simp [VecDiff.apply, vRemove, Nat.add_assoc] at h
  | cons b' Q =>
    have h2 := (apply_eq_some.2 (Applies.moveBack P (M ++ [b]) b' Q))
    simp only [List.length_append, List.length_singleton, List.append_assoc, List.cons_append,
      List.nil_append, Nat.add_assoc] at h h2
    rw [h2] at h
    simp only [Option.some.injEq, List.append_cancel_left_eq, List.cons.injEq] at h
    have hb := h.1
    subst hb
    simp [List.nodup_append] at hnd

/-! ## Runs -/

/-- What is sent for a list of diffs. -/
def emitted (f : α → Option β) : List Bool × List α → List (VecDiff α) → Option (List (VecDiff β))
  | _, [] => some []
  | s, d :: ds =>
    match filterMapBody (logging f) s d with
    | .cont s => emitted f s ds
    | .ret s e => (emitted f s ds).map (e :: ·)
    | .panic => none

theorem run_emitted (f : α → Option β) (ds : List (VecDiff α)) (ix : List Bool) (log : List α)
    (h : List (Waker × Poll (Option (VecDiff α)))) {es : List (VecDiff β)}
    (he : emitted f (ix, log) ds = some es) :
    ∃ ws outs s, run (VFilterMap.poll (logging f)) (0 :: ws)
        ⟨ix, ⟨ds.map fun d => .ready (some d), h⟩, log⟩ = some (outs, s) ∧
      items outs = es ∧ s.signal.got = items (h.map (·.2)) ++ ds := by
  induction ds generalizing ix log h es with
  | nil =>
    cases he
    exact ⟨[], [.pending], _, rfl, rfl, by simp [Src.got, items_append]⟩
  | cons d ds ih =>
    simp only [emitted] at he
    split at he
    · rename_i s1 hb
      obtain ⟨ws, outs, s, h1, h2, h3⟩ := ih s1.1 s1.2 (h ++ [(0, .ready (some d))]) he
      refine ⟨ws, outs, s, ?_, h2, ?_⟩
      · rw [← h1]
        have hp : VFilterMap.poll (logging f) 0 ⟨ix, ⟨(d :: ds).map fun d => .ready (some d), h⟩, log⟩ =
            VFilterMap.poll (logging f) 0 ⟨s1.1, ⟨ds.map fun d => .ready (some d),
              h ++ [(0, .ready (some d))]⟩, s1.2⟩ := by
          simp only [VFilterMap.poll, Src.loop, List.map_cons, pollLoop, hb]
        simp only [run, hp]
      · rw [h3]; simp [items_append, items]
    · rename_i s1 e hb
      cases hes : emitted f s1 ds with
      | none => rw [hes] at he; cases he
      | some es' =>
        rw [hes] at he
        simp only [Option.map_some, Option.some.injEq] at he
        obtain ⟨ws, outs, s, h1, h2, h3⟩ := ih s1.1 s1.2 (h ++ [(0, .ready (some d))]) hes
        have hp : VFilterMap.poll (logging f) 0 ⟨ix, ⟨(d :: ds).map fun d => .ready (some d), h⟩, log⟩ =
            some (.ready (some e), ⟨s1.1, ⟨ds.map fun d => .ready (some d),
              h ++ [(0, .ready (some d))]⟩, s1.2⟩) := by
          simp only [VFilterMap.poll, Src.loop, List.map_cons, pollLoop, hb]
        refine ⟨0 :: ws, .ready (some e) :: outs, s, ?_, ?_, ?_⟩
        · rw [run]
          simp only [hp, h1]
        · simp [items, h2, he]
        · rw [h3]; simp [items_append, items]
    · cases he

theorem emitted_any (f : α → Option β) (ds : List (VecDiff α)) (xs zs : List α) (log : List α)
    (h : replay ds xs = some zs) : ∃ es, emitted f (flags f xs, log) ds = some es := by
  induction ds generalizing xs log with
  | nil => exact ⟨_, rfl⟩
  | cons d ds ih =>
    simp only [replay] at h
    split at h
    · rename_i ys hd
      simp only [emitted]
      rcases filterMapBody_any f log hd with ⟨h1, -⟩ | ⟨e, h1, -⟩
      · rw [h1]; exact ih ys _ h
      · obtain ⟨es, hes⟩ := ih ys (log ++ d.payload) h
        exact ⟨e :: es, by rw [h1]; simp [hes]⟩
    · cases h

theorem emitted_snoc (f : α → Option β) (ds : List (VecDiff α)) (d : VecDiff α) (xs ys : List α)
    (log : List α) (h : replay ds xs = some ys) {es : List (VecDiff β)}
    (he : emitted f (flags f xs, log) ds = some es) :
    ∃ log', emitted f (flags f xs, log) (ds ++ [d]) =
      (emitted f (flags f ys, log') [d]).map (es ++ ·) := by
  induction ds generalizing xs log es with
  | nil =>
    cases he; cases h
    exact ⟨log, by simp⟩
  | cons d' ds ih =>
    simp only [replay] at h
    split at h
    · rename_i us hd
      simp only [emitted, List.cons_append] at he ⊢
      rcases filterMapBody_any f log hd with ⟨h1, -⟩ | ⟨e, h1, -⟩
      · rw [h1] at he ⊢
        exact ih us _ h he
      · rw [h1] at he ⊢
        simp only at he ⊢
        cases hes : emitted f (flags f us, log ++ d'.payload) ds with
        | none => rw [hes] at he; cases he
        | some es' =>
          rw [hes] at he
          cases he
          obtain ⟨log', hl⟩ := ih us _ h hes
          refine ⟨log', ?_⟩
          rw [hl]
          simp only [emitted]
          cases filterMapBody (logging f) (flags f ys, log') d <;> simp
    · cases h

theorem feed_prefix {ok : VecDiff α → List α → Prop} {ds es : List (VecDiff α)} {xs : List α}
    (h : Feed ok (ds ++ es) xs) : Feed ok ds xs := by
  induction ds generalizing xs with
  | nil => trivial
  | cons d ds ih =>
    obtain ⟨h1, ys, h2, h3⟩ := h
    exact ⟨h1, ys, h2, ih h3⟩

theorem feed_snoc {ok : VecDiff α → List α → Prop} {ds : List (VecDiff α)} {d : VecDiff α}
    {xs ys zs : List α} (h : Feed ok ds xs) (hr : replay ds xs = some ys) (hok : ok d ys)
    (hd : d.apply ys = some zs) : Feed ok (ds ++ [d]) xs := by
  induction ds generalizing xs with
  | nil => cases hr; exact ⟨hok, zs, hd, trivial⟩
  | cons d' ds ih =>
    obtain ⟨h1, us, h2, h3⟩ := h
    simp only [replay, h2] at hr
    exact ⟨h1, us, h2, ih h3 hr⟩

/-- **C11**, exactly when `filter_map` is right.  Let no element be shown twice.  Then a history is
shown rightly, at every moment of every run over it or a part of it, if and only if no move takes a
kept element towards the front over a filtered element directly before it. -/
theorem C11_filter_map_exact (f : α → Option β) (ds : List (VecDiff α)) (z : List α)
    (hr : replay ds [] = some z)
    (hnd : ∀ g xs, g <+: ds → replay g [] = some xs → (xs.filterMap f).Nodup) :
    Feed (MoveOk f) ds [] ↔
      ∀ script ws outs s xs, items script <+: ds →
        run (VFilterMap.poll (logging f)) ws (VFilterMap.init [] script) = some (outs, s) →
        replay s.signal.got [] = some xs → replay (items outs) [] = some (xs.filterMap f) := by
  constructor
  · intro hf script ws outs s xs hp h1 h2
    obtain ⟨t, rfl⟩ := hp
    obtain ⟨outs', s', xs', g1, g2, g3, -⟩ := C11_filter_map_partial f script (feed_prefix hf) ws
    rw [h1] at g1
    cases g1
    rw [h2] at g2
    cases g2
    exact g3
  · intro h
    have key : ∀ n, n ≤ ds.length → Feed (MoveOk f) (ds.take n) [] := by
      intro n
      induction n with
      | zero => intro _; trivial
      | succ n ih =>
        intro hn
        have ih := ih (by omega)
        have he : ds.take (n + 1) = ds.take n ++ [ds[n]] := by simp
        obtain ⟨ys, hy, hz⟩ : ∃ ys, replay (ds.take n) [] = some ys ∧ ∃ us, ds[n].apply ys = some us := by
          rw [← List.take_append_drop (n + 1) ds, he, replay_append, replay_append] at hr
          cases hy : replay (ds.take n) [] with
          | none => simp [hy] at hr
          | some ys =>
            refine ⟨ys, rfl, ?_⟩
            cases hu : ds[n].apply ys with
            | none => simp [hy, replay, hu] at hr
            | some us => exact ⟨us, rfl⟩
        obtain ⟨us, hu⟩ := hz
        rw [he]
        refine feed_snoc ih hy ?_ hu
        apply Classical.byContradiction
        intro hno
        obtain ⟨es, hes⟩ := emitted_any f (ds.take n) [] ys [] hy
        obtain ⟨log', hl⟩ := emitted_snoc f (ds.take n) ds[n] [] ys [] hy hes
        have hdn : (ys.filterMap f).Nodup := hnd _ _ (List.take_prefix _ _) hy
        obtain ⟨s1, e, hb, hne⟩ := filterMapBody_exact f log' hu hdn hno
        have hl2 : emitted f (flags f [], []) (ds.take n ++ [ds[n]]) = some (es ++ [e]) := by
          rw [hl]; simp [emitted, hb]
        have right : ∀ g es' us', g <+: ds → emitted f (flags f [], []) g = some es' →
            replay g [] = some us' → replay es' [] = some (us'.filterMap f) := by
          intro g es' us' hg he' hu'
          obtain ⟨ws, outs, s, r1, r2, r3⟩ := run_emitted f g [] [] [] he'
          have hi : items (g.map fun d => (Poll.ready (some d))) = g := by
            clear he' hu' hg r1 r3
            induction g with
            | nil => rfl
            | cons d g ih => simp [ih]
          have := h (g.map fun d => .ready (some d)) (0 :: ws) outs s us' (by rw [hi]; exact hg) r1
            (by rw [r3]; simpa [items] using hu')
          rw [r2] at this
          exact this
        have r1 := right _ _ _ (List.take_prefix n ds) hes hy
        have r2 := right _ _ us (by rw [← he]; exact List.take_prefix _ ds) hl2
          (replay_append_some hy (by simp [replay, hu]))
        have r3 : replay (es ++ [e]) [] = replay [e] (ys.filterMap f) := by
          rw [replay_append, r1]; rfl
        rw [r3] at r2
        simp only [replay] at r2
        split at r2
        · rename_i h5
          cases r2
          exact hne h5
        · cases r2
    have := key ds.length (Nat.le_refl _)
    simpa using this

/-- **C10**, exactly when `filter` is right. -/
theorem C10_filter_exact (p : α → Bool) (ds : List (VecDiff α)) (z : List α)
    (hr : replay ds [] = some z)
    (hnd : ∀ g xs, g <+: ds → replay g [] = some xs → (xs.filter p).Nodup) :
    Feed (MoveOk (keep p)) ds [] ↔
      ∀ script ws outs s xs, items script <+: ds →
        run (VFilter.poll (logging p)) ws (VFilterMap.init [] script) = some (outs, s) →
        replay s.signal.got [] = some xs → replay (items outs) [] = some (xs.filter p) := by
  have e1 : VFilter.poll (logging p) = VFilterMap.poll (logging (keep p)) := by
    funext w m; rfl
  have e2 : ∀ xs : List α, xs.filterMap (keep p) = xs.filter p := by
    intro xs
    induction xs with
    | nil => rfl
    | cons a xs ih => by_cases h : p a <;> simp [keep, h, List.filterMap_cons, List.filter_cons] at ih ⊢ <;> exact ih
  have := C11_filter_map_exact (keep p) ds z hr (by simpa only [e2] using hnd)
  rw [e1]
  simpa only [e2] using this

/-- **C11**, any history: `filter_map` never panics, calls its callback once for each value carried by
a consumed diff, in order, and wherever its output can be replayed the list shown has the right
number of elements. -/
theorem C11_filter_map_any (f : α → Option β) (script : List (Poll (Option (VecDiff α)))) (z : List α)
    (hr : replay (items script) [] = some z) (ws : List Waker) :
    ∃ outs s xs, run (VFilterMap.poll (logging f)) ws (VFilterMap.init [] script) = some (outs, s) ∧
      replay s.signal.got [] = some xs ∧ s.st = s.signal.got.flatMap VecDiff.payload ∧
      ∀ ys, replay (items outs) [] = some ys → ys.length = (xs.filterMap f).length := by
  have gen : ∀ ws (s : VFilterMap (List α) α) xs, ¬ s.signal.ended → Valid anyDiff s.signal xs →
      s.indexes = flags f xs → s.st = s.signal.got.flatMap VecDiff.payload →
      ∃ outs s' xs', run (VFilterMap.poll (logging f)) ws s = some (outs, s') ∧
        replay s'.signal.got [] = some xs' ∧ s'.st = s'.signal.got.flatMap VecDiff.payload ∧
        ∀ us ys, us.length = (xs.filterMap f).length → replay (items outs) us = some ys →
          ys.length = (xs'.filterMap f).length := by
    intro ws
    induction ws with
    | nil =>
      intro s xs _ hv _ hst
      exact ⟨[], s, xs, rfl, hv.now, hst, fun us ys hl h => by cases h; exact hl⟩
    | cons w ws ih =>
      intro s xs hne hv hix hst
      obtain ⟨st, s', src', g1, g2, g3⟩ := Src.loop_rule (w := w) (body := filterMapBody (logging f))
        (fun s g t => ∃ zs, replay g [] = some zs ∧ Feed anyDiff t zs ∧ s.1 = flags f zs ∧
          s.2 = g.flatMap VecDiff.payload ∧ zs.filterMap f = xs.filterMap f)
        (fun (e : VecDiff β) s g t => ∃ zs, replay g [] = some zs ∧ Feed anyDiff t zs ∧
          s.1 = flags f zs ∧ s.2 = g.flatMap VecDiff.payload ∧
          ∀ us us', us.length = (xs.filterMap f).length → e.apply us = some us' →
            us'.length = (zs.filterMap f).length)
        (by
          rintro ⟨ix, log⟩ g d t ⟨zs, hg, ⟨hok, zs', hd, ht⟩, h1, h2, h3⟩
          simp only at h1 h2
          subst h1 h2
          have hg' : replay (g ++ [d]) [] = some zs' := replay_append_some hg (by simp [replay, hd])
          rcases filterMapBody_any f (g.flatMap VecDiff.payload) hd with ⟨e1, e2⟩ | ⟨e, e1, e2⟩
          · rw [e1]
            exact ⟨zs', hg', ht, rfl, by simp, e2.trans h3⟩
          · rw [e1]
            exact ⟨zs', hg', ht, rfl, by simp, by rw [← h3]; exact e2⟩)
        s.signal (s.indexes, s.st) hne ⟨xs, hv.now, hv.rest, hix, hst, rfl⟩
      obtain ⟨ix, k⟩ := s'
      match st with
      | .panic => exact g3.elim
      | .ret e =>
        obtain ⟨⟨zs, a1, a2, a3, a4, a5⟩, hne'⟩ := g3
        obtain ⟨outs, s2, xs', b1, b2, b3, b4⟩ := ih ⟨ix, src', k⟩ zs hne' ⟨a1, a2⟩ a3 a4
        have hp : VFilterMap.poll (logging f) w s = some (.ready (some e), ⟨ix, src', k⟩) := by
          simp [VFilterMap.poll, g1]
        refine ⟨.ready (some e) :: outs, s2, xs', by rw [run]; simp only [hp, b1], b2, b3, ?_⟩
        intro us ys hl h
        simp only [items, replay] at h
        split at h
        · rename_i us' hu
          exact b4 us' ys (a5 us us' hl hu) h
        · cases h
      | .ended =>
        obtain ⟨⟨zs, a1, a2, a3, a4, a5⟩, -⟩ := g3
        have hp : VFilterMap.poll (logging f) w s = some (.ready none, ⟨ix, src', k⟩) := by
          simp [VFilterMap.poll, g1]
        refine ⟨[.ready none], ⟨ix, src', k⟩, zs, by rw [run]; simp only [hp], a1, a4, ?_⟩
        intro us ys hl h
        cases h
        rw [a5]; exact hl
      | .pending =>
        obtain ⟨⟨zs, a1, a2, a3, a4, a5⟩, hne', -⟩ := g3
        obtain ⟨outs, s2, xs', b1, b2, b3, b4⟩ := ih ⟨ix, src', k⟩ zs hne' ⟨a1, a2⟩ a3 a4
        have hp : VFilterMap.poll (logging f) w s = some (.pending, ⟨ix, src', k⟩) := by
          simp [VFilterMap.poll, g1]
        refine ⟨.pending :: outs, s2, xs', by rw [run]; simp only [hp, b1], b2, b3, ?_⟩
        intro us ys hl h
        exact b4 us ys (by rw [hl, a5]) h
  obtain ⟨outs, s, xs, h1, h2, h3, h4⟩ := gen ws (VFilterMap.init [] script) [] (not_ended_mk' _)
    (valid_mk' (feed_any.2 ⟨z, hr⟩)) rfl rfl
  exact ⟨outs, s, xs, h1, h2, h3, fun ys h => h4 [] ys rfl h⟩

/-! ## The hypotheses are met -/

/-- No element is shown twice; the history has a move towards the front that is shown rightly and one
that is not. -/
example : ∀ g xs, g <+: ([.replace [1, 2, 3, 5], .move 3 0, .pop, .move 2 1] : List (VecDiff Nat)) →
    replay g [] = some xs → (xs.filter fun n => n % 2 == 1).Nodup := by
  intro g xs hg h
  simp only [List.prefix_cons_iff, List.prefix_nil] at hg
  rcases hg with rfl | ⟨g, rfl, rfl | ⟨g, rfl, rfl | ⟨g, rfl, rfl | ⟨g, rfl, rfl⟩⟩⟩⟩ <;>
    cases h <;> decide

example : replay ([.replace [1, 2, 3, 5], .move 3 0, .pop, .move 2 1] : List (VecDiff Nat)) [] =
    some [5, 2, 1] := by decide

end Verif
