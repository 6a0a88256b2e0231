import Verif.MapProofs
import Verif.Props.MutableBTreeMap
import Verif.Props.Polite1
import Verif.Props.SignalVecSignal

/-!
# The `SignalMap` combinators (properties C26–C30, and C57–C59 for them)

Inputs are scripts, as for `SignalVec`.  A history is well-formed if its diffs can be applied one
after the other to the empty map (`mreplay … noKeys`).
-/

namespace Verif

variable {K V W β κ : Type}

theorem sorted_ext [LinearOrder K] {l l' : List K} (h : l.Pairwise (· < ·)) (h' : l'.Pairwise (· < ·))
    (hm : ∀ k, k ∈ l ↔ k ∈ l') : l = l' := by
  have key : l.map (fun k => (k, ())) = l'.map (fun k => (k, ())) := by
    refine mapOf_inj ?_ ?_ ?_
    · unfold Ascending; rw [List.pairwise_map]; exact h
    · unfold Ascending; rw [List.pairwise_map]; exact h'
    · funext k
      have e1 := mapOf_isSome (l := l.map (fun k => (k, ()))) (k := k)
      have e2 := mapOf_isSome (l := l'.map (fun k => (k, ()))) (k := k)
      simp only [List.map_map, Function.comp_def, List.map_id'] at e1 e2
      rw [hm k, ← e2] at e1
      cases h1 : mapOf (l.map (fun k => (k, ()))) k <;>
        cases h2 : mapOf (l'.map (fun k => (k, ()))) k <;> simp_all
  have := congrArg (List.map (·.1)) key
  simpa [List.map_map, Function.comp_def] using this

theorem mfeed_any [DecidableEq K] {ds : List (MapDiff K V)} {m : K → Option V}
    (h : ∃ m', mreplay ds m = some m') : MFeed (fun _ => True) ds m := by
  obtain ⟨m', h⟩ := h
  exact mfeed_of_replay h (fun _ _ => trivial)

/-- The input of the examples. -/
def demoMap : List (Poll (Option (MapDiff Nat Nat))) :=
  [.ready (some (.replace [(2, 20), (5, 50)])), .ready (some (.insert 3 30)), .pending,
   .ready (some (.update 5 51)), .ready (some (.remove 2)), .pending,
   .ready (some (.insert 1 10)), .ready none]

/-! ## `always` -/

/-- **C23 for `signal_map::always`.**  The answers are: all the entries at once, then the end. -/
theorem C23_map_always (entries : List (K × V)) (ws : List Waker) :
    ∃ s, run MAlways.poll ws (⟨some entries⟩ : MAlways K V) =
      some ([.ready (some (.replace entries)), .ready none].take ws.length, s) := by
  match ws with
  | [] => exact ⟨_, rfl⟩
  | [_] => exact ⟨_, rfl⟩
  | _ :: _ :: ws => exact ⟨⟨none⟩, by simp [run, MAlways.poll]⟩

example : (run MAlways.poll [0, 1, 2] (⟨some [(1, 10), (2, 20)]⟩ : MAlways Nat Nat)).map (·.1) =
    some [.ready (some (.replace [(1, 10), (2, 20)])), .ready none] := by decide

/-! ## `map_value` -/

/-- **C28.**  `map_value`: for every well-formed input history, every schedule of polls and every
`f`, no poll panics, the emitted diffs describe at every moment the map described by the consumed
diffs with every value mapped by `f`, and the callback was called once for each value carried by a
consumed diff, in order. -/
theorem C28_map_value [DecidableEq K] (f : V → W) (script : List (Poll (Option (MapDiff K V))))
    (hwf : ∃ m, mreplay (items script) noKeys = some m) (ws : List Waker) :
    ∃ outs s m, run (MMapValue.poll (logging f)) ws (MMapValue.init [] script) = some (outs, s) ∧
      mreplay s.signal.got noKeys = some m ∧
      mreplay (items outs) noKeys = some (fun k => (m k).map f) ∧
      s.st = s.signal.got.flatMap MapDiff.payload := by
  obtain ⟨outs, s, ys, h1, h2, h3, h4, h5⟩ := map_run (poll := MMapValue.poll (logging f))
    (fun s y => ¬ s.signal.ended ∧ s.st = s.signal.got.flatMap MapDiff.payload ∧
      ∃ m, MValid (fun _ => True) s.signal m ∧ y = fun k => (m k).map f)
    (fun _ s y => ¬ s.signal.ended ∧ s.st = s.signal.got.flatMap MapDiff.payload ∧
      ∃ m, MValid (fun _ => True) s.signal m ∧ y = fun k => (m k).map f)
    (fun s y => s.st = s.signal.got.flatMap MapDiff.payload ∧
      ∃ m, MValid (fun _ => True) s.signal m ∧ y = fun k => (m k).map f)
    (fun _ _ _ h => h)
    (by
      rintro w s ys ⟨hne, hst, m, hv, rfl⟩
      obtain ⟨r, src', m', h1, h2, h3, g3, h4⟩ := Src.mpoll_rule w s.signal m hne hv
      match r with
      | .ready (some d) =>
        obtain ⟨-, hd, he⟩ := h4
        refine ⟨.ready (some (d.map f)), ⟨src', s.st ++ d.payload⟩, ?_, fun k => (m' k).map f, ?_, he, ?_,
          m', h3, rfl⟩
        · simp [MMapValue.poll, h1, MapDiff.mapS_logging]
        · rw [map_apply', hd]; rfl
        · simp [g3, hst]
      | .ready none =>
        obtain ⟨rfl, he⟩ := h4
        exact ⟨.ready none, ⟨src', s.st⟩, by simp [MMapValue.poll, h1], by simp [g3, hst], m', h3, rfl⟩
      | .pending =>
        obtain ⟨rfl, he, -⟩ := h4
        exact ⟨.pending, ⟨src', s.st⟩, by simp [MMapValue.poll, h1], he, by simp [g3, hst], m', h3, rfl⟩)
    ws (MMapValue.init [] script) noKeys
    ⟨not_ended_mk' _, rfl, noKeys, mvalid_mk' (mfeed_any hwf), rfl⟩
  by_cases he : .ready none ∈ outs
  · obtain ⟨hst, xs, hv, rfl⟩ := h5 he
    exact ⟨outs, s, xs, h1, hv.now, h2, hst⟩
  · obtain ⟨-, hst, xs, hv, rfl⟩ := h3 he
    exact ⟨outs, s, xs, h1, hv.now, h2, hst⟩

example : ((mreplay (items demoMap) noKeys).map fun m => (m 1, m 3, m 5)) =
    some (some 10, some 30, some 51) := by decide
example : ((run (MMapValue.poll (logging (· + 1))) (List.replicate 20 0)
      (MMapValue.init [] demoMap)).map (fun q => (items q.1, q.2.st))) =
    some ([.replace [(2, 21), (5, 51)], .insert 3 31, .update 5 52, .remove 2, .insert 1 11],
      [20, 50, 30, 51, 10]) := by decide

/-- `map_value` (C57, C58, C59). -/
theorem C57_map_value (f : κ → V → W × κ) (k : κ) (script : List (Poll (Option (MapDiff K V)))) :
    Polite (MMapValue.poll f) (·.signal) (MMapValue.init k script) := by
  refine polite_of_step (fun s => ¬ s.signal.ended) (fun s h => fused_of_not_ended h) ?_ _
    (not_ended_mk' _)
  intro w s r s' hl hp
  obtain ⟨q, src', h1, h2, h3, h4⟩ := Src.poll_any w s.signal hl
  simp only [MMapValue.poll, h1] at hp
  cases q with
  | pending => cases hp; exact ⟨by simpa using h3, h4 rfl⟩
  | ready x =>
    cases x with
    | none => cases hp; exact ⟨h2, h3.2 rfl⟩
    | some a => cases hp; simpa using h3

/-! ## `key_cloned` -/

section
variable [DecidableEq K]

/-- The loop of `key_cloned` on a well-formed history, without assuming that the input has not
ended. -/
theorem watch_loop (w : Waker) (key : K) (src : Src (Option (MapDiff K V))) (m : K → Option V)
    (hv : MValid (fun _ => True) src m) :
    ∃ st changed src' m', src.loop w (watchBody key) none = (st, changed, src') ∧
      (st = .ended ∨ st = .pending) ∧ MValid (fun _ => True) src' m' ∧
      WatchInv key m changed m' ∧ (st = .ended → src'.ended) ∧ (st = .pending → src'.armed w) := by
  have key := pollLoop_rule (w := w) (body := watchBody key)
    (fun c src => ∃ m', MValid (fun _ => True) src m' ∧ WatchInv key m c m')
    (fun st c src' => ∃ m', (st = .ended ∨ st = .pending) ∧ MValid (fun _ => True) src' m' ∧
      WatchInv key m c m' ∧ (st = .ended → src'.ended) ∧ (st = .pending → src'.armed w))
    (by
      rintro c d t h c' ⟨m1, hv, hw⟩ hb
      obtain ⟨hn, -, m2, hd, hr⟩ := hv
      obtain ⟨c2, e1, e2⟩ := watchBody_spec key m c m1 m2 d hw hd
      rw [e1] at hb
      cases hb
      refine ⟨m2, ⟨?_, hr⟩, e2⟩
      rw [got_snoc]
      simp only [items_some, items_nil]
      exact (mreplay_snoc (d := d) hn).trans hd)
    (by intro c d t h c' r; exact r.elim)
    (by
      rintro c d t h ⟨m1, hv, hw⟩ hb
      obtain ⟨hn, -, m2, hd, hr⟩ := hv
      obtain ⟨c2, e1, e2⟩ := watchBody_spec key m c m1 m2 d hw hd
      rw [e1] at hb
      cases hb)
    (by
      rintro c t h ⟨m1, hv, hw⟩
      exact ⟨m1, .inl rfl, ⟨by rw [got_snoc]; simp only [items_none, items_pending, items_nil, List.append_nil]; exact hv.now, hv.rest⟩, hw,
        fun _ => ended_snoc _ _ _, by simp⟩)
    (by
      rintro c t t' h ⟨m1, hv, hw⟩ ht
      refine ⟨m1, .inr rfl, ⟨by rw [got_snoc]; simp only [items_none, items_pending, items_nil, List.append_nil]; exact hv.now, ?_⟩, hw, by simp,
        fun _ => armed_snoc _ _ _⟩
      have := hv.rest
      rcases ht with rfl | ⟨rfl, rfl⟩
      · simpa using this
      · exact this)
    src none ⟨m, hv, rfl⟩
  obtain ⟨m', h⟩ := key
  exact ⟨_, _, _, m', rfl, h⟩

/-- **C30** (values).  `key_cloned`: for every well-formed input history, every key and every
schedule of polls: no poll panics, the first poll answers with a value, and after every poll the
most recent value is what the map described by the consumed diffs holds for the key (`None` if
nothing).  With `ws` any prefix of a schedule, this says that each value is right when produced, and
that no change of the key goes unreported. -/
theorem C30_key_cloned (key : K) (script : List (Poll (Option (MapDiff K V))))
    (hwf : ∃ m, mreplay (items script) noKeys = some m) (ws : List Waker) (hws : ws ≠ []) :
    ∃ outs s m, run MWatch.poll ws (MWatch.init key script) = some (outs, s) ∧
      (∃ v, outs.head? = some (.ready (some v))) ∧
      mreplay s.signal.got noKeys = some m ∧
      (items outs).getLast? = some (m key) := by
  obtain ⟨outs, s, h1, m, h2, h3, h4, h5⟩ := inv_run (poll := MWatch.poll)
    (fun outs s => ∃ m, MValid (fun _ => True) s.signal m ∧ s.watchKey = key ∧
      (outs = [] → s.first = true ∧ m key = none) ∧
      (outs ≠ [] → s.first = false ∧ (∃ v, outs.head? = some (.ready (some v))) ∧
        (items outs).getLast? = some (m key)))
    (by
      rintro w outs ⟨src, k, first⟩ ⟨m, hv, hk, h0, h1⟩
      simp only at hv hk h0 h1
      subst hk
      obtain ⟨st, c, src', m', e1, e2, e3, e4, e5⟩ := watch_loop w k src m hv
      have : MWatch.poll w ⟨src, k, first⟩ = some (MWatch.finish (decide (st = .ended)) c src' k first) := by
        unfold MWatch.poll
        rw [e1]
        rcases e2 with rfl | rfl <;> simp
      rw [this]
      generalize decide (st = .ended) = dn
      cases c with
      | some v =>
        have hv' : v = m' k := e4
        subst hv'
        refine ⟨_, _, rfl, m', e3, rfl, by simp, fun _ => ⟨rfl, ?_, by simp [items_append]⟩⟩
        cases outs with
        | nil => exact ⟨_, rfl⟩
        | cons o outs => exact (h1 (by simp)).2.1
      | none =>
        have he : m' k = m k := e4
        cases outs with
        | nil =>
          obtain ⟨hf, hm⟩ := h0 rfl
          subst hf
          refine ⟨.ready (some none), ⟨src', k, false⟩, rfl, m', e3, rfl, by simp, fun _ => ⟨rfl, ⟨_, rfl⟩, ?_⟩⟩
          simp [he, hm]
        | cons o outs =>
          obtain ⟨hf, hh, hm⟩ := h1 (by simp)
          subst hf
          cases dn with
          | true =>
            refine ⟨.ready none, ⟨src', k, false⟩, rfl, m', e3, rfl, by simp, fun _ => ⟨rfl, hh, ?_⟩⟩
            rw [items_append]; simpa [he] using hm
          | false =>
            refine ⟨.pending, ⟨src', k, false⟩, rfl, m', e3, rfl, by simp, fun _ => ⟨rfl, hh, ?_⟩⟩
            rw [items_append]; simpa [he] using hm)
    ws (MWatch.init key script)
    ⟨noKeys, mvalid_mk' (mfeed_any hwf), rfl, fun _ => ⟨rfl, rfl⟩, by simp⟩
  have hne : outs ≠ [] := by
    rintro rfl
    exact run_ne_nil h1 hws rfl
  obtain ⟨-, h6, h7⟩ := h5 hne
  exact ⟨outs, s, m, h1, h6, h2.now, h7⟩

example : (run MWatch.poll [0] (MWatch.init 5 demoMap)).map (·.1) = some [.ready (some (some 50))] ∧
    (run MWatch.poll [0, 0] (MWatch.init 2 demoMap)).map (·.1) =
      some [.ready (some (some 20)), .ready (some none)] ∧
    (run MWatch.poll [0, 0, 0, 0] (MWatch.init 7 demoMap)).map (·.1) =
      some [.ready (some none), .pending, .ready none] := by decide

/-- **C30 is false in its last clause** (C58 for `key_cloned`): if the change of the key and the end
arrive in the same poll, the value is returned, the end is forgotten, and the next poll polls the
`SignalMap` again although it has ended. -/
theorem C30_key_cloned_fails :
    ∃ (script : List (Poll (Option (MapDiff Nat Nat)))) (outs : List (Poll (Option (Option Nat))))
      (s : MWatch Nat Nat),
      run MWatch.poll [0, 0] (MWatch.init 1 script) = some (outs, s) ∧
      .ready none ∉ outs ∧ ¬ s.signal.fused := by
  refine ⟨[.ready (some (.replace [(1, 10)])), .ready none],
    [.ready (some (some 10)), .pending], _, rfl, by decide, ?_⟩
  intro h
  have := h [(0, .ready (some (.replace [(1, 10)])))] 0 [(0, .pending)] rfl
  cases this

/-- The same on the very first poll: an input that ends at once is polled again. -/
theorem C30_key_cloned_fails_first :
    ∃ (script : List (Poll (Option (MapDiff Nat Nat)))) (outs : List (Poll (Option (Option Nat))))
      (s : MWatch Nat Nat),
      run MWatch.poll [0, 0] (MWatch.init 1 script) = some (outs, s) ∧
      .ready none ∉ outs ∧ ¬ s.signal.fused := by
  refine ⟨[.ready none], [.ready (some none), .pending], _, rfl, by decide, ?_⟩
  intro h
  have := h [] 0 [(0, .pending)] rfl
  cases this

/-- Every end in a list of answers comes right after a `Pending`. -/
def EndAfterPending {α : Type} (l : List (Poll (Option α))) : Prop :=
  ∀ pre post, l = pre ++ .ready none :: post → pre.getLast? = some .pending

/-- **C30, C57, C58, C59** (partial).  `key_cloned` on arbitrary inputs that report their end only
after having answered `Pending` (so the end does not arrive together with a change).  Missing for
the full claim: other inputs, for which C58 is false (`C30_key_cloned_fails`). -/
theorem C30_key_cloned_polite_partial (key : K) (script : List (Poll (Option (MapDiff K V))))
    (hend : EndAfterPending script) :
    Polite MWatch.poll (·.signal) (MWatch.init key script) := by
  refine polite_of_step (fun s => ¬ s.signal.ended ∧
      EndAfterPending (s.signal.hist.map (·.2) ++ s.signal.todo) ∧
      (s.signal.hist ≠ [] → s.first = false)) (fun s h => fused_of_not_ended h.1) ?_ _
    ⟨not_ended_mk' _, by simpa [MWatch.init, Src.mk'] using hend, fun h => absurd rfl h⟩
  rintro w ⟨src, k, first⟩ r s' ⟨hl, he, hf⟩ hp
  simp only at hl he hf
  have main := pollLoop_rule (w := w) (body := watchBody (V := V) k)
    (fun c s => ¬ s.ended ∧ EndAfterPending (s.hist.map (·.2) ++ s.todo) ∧
      (s.hist = [] → c = none) ∧ (∀ w', s.hist.getLast? = some (w', .pending) → c = none) ∧
      ((c = none ∧ s.hist = src.hist) ∨ ∃ w' d, s.hist.getLast? = some (w', .ready (some d))))
    (fun st c s => match st with
      | .ended => s.fused ∧ s.ended ∧ c = none ∧ src.hist ≠ []
      | .pending => ¬ s.ended ∧ EndAfterPending (s.hist.map (·.2) ++ s.todo) ∧ s.armed w
      | .ret _ => True
      | .panic => True)
    (by
      rintro c d t h c' ⟨h1, h2, h3, h4⟩ hb
      refine ⟨not_ended_snoc h1 (by simp), by simpa using h2, by simp, by simp, .inr ?_⟩
      exact ⟨w, d, by simp⟩)
    (by intro c d t h c' r; exact r.elim)
    (by intro c d t h _ _; trivial)
    (by
      rintro c t h ⟨h1, h2, h3, h4, h5⟩
      have hlast := h2 (h.map (·.2)) t rfl
      rw [List.getLast?_map] at hlast
      cases hh : h.getLast? with
      | none => rw [hh] at hlast; cases hlast
      | some x =>
        obtain ⟨w', x⟩ := x
        rw [hh] at hlast
        simp only [Option.map_some, Option.some.injEq] at hlast
        subst hlast
        refine ⟨fused_snoc h1, ended_snoc _ _ _, h4 w' hh, ?_⟩
        rcases h5 with ⟨-, h5⟩ | ⟨w2, d, h5⟩
        · simp only at h5
          rw [← h5]
          rintro rfl
          cases hh
        · simp only at h5
          rw [hh] at h5
          cases h5)
    (by
      rintro c t t' h ⟨h1, h2, h3, h4, h5⟩ ht
      refine ⟨not_ended_snoc h1 (by simp), ?_, armed_snoc _ _ _⟩
      rcases ht with rfl | ⟨rfl, rfl⟩
      · simpa using h2
      · simp only [List.append_nil] at h2
        intro pre post e
        simp only [List.map_append, List.map_cons, List.map_nil, List.append_nil] at e
        obtain ⟨post', rfl, hx⟩ : ∃ p', post = p' ++ [.pending] ∧ h.map (·.2) = pre ++ .ready none :: p' := by
          rcases List.eq_nil_or_concat post with rfl | ⟨p', x, rfl⟩
          · have := (List.append_inj' e rfl).2
            cases this
          · have e' : h.map (·.2) ++ [.pending] = (pre ++ .ready none :: p') ++ [x] := by
              rw [e]; simp
            obtain ⟨e1, e2⟩ := List.append_inj' e' rfl
            cases e2
            exact ⟨p', by simp, e1⟩
        exact h2 pre post' hx)
    src none ⟨hl, he, fun _ => rfl, fun _ _ => rfl, .inl ⟨rfl, rfl⟩⟩
  unfold MWatch.poll at hp
  simp only at hp
  obtain ⟨st, c, s1, e⟩ : ∃ a b d, src.loop w (watchBody (V := V) k) none = (a, b, d) := ⟨_, _, _, rfl⟩
  rw [e] at hp main
  cases st with
  | panic => cases hp
  | ret r => cases hp
  | ended =>
    obtain ⟨m1, m2, rfl, m3⟩ := main
    have hff := hf m3
    subst hff
    cases hp
    exact ⟨m1, m2⟩
  | pending =>
    obtain ⟨m1, m2, m3⟩ := main
    cases c with
    | some v => cases hp; exact ⟨m1, m2, fun _ => rfl⟩
    | none =>
      cases first with
      | true => cases hp; exact ⟨m1, m2, fun _ => rfl⟩
      | false => cases hp; exact ⟨⟨m1, m2, fun _ => rfl⟩, m3⟩

/-- `key_cloned`, on arbitrary inputs (C57, C59): after `Pending` the input is armed with the waker
of the last poll, and the end is reported only after the input ended. -/
theorem C57_key_cloned (key : K) (script : List (Poll (Option (MapDiff K V)))) (ws : List Waker)
    (outs : List (Poll (Option (Option V)))) (s : MWatch K V)
    (h : run MWatch.poll ws (MWatch.init key script) = some (outs, s)) :
    (.ready none ∈ outs → s.signal.ended) ∧
    (∀ w, ws.getLast? = some w → outs.getLast? = some .pending → s.signal.armed w) := by
  obtain ⟨-, h1, h2⟩ := any_run (poll := MWatch.poll) (fun _ : MWatch K V => True)
    (fun w s => s.signal.armed w) (fun s => s.signal.ended)
    (by
      rintro w ⟨src, k, first⟩ r s' - hp
      have main := pollLoop_rule (w := w) (body := watchBody (V := V) k) (fun _ _ => True)
        (fun st _ s => match st with
          | .ended => s.ended
          | .pending => s.armed w
          | .ret _ => True
          | .panic => True)
        (by intros; trivial) (by intros; trivial) (by intros; trivial)
        (by intros; exact ended_snoc _ _ _) (by intros; exact armed_snoc _ _ _)
        src none trivial
      unfold MWatch.poll at hp
      simp only at hp
      obtain ⟨st, c, s1, e⟩ : ∃ a b d, src.loop w (watchBody (V := V) k) none = (a, b, d) := ⟨_, _, _, rfl⟩
      rw [e] at hp main
      cases st with
      | panic => cases hp
      | ret r => cases hp
      | ended =>
        cases c with
        | some v => cases hp; trivial
        | none => cases first <;> cases hp; exacts [⟨trivial, main⟩, trivial]
      | pending =>
        cases c with
        | some v => cases hp; trivial
        | none => cases first <;> cases hp; exacts [⟨trivial, main⟩, trivial])
    trivial h
  exact ⟨h1, h2⟩

/-- The hypothesis of the partial theorem can be met by an input that changes the key and ends. -/
example : EndAfterPending [.ready (some (MapDiff.insert 1 10)), .pending, .ready none] := by
  intro pre post e
  match pre, e with
  | [_, _], e => cases e; rfl
  | _ :: _ :: _ :: pre, e => simp at e

end

/-! ## `map_value_signal` -/

section
variable [LinearOrder K]

/-- **C29.**  `map_value_signal`: for every well-formed input history, all inner signals that answer
their first poll with a value (`g v` is the script of the signal made from `v`) and every schedule of
polls: no poll panics, the emitted diffs are applicable, the inner signals held are, key by key,
those of the current values, and whenever the last answer is `Pending` or the end, the emitted diffs
describe the latest value of each of them. -/
theorem C29_map_value_signal (g : V → List (Poll (Option β))) (hg : Eager g)
    (script : List (Poll (Option (MapDiff K V))))
    (hwf : ∃ m, mreplay (items script) noKeys = some m) (ws : List Waker) :
    ∃ outs s m z, run (MMapSignal.poll g) ws (MMapSignal.init script) = some (outs, s) ∧
      mreplay (items outs) noKeys = some z ∧
      mreplay s.signal.src.got noKeys = some m ∧
      (∀ k, m k = (mapOf s.signals k).map (·.tag)) ∧
      (∀ e ∈ s.signals, e.2.sig.src.all = items (g e.2.tag)) ∧
      (outs.getLast? = some .pending ∨ .ready none ∈ outs →
        ∀ k, z k = (mapOf s.signals k).bind (·.sig.src.got.getLast?)) := by
  obtain ⟨outs, s, z, h1, h2, h3, h4, h5⟩ := map_run (poll := MMapSignal.poll g)
    (fun s z => ∃ m, MapValueInv g s m z)
    (fun _ s z => (∃ m, MapValueInv g s m z) ∧ s.pending = [])
    (fun s z => (∃ m, MapValueInv g s m z) ∧ s.pending = [])
    (fun _ _ _ h => h.1)
    (by
      rintro w s zs ⟨ts, h⟩
      obtain ⟨r, s', ts', g1, g2⟩ := MMapSignal.step hg w h
      refine ⟨r, s', g1, ?_⟩
      match r with
      | .ready (some d) => obtain ⟨zs', g3, g4⟩ := g2; exact ⟨zs', g3, ts', g4⟩
      | .ready none => exact ⟨⟨ts', g2.1⟩, g2.2.1⟩
      | .pending => exact ⟨⟨ts', g2.1⟩, g2.2.1⟩)
    ws (MMapSignal.init script) noKeys
    ⟨noKeys, Inp.ok_mk' _, mvalid_mk' (mfeed_any hwf), ⟨List.Pairwise.nil, by simp [MMapSignal.init]⟩,
      rfl, rfl⟩
  have hinv : ∃ m, MapValueInv g s m z := by
    by_cases he : .ready none ∈ outs
    · exact (h5 he).1
    · exact h3 he
  obtain ⟨m, hi⟩ := hinv
  refine ⟨outs, s, m, z, h1, h2, hi.valid.now, fun k => by rw [← hi.tags]; rfl,
    fun e he => (hi.sigs.ok e he).1.all, fun h => ?_⟩
  have hp : s.pending = [] := by
    rcases h with h | h
    · obtain ⟨w, hw⟩ : ∃ w, ws.getLast? = some w := by
        cases hw : ws.getLast? with
        | some w => exact ⟨w, rfl⟩
        | none =>
          rw [List.getLast?_eq_none_iff] at hw
          subst hw
          cases h1
          cases h
      exact (h4 w hw h).2
    · exact (h5 h).2
  have hq := hi.queue
  rw [hp] at hq
  simp only [mreplay, Option.some.injEq] at hq
  intro k
  rw [hq]
  rfl

example : ((run (MMapSignal.poll demoSignals) (List.replicate 30 0) (MMapSignal.init demoMap)).bind
    (fun q => (mreplay (items q.1) noKeys).map fun z => (z 1, z 2, z 3))) =
      some (some 102, none, some 302) := by decide
example : ((run (MMapSignal.poll demoSignals) (List.replicate 30 0) (MMapSignal.init demoMap)).bind
    (fun q => (mreplay (items q.1) noKeys).map fun z => z 5)) = some (some 512) := by decide
example : ((run (MMapSignal.poll demoSignals) (List.replicate 30 0) (MMapSignal.init demoMap)).map
    (fun q => (q.1.contains (.ready none), q.1.length))) = some (true, 12) := by decide
example : ((run (MMapSignal.poll demoSignals) [0, 0, 0]
    (MMapSignal.init (K := Nat) [.ready (some (.insert 1 10)), .pending, .pending])).map (·.1)) =
      some [.ready (some (.insert 1 100)), .pending, .ready (some (.update 1 101))] := by decide

theorem newEntries_ok {g : V → List (Poll (Option β))} {w : Waker} {es : List (K × V)}
    {bs : List (K × β)} {xs xs' : List (K × MState V β)} (hx : ∀ x ∈ xs, x.2.sig.Ok)
    (ha : Ascending xs) (h : newEntries g w es xs = some (bs, xs')) :
    (∀ x ∈ xs', x.2.sig.Ok) ∧ Ascending xs' := by
  induction es generalizing bs xs with
  | nil => cases h; exact ⟨hx, ha⟩
  | cons t ts ih =>
    simp only [newEntries] at h
    split at h
    · cases h
    · rename_i b s e1
      split at h
      · cases h
      · rename_i bs' ss e2
        cases h
        obtain ⟨-, i2, -, i4⟩ := bInsert_spec ha t.1 s
        refine ih ?_ i2 e2
        intro x hx'
        rcases i4 x hx' with rfl | h
        · exact MState.new_ok e1
        · exact hx x h

theorem bUpdate_isSome {k : K} {v : V} {l l' : List (K × V)} (h : bUpdate k v l = some l') :
    (mapOf l k).isSome := by
  induction l generalizing l' with
  | nil => cases h
  | cons e l ih =>
    simp only [bUpdate] at h
    simp only [mapOf]
    by_cases hk : k = e.1
    · simp [hk]
    · rw [if_neg hk] at h
      rw [if_neg (Ne.symm hk)]
      split at h
      · cases h
      · rename_i r hr; exact ih hr

theorem mapValueBody_ok {g : V → List (Poll (Option β))} {w : Waker}
    {q q' : List (K × MState V β) × List (MapDiff K β)} {d : MapDiff K V}
    (hq : (∀ x ∈ q.1, x.2.sig.Ok) ∧ Ascending q.1)
    (h : mapValueBody g w q d = .cont q') : (∀ x ∈ q'.1, x.2.sig.Ok) ∧ Ascending q'.1 := by
  obtain ⟨signals, np⟩ := q
  obtain ⟨h1, h2⟩ := hq
  simp only at h1 h2
  cases d with
  | replace es =>
    simp only [mapValueBody] at h
    split at h
    · cases h
    · rename_i e; cases h; exact newEntries_ok (by simp) List.Pairwise.nil e
  | insert k v =>
    simp only [mapValueBody] at h
    split at h
    · cases h
    · rename_i e
      cases h
      obtain ⟨-, i2, -, i4⟩ := bInsert_spec h2 k _
      refine ⟨fun x hx => ?_, i2⟩
      rcases i4 x hx with rfl | hx
      · exact MState.new_ok e
      · exact h1 x hx
  | update k v =>
    simp only [mapValueBody] at h
    split at h
    · cases h
    · rename_i b x e
      split at h
      · cases h
      · rename_i l e2
        cases h
        by_cases hk : (mapOf signals k).isSome
        · obtain ⟨l', u1, u2, u3, -⟩ := bUpdate_spec h2 k x hk
          rw [u1] at e2
          cases e2
          refine ⟨fun y hy => ?_, u2⟩
          have hm := mapOf_of_mem u2.nodup (k := y.1) (v := y.2) hy
          rw [u3] at hm
          simp only [upd] at hm
          split at hm
          · cases hm; exact MState.new_ok e
          · exact h1 _ (mapOf_mem hm)
        · exact (hk (bUpdate_isSome e2)).elim
  | remove k =>
    cases h
    obtain ⟨-, r2, -, r4⟩ := bRemove_spec h2 k
    exact ⟨fun x hx => h1 x (r4 x hx), r2⟩
  | clear => cases h; exact ⟨by simp, List.Pairwise.nil⟩

omit [LinearOrder K] in
theorem pollEntries_any (w : Waker) {xs xs' : List (K × MState V β)} (h : ∀ x ∈ xs, x.2.sig.Ok)
    {np np' : List (MapDiff K β)} {hp : Bool} (e : pollEntries w np xs = (hp, np', xs')) :
    (∀ x ∈ xs', x.2.sig.Ok) ∧ np.length ≤ np'.length ∧ xs'.map (·.1) = xs.map (·.1) ∧
      (np' = [] → (∀ x ∈ xs', Settled w x.2.sig) ∧
        (hp = false → ∀ x ∈ xs', x.2.sig.alive = false) ∧
        (hp = true → ∃ x ∈ xs', x.2.sig.src.armed w)) := by
  induction xs generalizing np np' xs' hp with
  | nil => simp only [pollEntries] at e; cases e; simp
  | cons x xs ih =>
    obtain ⟨r, i', a1, a2, a3⟩ := Inp.poll_any w x.2.sig (h x (by simp))
    have hrest := fun y hy => h y (List.mem_cons_of_mem x hy)
    rw [pollEntries, a1] at e
    obtain _ | ((_ | b) | _) := r
    · obtain ⟨hp1, np1, xs1, e1⟩ : ∃ a b c, pollEntries w np xs = (a, b, c) := ⟨_, _, _, rfl⟩
      simp only [e1] at e
      cases e
      obtain ⟨b1, b2, b0, b3⟩ := ih hrest e1
      refine ⟨List.forall_mem_cons.2 ⟨a2, b1⟩, b2, by simp [b0], fun hn => ?_⟩
      obtain ⟨c1, c2, c3⟩ := b3 hn
      refine ⟨List.forall_mem_cons.2 ⟨.inl a3, c1⟩, fun hh => List.forall_mem_cons.2 ⟨a3, c2 hh⟩,
        fun hh => ?_⟩
      obtain ⟨y, hy, e⟩ := c3 hh
      exact ⟨y, by simp [hy], e⟩
    · obtain ⟨hp1, np1, xs1, e1⟩ : ∃ a b c, pollEntries w np xs = (a, b, c) := ⟨_, _, _, rfl⟩
      simp only [e1] at e
      cases e
      obtain ⟨b1, b2, b0, b3⟩ := ih hrest e1
      refine ⟨List.forall_mem_cons.2 ⟨a2, b1⟩, b2, by simp [b0], fun hn => ?_⟩
      obtain ⟨c1, c2, c3⟩ := b3 hn
      refine ⟨List.forall_mem_cons.2 ⟨.inl a3, c1⟩, fun hh => List.forall_mem_cons.2 ⟨a3, c2 hh⟩,
        fun hh => ?_⟩
      obtain ⟨y, hy, e⟩ := c3 hh
      exact ⟨y, by simp [hy], e⟩
    · obtain ⟨hp1, np1, xs1, e1⟩ :
          ∃ a b' c, pollEntries w (np ++ [.update x.1 b]) xs = (a, b', c) := ⟨_, _, _, rfl⟩
      simp only [e1] at e
      cases e
      obtain ⟨b1, b2, b0, b3⟩ := ih hrest e1
      simp only [List.length_append, List.length_singleton] at b2
      refine ⟨List.forall_mem_cons.2 ⟨a2, b1⟩, by omega, by simp [b0], fun hn => ?_⟩
      simp [hn] at b2
    · obtain ⟨hp1, np1, xs1, e1⟩ : ∃ a b c, pollEntries w np xs = (a, b, c) := ⟨_, _, _, rfl⟩
      simp only [e1] at e
      cases e
      obtain ⟨b1, b2, b0, b3⟩ := ih hrest e1
      refine ⟨List.forall_mem_cons.2 ⟨a2, b1⟩, b2, by simp [b0], fun hn => ?_⟩
      obtain ⟨c1, c2⟩ := b3 hn
      exact ⟨List.forall_mem_cons.2 ⟨.inr a3.2, c1⟩, by simp, fun _ => ⟨_, List.mem_cons_self, a3.2⟩⟩

/-- **C57, C58, C59 for `map_value_signal`**, for all inputs and inner signals whatsoever, for as
long as no poll panics; as for `map_signal`. -/
theorem C57_map_value_signal (g : V → List (Poll (Option β)))
    (script : List (Poll (Option (MapDiff K V)))) (ws : List Waker)
    (outs : List (Poll (Option (MapDiff K β)))) (s : MMapSignal K V β)
    (h : run (MMapSignal.poll g) ws (MMapSignal.init script) = some (outs, s)) :
    (s.signal.src.fused ∧ ∀ e ∈ s.signals, e.2.sig.src.fused) ∧
    (.ready none ∈ outs → s.pending = [] ∧ s.signal.src.ended ∧ ∀ e ∈ s.signals, e.2.sig.src.ended) ∧
    (∀ w, ws.getLast? = some w → outs.getLast? = some .pending →
      (s.signal.src.ended ∨ s.signal.src.armed w) ∧
      (∀ e ∈ s.signals, e.2.sig.src.ended ∨ e.2.sig.src.armed w) ∧
      (s.signal.src.armed w ∨ ∃ e ∈ s.signals, e.2.sig.src.armed w)) := by
  obtain ⟨⟨a1, a2, -⟩, b, c⟩ := any_run (poll := MMapSignal.poll g)
    (fun s => s.signal.Ok ∧ (∀ e ∈ s.signals, e.2.sig.Ok) ∧ Ascending s.signals)
    (fun w s => (Settled w s.signal ∧ ∀ e ∈ s.signals, Settled w e.2.sig) ∧
      (s.signal.src.armed w ∨ ∃ e ∈ s.signals, e.2.sig.src.armed w))
    (fun s => s.pending = [] ∧ s.signal.alive = false ∧ ∀ e ∈ s.signals, e.2.sig.alive = false)
    (by
      rintro w ⟨sig, signals, pend⟩ r s' ⟨hs, hi⟩ hp
      unfold MMapSignal.poll at hp
      cases pend with
      | cons c rest => cases hp; exact ⟨hs, hi⟩
      | nil =>
        simp only at hp
        obtain ⟨st, ⟨sg, np⟩, i', h1, h2, h3, h4, h5⟩ := Inp.loop_any_inv w (mapValueBody g w)
          (fun q => (∀ x ∈ q.1, x.2.sig.Ok) ∧ Ascending q.1) (fun (r : Empty) _ => r.elim)
          (fun s a s' hp he => mapValueBody_ok hp he)
          (fun s a s' r => r.elim)
          sig (signals, []) hs hi
        rw [h1] at hp
        have hfin : ∀ top, (top = true → i'.alive = false) → (top = false → i'.src.armed w) →
            ((∀ x ∈ sg, x.2.sig.Ok) ∧ Ascending sg) → MMapSignal.finish w top i' sg np = (r, s') →
            Outcome (fun s => s.signal.Ok ∧ (∀ e ∈ s.signals, e.2.sig.Ok) ∧ Ascending s.signals)
              (fun s => (Settled w s.signal ∧ ∀ e ∈ s.signals, Settled w e.2.sig) ∧
                (s.signal.src.armed w ∨ ∃ e ∈ s.signals, e.2.sig.src.armed w))
              (fun s => s.pending = [] ∧ s.signal.alive = false ∧ ∀ e ∈ s.signals, e.2.sig.alive = false) r s' := by
          rintro top ht1 ht2 ⟨hi', hasc⟩ hf
          unfold MMapSignal.finish at hf
          obtain ⟨hp, np', xs, e⟩ : ∃ a b c, pollEntries w np sg = (a, b, c) := ⟨_, _, _, rfl⟩
          obtain ⟨b1, -, b0, b2⟩ := pollEntries_any w hi' e
          have hasc' := ascending_of_keys b0 hasc
          rw [e] at hf
          cases np' with
          | cons d rest => cases hf; exact ⟨h2, b1, hasc'⟩
          | nil =>
            obtain ⟨b3, b4, b5⟩ := b2 rfl
            simp only at hf
            by_cases hd : top && !hp
            · simp only [hd, if_true] at hf
              cases hf
              simp only [Bool.and_eq_true, Bool.not_eq_true'] at hd
              exact ⟨⟨h2, b1, hasc'⟩, rfl, ht1 hd.1, b4 hd.2⟩
            · simp only [hd] at hf
              cases hf
              refine ⟨⟨h2, b1, hasc'⟩, ⟨?_, b3⟩, ?_⟩
              · cases top with
                | true => exact .inl (ht1 rfl)
                | false => exact .inr (ht2 rfl)
              · cases top with
                | true => exact .inr (b5 (by simpa using hd))
                | false => exact .inl (ht2 rfl)
        cases st with
        | panic => cases hp
        | ret d => exact d.elim
        | ended => exact hfin true (fun _ => h3.2 rfl) (by simp) h5 (Option.some.inj hp)
        | pending => exact hfin false (by simp) (fun _ => h4 rfl) h5 (Option.some.inj hp))
    (s0 := MMapSignal.init script) ⟨Inp.ok_mk' _, by simp [MMapSignal.init], List.Pairwise.nil⟩ h
  refine ⟨⟨a1.fused, fun x hx => (a2 x hx).fused⟩, fun he => ?_, fun w hw hl => ?_⟩
  · exact ⟨(b he).1, a1.dead.2 (b he).2.1, fun x hx => (a2 x hx).dead.2 ((b he).2.2 x hx)⟩
  · obtain ⟨⟨d1, d2⟩, d3⟩ := c w hw hl
    exact ⟨d1.imp a1.dead.2 id, fun x hx => (d2 x hx).imp (a2 x hx).dead.2 id, d3⟩

/-! ## `signal_vec_keys`, `entries_cloned`, `signal_vec_entries` -/

/-- **C26.**  `signal_vec_keys`: for every well-formed history whose `Replace`s are sorted by key
(as those of a `MutableBTreeMap` are, `C24_sorted`), whatever `binary_search` within its contract, and
every schedule of polls: no poll panics, the emitted diffs are applicable and describe at every
moment the keys of the map described by the consumed diffs, in ascending order, each once. -/
theorem C26_keys (bs : List K → K → Except Nat Nat) (hbs : SearchOk bs)
    (script : List (Poll (Option (MapDiff K V))))
    (hwf : ∃ m, mreplay (items script) noKeys = some m) (hsort : ∀ d ∈ items script, Sorted d)
    (ws : List Waker) :
    ∃ outs s m ks, run (MKeys.poll bs) ws (MKeys.init script) = some (outs, s) ∧
      mreplay s.signal.got noKeys = some m ∧
      replay (items outs) [] = some ks ∧ ks.Pairwise (· < ·) ∧ ∀ k, k ∈ ks ↔ (m k).isSome := by
  obtain ⟨m0, hm0⟩ := hwf
  obtain ⟨outs, s, ys, h1, h2, h3, h4, h5⟩ := vec_run (poll := MKeys.poll (V := V) bs)
    (fun s ys => ¬ s.signal.ended ∧ ys = s.keys ∧ ∃ es, Ascending es ∧ s.keys = es.map (·.1) ∧
      MValid Sorted s.signal (mapOf es))
    (fun s ys => ¬ s.signal.ended ∧ ys = s.keys ∧ ∃ es, Ascending es ∧ s.keys = es.map (·.1) ∧
      MValid Sorted s.signal (mapOf es))
    (fun s ys => ys = s.keys ∧ ∃ es, Ascending es ∧ s.keys = es.map (·.1) ∧
      MValid Sorted s.signal (mapOf es))
    (fun _ _ h => h)
    (by
      rintro w ⟨src, keys⟩ ys ⟨hne, hy, es, ha, hk, hv⟩
      simp only at hne hy hk hv
      subst hy hk
      obtain ⟨st, keys', src', m', l1, -, l3, l4⟩ := Src.mloop_rule (ok := Sorted) (w := w)
        (body := keysBody bs)
        (fun keys m => keys = es.map (·.1) ∧ ∃ es', Ascending es' ∧ keys = es'.map (·.1) ∧ mapOf es' = m)
        (fun d keys m => d.apply (es.map (·.1)) = some keys ∧
          ∃ es', Ascending es' ∧ keys = es'.map (·.1) ∧ mapOf es' = m)
        (by
          rintro keys m d m' ⟨h1, es1, h2, h3, rfl⟩ hs hd
          subst h3
          obtain ⟨es2, g1, g2, g3⟩ := keysBody_spec hbs h2 hs hd
          rcases g3 with ⟨e, g3, g4⟩ | ⟨g3, g4⟩
          · rw [g3]
            exact ⟨by rw [← h1]; exact g4, es2, g1, rfl, g2⟩
          · rw [g3]
            exact ⟨g4.trans h1, es2, g1, rfl, g2⟩)
        src (es.map (·.1)) (mapOf es) hne hv ⟨rfl, es, ha, rfl, rfl⟩
      simp only [MKeys.poll, l1]
      cases st with
      | panic => exact l4.elim
      | ret d =>
        obtain ⟨⟨l5, es', l6, l7, rfl⟩, l8⟩ := l4
        exact ⟨_, _, rfl, _, l5, l8, rfl, es', l6, l7, l3⟩
      | ended =>
        obtain ⟨⟨l5, es', l6, l7, rfl⟩, l8⟩ := l4
        exact ⟨_, _, rfl, l5.symm, es', l6, l7, l3⟩
      | pending =>
        obtain ⟨⟨l5, es', l6, l7, rfl⟩, l8, -⟩ := l4
        exact ⟨_, _, rfl, l8, l5.symm, es', l6, l7, l3⟩)
    ws (MKeys.init script)
    ⟨not_ended_mk' _, rfl, [], List.Pairwise.nil, rfl, mvalid_mk' (mfeed_of_replay hm0 hsort)⟩
  have hinv : ys = s.keys ∧ ∃ es, Ascending es ∧ s.keys = es.map (·.1) ∧
      MValid Sorted s.signal (mapOf es) := by
    by_cases he : .ready none ∈ outs
    · exact h5 he
    · exact (h3 he).2
  obtain ⟨rfl, es, ha, hk, hv⟩ := hinv
  refine ⟨outs, s, mapOf es, s.keys, h1, hv.now, h2, ?_, fun k => ?_⟩
  · rw [hk, List.pairwise_map]; exact ha
  · rw [hk]; exact mapOf_isSome.symm

/-- **C27.**  `entries_cloned`, `signal_vec_entries`: as C26, with the `(key, value)` pairs. -/
theorem C27_entries (bs : List K → K → Except Nat Nat) (hbs : SearchOk bs)
    (script : List (Poll (Option (MapDiff K V))))
    (hwf : ∃ m, mreplay (items script) noKeys = some m) (hsort : ∀ d ∈ items script, Sorted d)
    (ws : List Waker) :
    ∃ outs s m es, run (MEntries.poll bs) ws (MKeys.init script) = some (outs, s) ∧
      mreplay s.signal.got noKeys = some m ∧
      replay (items outs) [] = some es ∧ es.Pairwise (fun a b => a.1 < b.1) ∧
      ∀ k v, (k, v) ∈ es ↔ m k = some v := by
  obtain ⟨m0, hm0⟩ := hwf
  obtain ⟨outs, s, ys, h1, h2, h3, h4, h5⟩ := vec_run (poll := MEntries.poll (V := V) bs)
    (fun s ys => ¬ s.signal.ended ∧ Ascending ys ∧ s.keys = ys.map (·.1) ∧
      MValid Sorted s.signal (mapOf ys))
    (fun s ys => ¬ s.signal.ended ∧ Ascending ys ∧ s.keys = ys.map (·.1) ∧
      MValid Sorted s.signal (mapOf ys))
    (fun s ys => Ascending ys ∧ s.keys = ys.map (·.1) ∧ MValid Sorted s.signal (mapOf ys))
    (fun _ _ h => h)
    (by
      rintro w ⟨src, keys⟩ ys ⟨hne, ha, hk, hv⟩
      simp only at hne hk hv
      subst hk
      obtain ⟨r, src', m', l1, -, l3, -, l4⟩ := Src.mpoll_rule w src (mapOf ys) hne hv
      simp only [MEntries.poll, l1]
      match r with
      | .pending =>
        obtain ⟨rfl, l4, -⟩ := l4
        exact ⟨_, _, rfl, l4, ha, rfl, l3⟩
      | .ready none =>
        obtain ⟨rfl, l4⟩ := l4
        exact ⟨_, _, rfl, ha, rfl, l3⟩
      | .ready (some d) =>
        obtain ⟨hs, hd, l4⟩ := l4
        obtain ⟨e, es', g1, g2, rfl, g4⟩ := entriesChange_spec hbs ha hs hd
        simp only [g1]
        exact ⟨_, _, rfl, es', g4, l4, g2, rfl, l3⟩)
    ws (MKeys.init script)
    ⟨not_ended_mk' _, List.Pairwise.nil, rfl, mvalid_mk' (mfeed_of_replay hm0 hsort)⟩
  have hinv : Ascending ys ∧ s.keys = ys.map (·.1) ∧ MValid Sorted s.signal (mapOf ys) := by
    by_cases he : .ready none ∈ outs
    · exact h5 he
    · exact (h3 he).2
  obtain ⟨ha, -, hv⟩ := hinv
  exact ⟨outs, s, mapOf ys, ys, h1, hv.now, h2, ha,
    fun k v => ⟨fun h => mapOf_of_mem ha.nodup h, mapOf_mem⟩⟩

/-- `signal_vec_keys` (C57, C58, C59). -/
theorem C57_keys (bs : List K → K → Except Nat Nat) (script : List (Poll (Option (MapDiff K V)))) :
    Polite (MKeys.poll bs) (·.signal) (MKeys.init script) := by
  refine polite_of_step (fun s => ¬ s.signal.ended) (fun s h => fused_of_not_ended h) ?_ _
    (not_ended_mk' _)
  intro w s r s' hl hp
  obtain ⟨st, ks, src', h1, h2, h3, h4⟩ := Src.loop_any w (keysBody bs) s.signal s.keys hl
  simp only [MKeys.poll, h1] at hp
  cases st with
  | pending => cases hp; exact ⟨by simpa using h3, h4 rfl⟩
  | ended => cases hp; exact ⟨h2, h3.2 rfl⟩
  | ret d => cases hp; simpa using h3
  | panic => cases hp

/-- `entries_cloned`, `signal_vec_entries` (C57, C58, C59). -/
theorem C57_entries (bs : List K → K → Except Nat Nat) (script : List (Poll (Option (MapDiff K V)))) :
    Polite (MEntries.poll bs) (·.signal) (MKeys.init script) := by
  refine polite_of_step (fun s => ¬ s.signal.ended) (fun s h => fused_of_not_ended h) ?_ _
    (not_ended_mk' _)
  intro w s r s' hl hp
  obtain ⟨q, src', h1, h2, h3, h4⟩ := Src.poll_any w s.signal hl
  simp only [MEntries.poll, h1] at hp
  cases q with
  | pending => cases hp; exact ⟨by simpa using h3, h4 rfl⟩
  | ready x =>
    cases x with
    | none => cases hp; exact ⟨h2, h3.2 rfl⟩
    | some a =>
      simp only at hp
      split at hp
      · cases hp
      · cases hp; simpa using h3

/-- A linear search that satisfies the contract. -/
def linearSearch : List K → K → Except Nat Nat
  | [], _ => .error 0
  | x :: xs, key =>
    if x = key then .ok 0
    else if key < x then .error 0
    else match linearSearch xs key with
      | .ok i => .ok (i + 1)
      | .error i => .error (i + 1)

/-- The contract of `binary_search` can be met. -/
theorem linearSearch_ok : SearchOk (linearSearch (K := K)) := by
  constructor
  · intro l m key hl hm
    induction l with
    | nil => simp [linearSearch]
    | cons x l ih =>
      have hx : x < key := hl x (by simp)
      simp only [List.cons_append, linearSearch, ne_of_lt hx, ↓reduceIte, not_lt_of_gt hx,
        ih (fun y hy => hl y (by simp [hy])), List.length_cons]
  · intro l m key hl hm
    induction l with
    | nil =>
      cases m with
      | nil => rfl
      | cons y m =>
        have hy : key < y := hm y (by simp)
        simp [linearSearch, (ne_of_lt hy).symm, hy]
    | cons x l ih =>
      have hx : x < key := hl x (by simp)
      simp only [List.cons_append, linearSearch, ne_of_lt hx, ↓reduceIte, not_lt_of_gt hx,
        ih (fun y hy => hl y (by simp [hy])), List.length_cons]

example : ∀ d ∈ items demoMap, Sorted d := by
  intro d hd
  simp only [demoMap, items, List.mem_cons, List.not_mem_nil, or_false] at hd
  rcases hd with rfl | rfl | rfl | rfl | rfl
  · simp only [Sorted]; unfold Ascending; decide
  all_goals trivial
example : ((run (MKeys.poll linearSearch) (List.replicate 20 0) (MKeys.init demoMap)).bind
    (fun q => replay (items q.1) [])) = some [1, 3, 5] := by decide
example : ((run (MEntries.poll linearSearch) (List.replicate 20 0) (MKeys.init demoMap)).bind
    (fun q => replay (items q.1) [])) = some [(1, 10), (3, 30), (5, 51)] := by decide

namespace MutMap

/-- **C26, C27 for a `MutableBTreeMap`.**  After any history of a `MutableBTreeMap`, take a live
subscription, and let its diffs (those it received and those still queued), in any arrangement with
`Pending` answers, be the input of `signal_vec_keys` and of `signal_vec_entries`.  When they have
consumed all of it, their outputs describe exactly the keys and the entries of the map, in order. -/
theorem C26_C27_of_map (vs : BMap K V) (h : List (Ev K V)) (w : World K V)
    (hr : (World.init vs).runs h = some w) (id : Nat) (c : Link (MapDiff K V))
    (hc : w.hub.links[id]? = some c) (hl : c.rxAlive = true)
    (bs : List K → K → Except Nat Nat) (hbs : SearchOk bs)
    (script : List (Poll (Option (MapDiff K V))))
    (hscript : items script = received id (World.init vs) h ++ c.queue) (ws : List Waker) :
    (∃ outs s, run (MKeys.poll bs) ws (MKeys.init script) = some (outs, s) ∧
      (s.signal.got = items script → replay (items outs) [] = some (w.values.1.map (·.1)))) ∧
    (∃ outs s, run (MEntries.poll bs) ws (MKeys.init script) = some (outs, s) ∧
      (s.signal.got = items script → replay (items outs) [] = some w.values.1)) := by
  obtain ⟨w', hr', hm⟩ := C24_mirror vs h
  rw [hr] at hr'
  cases hr'
  have hm := (hm id c hc).2 hl
  obtain ⟨s1, s2⟩ := C24_sorted vs h w hr id c hc
  have hsort : ∀ d ∈ items script, Sorted d := by
    rw [hscript]
    intro d hd
    rcases List.mem_append.1 hd with hd | hd
    · exact s1 d hd
    · exact s2 hl d hd
  rw [← hscript] at hm
  constructor
  · obtain ⟨outs, s, m, ks, g1, g2, g3, g4, g5⟩ := C26_keys bs hbs script ⟨_, hm⟩ hsort ws
    refine ⟨outs, s, g1, fun hg => ?_⟩
    rw [hg, hm] at g2
    cases g2
    rw [g3]
    congr 1
    refine sorted_ext g4 ?_ ?_
    · rw [List.pairwise_map]; exact w.values.2
    · intro k; rw [g5 k, mapOf_isSome]
  · obtain ⟨outs, s, m, ks, g1, g2, g3, g4, g5⟩ := C27_entries bs hbs script ⟨_, hm⟩ hsort ws
    refine ⟨outs, s, g1, fun hg => ?_⟩
    rw [hg, hm] at g2
    cases g2
    rw [g3]
    congr 1
    refine mapOf_inj g4 w.values.2 ?_
    funext k
    have : ∀ v, mapOf ks k = some v ↔ mapOf w.values.1 k = some v := by
      intro v
      rw [← g5 k v]
      exact ⟨mapOf_mem, fun h => mapOf_of_mem (Ascending.nodup g4) h⟩
    cases h1 : mapOf ks k with
    | some v => exact ((this v).1 h1).symm
    | none =>
      cases h2 : mapOf w.values.1 k with
      | none => rfl
      | some v => rw [(this v).2 h2] at h1; cases h1

/-- The hypotheses can be met: subscription 0 of the example history. -/
example : ∃ (w : World Nat Nat) (c : Link (MapDiff Nat Nat)),
    (World.init demo0).runs demo = some w ∧ w.hub.links[0]? = some c ∧
    c.rxAlive = true ∧ (received 0 (World.init demo0) demo ++ c.queue).length = 7 :=
  ⟨_, _, rfl, rfl, by decide, by decide⟩

end MutMap

end

end Verif
