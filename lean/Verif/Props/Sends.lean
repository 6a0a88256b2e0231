import Verif.SendsProofs
import Verif.Props.SignalVecFold
import Verif.Props.SignalMap

/-!
# The changes a combinator sends (C98)
-/

namespace Verif

variable {α β δ ε τ σ ρ K V W ω : Type}

theorem run_trace {poll : Waker → σ → Option (Poll (Option ε) × σ)} (I : List (Poll (Option ε)) → σ → Prop)
    (hstep : ∀ w outs s r s', I outs s → poll w s = some (r, s') → I (outs ++ [r]) s') {ws : List Waker}
    {outs0 outs : List (Poll (Option ε))} {s0 s : σ} (h : run poll ws s0 = some (outs, s)) (h0 : I outs0 s0) :
    I (outs0 ++ outs) s := by
  induction ws generalizing outs0 outs s0 with
  | nil => cases h; simpa using h0
  | cons w ws ih =>
    simp only [run] at h
    split at h
    · cases h
    · rename_i s1 h1
      cases h
      exact hstep _ _ _ _ _ h0 h1
    · rename_i r s1 _ h1
      split at h
      · cases h
      · rename_i outs1 s2 h2
        cases h
        have := ih h2 (hstep _ _ _ _ _ h0 h1)
        simpa using this

/-- A combinator whose poll is a loop over its input, with at most one change put aside. -/
theorem run_said {apply : δ → τ → Option τ} {ok : δ → τ → Prop} {says : τ → τ → δ → List ε} {J : ω → τ → Prop}
    {body : ω → δ → Ctl ω ρ} {put : ρ → List ε} (hb : Round apply ok says J put body)
    {poll : Waker → σ → Option (Poll (Option ε) × σ)} {src : σ → Src (Option δ)} {vars : σ → ω} {aside : σ → List ε}
    (hnow : ∀ w s, aside s = [] → ∀ st v i, (src s).loop w body (vars s) = (st, v, i) →
      match st with
      | .panic => True
      | .ret r => ∃ e s', poll w s = some (.ready (some e), s') ∧ src s' = i ∧ vars s' = v ∧ put r = e :: aside s'
      | .ended => ∃ s', poll w s = some (.ready none, s') ∧ src s' = i ∧ vars s' = v ∧ aside s' = []
      | .pending => ∃ s', poll w s = some (.pending, s') ∧ src s' = i ∧ vars s' = v ∧ aside s' = [])
    (hlater : ∀ w s e es, aside s = e :: es → ∃ s', poll w s = some (.ready (some e), s') ∧ src s' = src s ∧
      vars s' = vars s ∧ aside s' = es)
    {x0 : τ} {s0 : σ} (h0 : ¬ (src s0).ended) (h1 : (src s0).got = []) (h2 : Fits apply ok x0 (items (src s0).todo))
    (h3 : J (vars s0) x0) (h4 : aside s0 = []) (ws : List Waker) :
    ∃ outs s, run poll ws s0 = some (outs, s) ∧ items outs ++ aside s = sends apply says x0 (src s).got ∧
      (outs.getLast? = some .pending ∨ .ready none ∈ outs → aside s = []) := by
  obtain ⟨outs, s, g1, g2, g3, g4⟩ := run_rule (poll := poll)
    (fun outs s => (.ready none ∉ outs → ¬ (src s).ended) ∧
      Said apply ok says J x0 (items outs ++ aside s) (vars s) (src s).got (items (src s).todo) ∧
      (outs.getLast? = some .pending ∨ .ready none ∈ outs → aside s = []))
    (by
      rintro w outs s ⟨g1, g2, g3⟩ hne
      cases ha : aside s with
      | cons e es =>
        obtain ⟨s', p1, p2, p3, p4⟩ := hlater w s e es ha
        refine ⟨_, s', p1, fun _ => by rw [p2]; exact g1 hne, ?_, ?_⟩
        · rw [p2, p3, p4]
          simpa [ha, items_append] using g2
        · intro h
          simp [hne] at h
      | nil =>
        rw [ha] at g2
        simp only [List.append_nil] at g2
        obtain ⟨st, v, i, e1, e2⟩ := Src.loop_said hb w (src s) (vars s) (g1 hne) g2
        have := hnow w s ha st v i e1
        match st with
        | .panic => exact e2.elim
        | .ret r =>
          obtain ⟨e, s', p1, rfl, rfl, p4⟩ := this
          refine ⟨_, s', p1, fun _ => e2.2, ?_, fun h => by simp [hne] at h⟩
          dsimp only at e2
          rw [p4] at e2
          simpa [items_append] using e2.1
        | .ended =>
          obtain ⟨s', p1, rfl, rfl, p4⟩ := this
          refine ⟨_, s', p1, by simp, ?_, fun _ => p4⟩
          simpa [p4, items_append] using e2
        | .pending =>
          obtain ⟨s', p1, rfl, rfl, p4⟩ := this
          refine ⟨_, s', p1, fun _ => e2.2, ?_, fun _ => p4⟩
          simpa [p4, items_append] using e2.1)
    ws [] s0 ⟨fun _ => h0, ⟨x0, by rw [h1]; rfl, h2, h3, by rw [h1, h4]; rfl⟩, fun _ => h4⟩ (by simp)
  obtain ⟨x, -, -, -, g5⟩ := g3
  simp only [List.nil_append] at g4 g5
  exact ⟨outs, s, g1, g5, g4⟩

/-! ## `map`, `enumerate`, `map_value` -/

/-- **C98**, `map`: for each change one of the same kind, at the same position, with the callback's values. -/
theorem C98_map (f : α → β) (script : List (Poll (Option (VecDiff α)))) (ws : List Waker) :
    ∃ outs s, run (VMap.poll (logging f)) ws (VMap.init [] script) = some (outs, s) ∧
      items outs = s.signal.got.map (VecDiff.map f) := by
  obtain ⟨outs, s, h1, h2⟩ := run_rule (poll := VMap.poll (logging f))
    (fun outs s => items outs = s.signal.got.map (VecDiff.map f))
    (by
      rintro w outs ⟨src, log⟩ h -
      simp only at h
      rcases hp : src.poll w with ⟨((_ | d) | _), src'⟩
      · exact ⟨.ready none, ⟨src', log⟩, by simp only [VMap.poll, hp], by
          have := Src.poll_got w src
          rw [hp] at this
          simp [items_append, h, this]⟩
      · exact ⟨.ready (some (d.map f)), ⟨src', log ++ d.payload⟩, by simp only [VMap.poll, hp, VecDiff.mapS_logging], by
          have := Src.poll_got w src
          rw [hp] at this
          simp [items_append, h, this]⟩
      · exact ⟨.pending, ⟨src', log⟩, by simp only [VMap.poll, hp], by
          have := Src.poll_got w src
          rw [hp] at this
          simp [items_append, h, this]⟩)
    ws [] (VMap.init [] script) rfl (by simp)
  exact ⟨outs, s, h1, by simpa using h2⟩

/-- **C98**, `map_value`. -/
theorem C98_map_value (f : V → W) (script : List (Poll (Option (MapDiff K V)))) (ws : List Waker) :
    ∃ outs s, run (MMapValue.poll (logging f)) ws (MMapValue.init [] script) = some (outs, s) ∧
      items outs = s.signal.got.map (MapDiff.map f) := by
  obtain ⟨outs, s, h1, h2⟩ := run_rule (poll := MMapValue.poll (K := K) (logging f))
    (fun outs s => items outs = s.signal.got.map (MapDiff.map f))
    (by
      rintro w outs ⟨src, log⟩ h -
      simp only at h
      rcases hp : src.poll w with ⟨((_ | d) | _), src'⟩
      · exact ⟨.ready none, ⟨src', log⟩, by simp only [MMapValue.poll, hp], by
          have := Src.poll_got w src
          rw [hp] at this
          simp [items_append, h, this]⟩
      · exact ⟨.ready (some (d.map f)), ⟨src', log ++ d.payload⟩, by simp only [MMapValue.poll, hp, MapDiff.mapS_logging], by
          have := Src.poll_got w src
          rw [hp] at this
          simp [items_append, h, this]⟩
      · exact ⟨.pending, ⟨src', log⟩, by simp only [MMapValue.poll, hp], by
          have := Src.poll_got w src
          rw [hp] at this
          simp [items_append, h, this]⟩)
    ws [] (MMapValue.init [] script) rfl (by simp)
  exact ⟨outs, s, h1, by simpa using h2⟩

theorem enumValues_snd (cells : Cells) (index : Nat) (values : List α) :
    (enumValues cells index values).1.map (·.2) = values := by
  induction values generalizing cells index with
  | nil => rfl
  | cons a values ih => simp [enumValues, ih]

theorem enumChange_snd {mutables mutables' : List Nat} {cells cells' : Cells} {d : VecDiff α} {e : VecDiff (Nat × α)}
    (h : enumChange mutables cells d = some (e, mutables', cells')) : e.map (·.2) = d := by
  cases d <;> simp only [enumChange] at h <;> (repeat' split at h) <;> cases h <;>
    simp [VecDiff.map, enumValues_snd]

/-- **C98**, `enumerate`: for each change the same change, the values with their cells. -/
theorem C98_enumerate (script : List (Poll (Option (VecDiff α))))
    (hwf : ∃ z, replay (items script) [] = some z) (ws : List Waker) :
    ∃ outs s, run VEnumerate.poll ws (VEnumerate.init script) = some (outs, s) ∧
      (items outs).map (VecDiff.map (·.2)) = s.signal.got := by
  obtain ⟨outs, s, ys, h, -⟩ := C16_enumerate script hwf ws
  refine ⟨outs, s, h, ?_⟩
  have := run_trace (fun outs s => (items outs).map (VecDiff.map (·.2)) = s.signal.got)
    (by
      rintro w outs ⟨src, mutables, cells⟩ r s' h hp
      have hg := Src.poll_got w src
      simp only at h
      simp only [VEnumerate.poll] at hp
      rcases hs : src.poll w with ⟨((_ | d) | _), src'⟩ <;> rw [hs] at hg hp <;> simp only at hp hg
      · cases hp; simp [items_append, h, hg]
      · split at hp
        · cases hp
        · rename_i e he
          cases hp
          simp [items_append, h, hg, enumChange_snd he]
      · cases hp; simp [items_append, h, hg]) h (outs0 := []) rfl
  simpa using this

/-! ## `filter_map`, `filter` -/

/-- **C98**, `filter_map`: what was sent is, for each change taken, what `filterSays` says. -/
theorem C98_filter_map (f : α → Option β) (script : List (Poll (Option (VecDiff α))))
    (hwf : ∃ z, replay (items script) [] = some z) (ws : List Waker) :
    ∃ outs s, run (VFilterMap.poll (logging f)) ws (VFilterMap.init [] script) = some (outs, s) ∧
      items outs = sends VecDiff.apply (filterSays f) [] s.signal.got := by
  obtain ⟨z, hz⟩ := hwf
  obtain ⟨outs, s, h1, h2, -⟩ := run_said (filterMapBody_says f) (poll := VFilterMap.poll (logging f))
    (src := (·.signal)) (vars := fun s => (s.indexes, s.st)) (aside := fun _ => [])
    (by
      intro w s _ st v i h
      simp only [VFilterMap.poll, h]
      cases st <;> first | trivial | exact ⟨_, _, rfl, rfl, rfl, rfl⟩ | exact ⟨_, rfl, rfl, rfl, rfl⟩ | exact ⟨_, rfl, rfl, rfl, trivial⟩)
    (by simp) (x0 := []) (s0 := VFilterMap.init [] script) (not_ended_mk' _) rfl (fits_replay hz) rfl rfl ws
  exact ⟨outs, s, h1, by simpa using h2⟩

/-- **C98**, `filter`. -/
theorem C98_filter (p : α → Bool) (script : List (Poll (Option (VecDiff α))))
    (hwf : ∃ z, replay (items script) [] = some z) (ws : List Waker) :
    ∃ outs s, run (VFilter.poll (logging p)) ws (VFilterMap.init [] script) = some (outs, s) ∧
      items outs = sends VecDiff.apply (filterSays fun a => if p a then some a else none) [] s.signal.got :=
  C98_filter_map (keep p) script hwf ws

example : sends VecDiff.apply (filterSays fun n : Nat => if n % 2 = 1 then some n else none) []
      [.replace [1, 2, 3], .insertAt 1 4, .updateAt 1 5, .move 1 0, .push 8, .pop, .removeAt 3, .updateAt 0 6] =
    [.replace [1, 3], .insertAt 1 5, .move 1 0, .removeAt 2, .removeAt 0] := by decide

/-! ## `chain` -/

theorem VChain.poll_takes {w : Waker} {s s' : VChain α} {r : Poll (Option (VecDiff α))} (h : s.poll w = some (r, s')) :
    ∃ ts : List (Taking α), s'.left.src.got = s.left.src.got ++ ts.flatMap Taking.lefts ∧
      s'.right.src.got = s.right.src.got ++ ts.flatMap Taking.rights ∧
      (s'.leftLen, s'.rightLen) = Taking.lens (s.leftLen, s.rightLen) ts ∧
      items [r] ++ s'.pending = s.pending ++ chainSends s.leftLen s.rightLen ts := by
  unfold VChain.poll at h
  split at h
  · rename_i e rest hp
    cases h
    exact ⟨[], by simp, by simp, rfl, by simp [chainSends, hp]⟩
  · rename_i hp
    rw [hp]
    split at h
    · cases h
    · rename_i e s1 h1
      cases h
      obtain ⟨ts, t1, t2, t3, t4⟩ := processLeft_takes hp h1
      exact ⟨ts, t1, t2, t3, by simpa using t4⟩
    · rename_i s1 h1
      obtain ⟨ts, t1, t2, t3, t4⟩ := processLeft_takes hp h1
      split at h
      · rename_i e rest hp1
        cases h
        exact ⟨ts, t1, t2, t3, by simpa [hp1] using t4⟩
      · rename_i hp1
        rw [hp1] at t4
        split at h
        · cases h
        all_goals
          rename_i s2 h2
          obtain ⟨us, u1, u2, u3, u4⟩ := processRight_takes hp1 h2
          have all : s2.left.src.got = s.left.src.got ++ (ts ++ us).flatMap Taking.lefts ∧
              s2.right.src.got = s.right.src.got ++ (ts ++ us).flatMap Taking.rights ∧
              (s2.leftLen, s2.rightLen) = Taking.lens (s.leftLen, s.rightLen) (ts ++ us) := by
            simp [u1, u2, t1, t2, u3, lens_append, ← t3]
          have hlast : chainSends s.leftLen s.rightLen (ts ++ us) = chainSends s1.leftLen s1.rightLen us := by
            rw [chainSends_append, ← t4, ← t3]; simp
        · cases h
          exact ⟨ts ++ us, all.1, all.2.1, all.2.2, by rw [hlast, ← u4]; simp⟩
        · split at h
          · rename_i e rest hp2
            cases h
            exact ⟨ts ++ us, all.1, all.2.1, all.2.2, by rw [hlast, ← u4, hp2]; simp⟩
          · rename_i hp2
            split at h <;> cases h <;>
              exact ⟨ts ++ us, all.1, all.2.1, all.2.2, by rw [hlast, ← u4, hp2]; simp⟩

/-- **C98**, `chain`: whatever its two inputs send, what it sent and what is waiting to be sent is what `chainSends` says,
for all it took from them in some order. -/
theorem C98_chain (l r : List (Poll (Option (VecDiff α)))) (ws : List Waker) (outs : List (Poll (Option (VecDiff α))))
    (s : VChain α) (h : run VChain.poll ws (VChain.init l r) = some (outs, s)) :
    ∃ ts : List (Taking α), s.left.src.got = ts.flatMap Taking.lefts ∧ s.right.src.got = ts.flatMap Taking.rights ∧
      items outs ++ s.pending = chainSends 0 0 ts := by
  obtain ⟨ts, h1, h2, -, h4⟩ := run_trace (fun outs (s : VChain α) => ∃ ts : List (Taking α),
      s.left.src.got = ts.flatMap Taking.lefts ∧ s.right.src.got = ts.flatMap Taking.rights ∧
      (s.leftLen, s.rightLen) = Taking.lens (0, 0) ts ∧ items outs ++ s.pending = chainSends 0 0 ts)
    (by
      rintro w outs s r s' ⟨ts, h1, h2, h3, h4⟩ hp
      obtain ⟨us, u1, u2, u3, u4⟩ := VChain.poll_takes hp
      refine ⟨ts ++ us, by simp [u1, h1], by simp [u2, h2], by rw [u3, lens_append, h3], ?_⟩
      rw [items_append, List.append_assoc, u4, ← List.append_assoc, h4, chainSends_append, ← h3]) h
    (outs0 := []) ⟨[], rfl, rfl, rfl, rfl⟩
  exact ⟨ts, h1, h2, by simpa using h4⟩

example : (run VChain.poll [0, 0, 0, 0, 0, 0, 0] (VChain.init
      [.ready (some (.replace [1, 2])), .pending, .ready (some (.push 3)), .ready (some (.replace [7]))]
      [.ready (some (.replace [5])), .ready (some (.insertAt 0 4))])).map (fun q => (items q.1, q.2.pending)) =
    some ([.replace [1, 2, 5], .insertAt 2 4, .insertAt 2 3, .removeAt 2, .removeAt 1, .removeAt 0, .insertAt 0 7], []) ∧
    chainSends 0 0 [.replaces [1, 2] [5], .right (.insertAt 0 4), .left (.push 3), .left (.replace [7])] =
      [.replace [1, 2, 5], .insertAt 2 4, .insertAt 2 3, .removeAt 2, .removeAt 1, .removeAt 0, .insertAt 0 7] := by
  decide

/-! ## `sort_by_cloned` -/

/-- **C98**, `sort_by_cloned`: what was sent, and the second half of an update if it is still to come. -/
theorem C98_sort (S : SliceFns) (hS : S.Lawful) (cmp : α → α → Ordering) (hp : TotalPreorder cmp)
    (script : List (Poll (Option (VecDiff α)))) (hwf : ∃ z, replay (items script) [] = some z) (ws : List Waker) :
    ∃ outs s, run (VSort.poll S cmp) ws (VSort.init script) = some (outs, s) ∧
      items outs ++ s.pending.toList = sends VecDiff.apply (sortSays cmp) [] s.signal.got ∧
      (outs.getLast? = some .pending ∨ .ready none ∈ outs → s.pending = none) := by
  obtain ⟨z, hz⟩ := hwf
  obtain ⟨outs, s, h1, h2, h3⟩ := run_said (poll := VSort.poll S cmp) (body := sortBody S cmp)
    (apply := VecDiff.apply) (ok := fun _ _ => True) (says := sortSays cmp) (J := SortVars cmp) (put := sortPut)
    (by
      rintro ⟨values, is⟩ xs d ys ⟨rfl, hi⟩ - hd
      exact sortBody_says hS hp hi hd)
    (src := (·.signal)) (vars := fun s => (s.values, s.indexes)) (aside := fun s => s.pending.toList)
    (by
      rintro w ⟨pend, values, is, src⟩ ha st v i h
      simp only [Option.toList_eq_nil_iff] at ha
      subst ha
      simp only at h
      simp only [VSort.poll, h]
      cases st <;> first | trivial | exact ⟨_, _, rfl, rfl, rfl, rfl⟩ | exact ⟨_, rfl, rfl, rfl, rfl⟩)
    (by
      rintro w ⟨pend, values, is, src⟩ e es ha
      cases pend <;> simp at ha
      obtain ⟨rfl, rfl⟩ := ha
      exact ⟨_, rfl, rfl, rfl, rfl⟩)
    (x0 := []) (s0 := VSort.init script) (not_ended_mk' _) rfl (fits_replay hz)
    ⟨rfl, by simp [VSort.init], List.Pairwise.nil⟩ rfl ws
  exact ⟨outs, s, h1, h2, by simpa using h3⟩

example : sends VecDiff.apply (sortSays (compare : Nat → Nat → Ordering)) []
      [.push 3, .push 1, .push 2, .push 5, .insertAt 0 2, .updateAt 1 9, .updateAt 2 0, .move 0 4, .removeAt 0, .pop] =
    [.push 3, .insertAt 0 1, .insertAt 1 2, .push 5, .insertAt 1 2, .removeAt 3, .push 9, .updateAt 0 0, .move 1 2, .pop,
      .removeAt 2] := by decide

/-! ## `entries_cloned`, `signal_vec_keys` -/

section
variable [LinearOrder K]

/-- **C98**, `entries_cloned` and `signal_vec_entries`. -/
theorem C98_entries (bs : List K → K → Except Nat Nat) (hbs : SearchOk bs)
    (script : List (Poll (Option (MapDiff K V))))
    (hwf : ∃ m, mreplay (items script) noKeys = some m) (hsort : ∀ d ∈ items script, Sorted d)
    (ws : List Waker) :
    ∃ outs s, run (MEntries.poll bs) ws (MKeys.init script) = some (outs, s) ∧
      items outs = sends (fun d es => (entrySays es d).apply es) (fun es _ d => [entrySays es d]) [] s.signal.got := by
  obtain ⟨m0, hm0⟩ := hwf
  obtain ⟨outs, s, h1, h2, -⟩ := run_said (entriesBody_says hbs) (poll := MEntries.poll (V := V) bs)
    (src := (·.signal)) (vars := (·.keys)) (aside := fun _ => [])
    (by
      intro w s _ st v i h
      rw [entries_poll, h]
      cases st <;> first | trivial | exact ⟨_, _, rfl, rfl, rfl, rfl⟩ | exact ⟨_, rfl, rfl, rfl, rfl⟩ | exact ⟨_, rfl, rfl, rfl, trivial⟩)
    (by simp) (x0 := []) (s0 := MKeys.init script) (not_ended_mk' _) rfl
    (fits_entries hbs List.Pairwise.nil (mfeed_of_replay hm0 hsort)) ⟨rfl, List.Pairwise.nil⟩ rfl ws
  exact ⟨outs, s, h1, by rw [List.append_nil] at h2; exact h2⟩

/-- **C98**, `signal_vec_keys`. -/
theorem C98_keys (bs : List K → K → Except Nat Nat) (hbs : SearchOk bs)
    (script : List (Poll (Option (MapDiff K V))))
    (hwf : ∃ m, mreplay (items script) noKeys = some m) (hsort : ∀ d ∈ items script, Sorted d)
    (ws : List Waker) :
    ∃ outs s, run (MKeys.poll bs) ws (MKeys.init script) = some (outs, s) ∧
      items outs = sends (fun d es => (entrySays es d).apply es) (fun es _ d => keySays es d) [] s.signal.got := by
  obtain ⟨m0, hm0⟩ := hwf
  obtain ⟨outs, s, h1, h2, -⟩ := run_said (keysBody_says hbs) (poll := MKeys.poll (V := V) bs)
    (src := (·.signal)) (vars := (·.keys)) (aside := fun _ => [])
    (by
      intro w s _ st v i h
      simp only [MKeys.poll, h]
      cases st <;> first | trivial | exact ⟨_, _, rfl, rfl, rfl, rfl⟩ | exact ⟨_, rfl, rfl, rfl, rfl⟩ | exact ⟨_, rfl, rfl, rfl, trivial⟩)
    (by simp) (x0 := []) (s0 := MKeys.init script) (not_ended_mk' _) rfl
    (fits_entries hbs List.Pairwise.nil (mfeed_of_replay hm0 hsort)) ⟨rfl, List.Pairwise.nil⟩ rfl ws
  exact ⟨outs, s, h1, by rw [List.append_nil] at h2; exact h2⟩

end

example : sends (fun d es => (entrySays es d).apply es) (fun es _ d => [entrySays es d]) [] (items demoMap) =
      [.replace [(2, 20), (5, 50)], .insertAt 1 (3, 30), .updateAt 2 (5, 51), .removeAt 0, .insertAt 0 (1, 10)] ∧
    sends (fun d es => (entrySays es d).apply es) (fun es _ d => keySays es d) [] (items demoMap) =
      [.replace [2, 5], .insertAt 1 3, .removeAt 0, .insertAt 0 1] := by decide

end Verif
