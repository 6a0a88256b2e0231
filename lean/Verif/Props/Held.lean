import Verif.Held
import Verif.Props.SignalB
import Verif.Props.SignalVecSwitch
import Verif.Props.SignalVecDelay

/-!
# C94: what combinators hold

The theorems hold for every input, whether its changes fit or not, every callback and every sequence of polls,
as long as no poll panicked.  `s.signal.src.got` (`s.signal.got`) are the changes the combinator has taken, and
`replay … []` is the list they describe: the list as the combinator knows it.
-/

namespace Verif

variable {α β ι κ : Type}

/-- **C94**, `map_signal`: the signals held are those made from the elements of the present list, one for each
and in their order.  The signal of an element that was removed or replaced is not held any more.  Changes wait
to be sent only while the answers are changes. -/
theorem C94_map_signal (g : ι → List (Poll (Option β))) (script : List (Poll (Option (VecDiff ι))))
    (ws : List Waker) {outs : List (Poll (Option (VecDiff β)))} {s : VMapSignal ι β}
    (h : run (VMapSignal.poll g) ws (VMapSignal.init script) = some (outs, s)) :
    replay s.signal.src.got [] = some (s.signals.map (·.tag)) ∧
    (outs.getLast? = some .pending ∨ outs.getLast? = some (.ready none) → s.pending = []) := by
  have := run_keeps_last (I := fun s : VMapSignal ι β => replay s.signal.src.got [] = some (s.signals.map (·.tag)))
    (J := fun r s => (r = .pending ∨ r = .ready none) → s.pending = []) ?_ h rfl
  · exact ⟨this.1, by rintro (h | h) <;> exact this.2 _ h (by simp)⟩
  · intro w s r s' hI hp
    have fin : ∀ done i signals np, replay i.src.got [] = some (signals.map (·.tag)) →
        VMapSignal.finish w done i signals np = (r, s') →
        replay s'.signal.src.got [] = some (s'.signals.map (·.tag)) ∧
        ((r = .pending ∨ r = .ready none) → s'.pending = []) := by
      intro done i signals np hT hf
      have hn := pollSignals_tags w 0 np signals
      unfold VMapSignal.finish at hf
      split at hf
      · rename_i hq; rw [hq] at hn; cases hf; rw [← hn] at hT; exact ⟨hT, by simp⟩
      · rename_i hq; rw [hq] at hn; rw [← hn] at hT; split at hf <;> (cases hf; exact ⟨hT, fun _ => rfl⟩)
    unfold VMapSignal.poll at hp
    split at hp
    · cases hp; exact ⟨hI, by simp⟩
    · split at hp
      · cases hp
      · cases hp
      · rename_i hl
        exact fin _ _ _ _ (Inp.loop_follows (mapSignalBody_follows g w) hl (by simp) hI) (Option.some.inj hp)
      · rename_i hl
        exact fin _ _ _ _ (Inp.loop_follows (mapSignalBody_follows g w) hl (by simp) hI) (Option.some.inj hp)

/-- **C94**, `filter_signal_cloned`: the same. -/
theorem C94_filter_signal (g : α → List (Poll (Option Bool))) (script : List (Poll (Option (VecDiff α))))
    (ws : List Waker) {outs : List (Poll (Option (VecDiff α)))} {s : VFilterSignal α}
    (h : run (VFilterSignal.poll g) ws (VFilterSignal.init script) = some (outs, s)) :
    replay s.signal.src.got [] = some (s.signals.map (·.value)) ∧
    (outs.getLast? = some .pending ∨ outs.getLast? = some (.ready none) → s.pending = []) := by
  have := run_keeps_last
    (I := fun s : VFilterSignal α => replay s.signal.src.got [] = some (s.signals.map (·.value)))
    (J := fun r s => (r = .pending ∨ r = .ready none) → s.pending = []) ?_ h rfl
  · exact ⟨this.1, by rintro (h | h) <;> exact this.2 _ h (by simp)⟩
  · intro w s r s' hI hp
    have fin : ∀ done i signals np, replay i.src.got [] = some (signals.map (·.value)) →
        VFilterSignal.finish w done i signals np = (r, s') →
        replay s'.signal.src.got [] = some (s'.signals.map (·.value)) ∧
        ((r = .pending ∨ r = .ready none) → s'.pending = []) := by
      intro done i signals np hT hf
      have hn := drainSignals_values w 0 np signals
      unfold VFilterSignal.finish at hf
      split at hf
      · rename_i hq; rw [hq] at hn; cases hf; rw [← hn] at hT; exact ⟨hT, by simp⟩
      · rename_i hq; rw [hq] at hn; rw [← hn] at hT; split at hf <;> (cases hf; exact ⟨hT, fun _ => rfl⟩)
    unfold VFilterSignal.poll at hp
    split at hp
    · cases hp; exact ⟨hI, by simp⟩
    · split at hp
      · cases hp
      · cases hp
      · rename_i hl
        exact fin _ _ _ _ (Inp.loop_follows (filterSignalBody_follows g w) hl (by simp) hI) (Option.some.inj hp)
      · rename_i hl
        exact fin _ _ _ _ (Inp.loop_follows (filterSignalBody_follows g w) hl (by simp) hI) (Option.some.inj hp)

/-- **C94**, `flatten`: the lists held are the elements of the present outer list, in its order — although what
`flatten` sends after some changes of the outer list is wrong (C14), it lets go of the right lists. -/
theorem C94_flatten (g : ι → List (Poll (Option (VecDiff β)))) (script : List (Poll (Option (VecDiff ι))))
    (ws : List Waker) {outs : List (Poll (Option (VecDiff β)))} {s : VFlatten ι β}
    (h : run (VFlatten.poll g) ws (VFlatten.init script) = some (outs, s)) :
    replay s.signal.src.got [] = some (s.inner.map (·.tag)) ∧
    (outs.getLast? = some .pending ∨ outs.getLast? = some (.ready none) → s.pending = []) := by
  have := run_keeps_last (I := fun s : VFlatten ι β => replay s.signal.src.got [] = some (s.inner.map (·.tag)))
    (J := fun r s => (r = .pending ∨ r = .ready none) → s.pending = []) ?_ h rfl
  · exact ⟨this.1, by rintro (h | h) <;> exact this.2 _ h (by simp)⟩
  · intro w s r s' hI hp
    have fin : ∀ done i inner, replay i.src.got [] = some (inner.map (·.tag)) →
        VFlatten.finish w done i inner = some (r, s') →
        replay s'.signal.src.got [] = some (s'.inner.map (·.tag)) ∧
        ((r = .pending ∨ r = .ready none) → s'.pending = []) := by
      intro done i inner hT hf
      unfold VFlatten.finish at hf
      split at hf
      · cases hf
      · rename_i hq; have hn := pollAllPending_tags hq; cases hf; rw [← hn] at hT; exact ⟨hT, by simp⟩
      · rename_i hq; have hn := pollAllPending_tags hq; rw [← hn] at hT
        split at hf <;> (cases hf; exact ⟨hT, fun _ => rfl⟩)
    unfold VFlatten.poll at hp
    split at hp
    · cases hp; exact ⟨hI, by simp⟩
    · split at hp
      · cases hp
      · rename_i hl
        have := Inp.loop_follows (flattenBody_follows g w) hl (by simp) hI
        cases hp; exact ⟨this, by simp⟩
      · rename_i hl
        exact fin _ _ _ (Inp.loop_follows (flattenBody_follows g w) hl (by simp) hI) hp
      · rename_i hl
        exact fin _ _ _ (Inp.loop_follows (flattenBody_follows g w) hl (by simp) hI) hp

/-- **C94**, `to_signal_map`, `to_signal_cloned`: the copy held is the present list. -/
theorem C94_to_signal (callback : List α → β) (script : List (Poll (Option (VecDiff α)))) (ws : List Waker)
    {outs : List (Poll (Option β))} {s : VToSignal α}
    (h : run (VToSignal.poll callback) ws (VToSignal.init script) = some (outs, s)) :
    replay s.signal.src.got [] = some s.values := by
  refine run_keeps (I := fun s : VToSignal α => replay s.signal.src.got [] = some s.values) ?_ h rfl
  intro w s r s' hI hp
  unfold VToSignal.poll at hp
  split at hp
  · cases hp
  · cases hp
  · rename_i st values changed i h1 h2 hl
    have := Inp.loop_follows toSignalBody_follows hl (by rintro rfl; exact h1 rfl) hI
    split at hp
    · cases hp; exact this
    · split at hp <;> (cases hp; exact this)

/-- **C94**, `sum`: the copy held is the present list. -/
theorem C94_sum (add : α → α → α) (zero : α) (script : List (Poll (Option (VecDiff α)))) (ws : List Waker)
    {outs : List (Poll (Option α))} {s : VToSignal α}
    (h : run (VSum.poll add zero) ws (VToSignal.init script) = some (outs, s)) :
    replay s.signal.src.got [] = some s.values := by
  refine run_keeps (I := fun s : VToSignal α => replay s.signal.src.got [] = some s.values) ?_ h rfl
  intro w s r s' hI hp
  unfold VSum.poll at hp
  split at hp
  · cases hp
  · cases hp
  · rename_i st values changed i h1 h2 hl
    have := Inp.loop_follows sumBody_follows hl (by rintro rfl; exact h1 rfl) hI
    split at hp
    · cases hp; exact this
    · split at hp <;> (cases hp; exact this)

/-- **C94**, `sort_by_cloned`: the copy held is the present list, in the order of the input. -/
theorem C94_sort (S : SliceFns) (cmp : α → α → Ordering) (script : List (Poll (Option (VecDiff α))))
    (ws : List Waker) {outs : List (Poll (Option (VecDiff α)))} {s : VSort α}
    (h : run (VSort.poll S cmp) ws (VSort.init script) = some (outs, s)) :
    replay s.signal.got [] = some s.values ∧
    (outs.getLast? = some .pending ∨ outs.getLast? = some (.ready none) → s.pending = none) := by
  have := run_keeps_last (I := fun s : VSort α => replay s.signal.got [] = some s.values)
    (J := fun r s => (r = .pending ∨ r = .ready none) → s.pending = none) ?_ h rfl
  · exact ⟨this.1, by rintro (h | h) <;> exact this.2 _ h (by simp)⟩
  · intro w s r s' hI hp
    unfold VSort.poll at hp
    split at hp
    · cases hp; exact ⟨hI, by simp⟩
    · split at hp
      · cases hp
      · rename_i hl
        have := Src.loop_follows (sortBody_follows S cmp) hl (by simp) hI
        cases hp; exact ⟨this, fun _ => rfl⟩
      · rename_i hl
        have := Src.loop_follows (sortBody_follows S cmp) hl (by simp) hI
        cases hp; exact ⟨this, fun _ => rfl⟩
      · rename_i hl
        have := Src.loop_follows (sortBody_follows S cmp) hl (by simp) hI
        cases hp; exact ⟨this, by simp⟩

/-- **C94**, `filter_map`: one flag for each element of the present list. -/
theorem C94_filter_map (f : κ → α → Option β × κ) (k : κ) (script : List (Poll (Option (VecDiff α))))
    (ws : List Waker) {outs : List (Poll (Option (VecDiff β)))} {s : VFilterMap κ α}
    (h : run (VFilterMap.poll f) ws (VFilterMap.init k script) = some (outs, s)) :
    ∃ xs, replay s.signal.got [] = some xs ∧ xs.length = s.indexes.length := by
  refine run_keeps (I := fun s : VFilterMap κ α => Taken s.signal.got s.indexes.length) ?_ h taken_nil
  intro w s r s' hI hp
  unfold VFilterMap.poll at hp
  split at hp
  · rename_i hl
    have := Src.loop_checks (filterMapBody_checks f) hl (by simp) hI
    cases hp; exact this
  · rename_i hl
    have := Src.loop_checks (filterMapBody_checks f) hl (by simp) hI
    cases hp; exact this
  · rename_i hl
    have := Src.loop_checks (filterMapBody_checks f) hl (by simp) hI
    cases hp; exact this
  · cases hp

/-- **C94**, `filter`. -/
theorem C94_filter (f : κ → α → Bool × κ) (k : κ) (script : List (Poll (Option (VecDiff α))))
    (ws : List Waker) {outs : List (Poll (Option (VecDiff α)))} {s : VFilterMap κ α}
    (h : run (VFilter.poll f) ws (VFilterMap.init k script) = some (outs, s)) :
    ∃ xs, replay s.signal.got [] = some xs ∧ xs.length = s.indexes.length :=
  C94_filter_map _ k script ws h

/-- **C94**, `enumerate`: one index `Mutable` for each element of the present list. -/
theorem C94_enumerate (script : List (Poll (Option (VecDiff α)))) (ws : List Waker)
    {outs : List (Poll (Option (VecDiff (Nat × α))))} {s : VEnumerate α}
    (h : run VEnumerate.poll ws (VEnumerate.init script) = some (outs, s)) :
    ∃ xs, replay s.signal.got [] = some xs ∧ xs.length = s.mutables.length := by
  refine run_keeps (I := fun s : VEnumerate α => Taken s.signal.got s.mutables.length) ?_ h taken_nil
  intro w s r s' hI hp
  have hg := Src.poll_got w s.signal
  unfold VEnumerate.poll at hp
  split at hp
  · rename_i d src hs
    rw [hs] at hg
    split at hp
    · cases hp
    · rename_i hc
      cases hp
      obtain ⟨h1, h2⟩ := enumChange_checks hc
      show Taken src.got _
      rw [hg, h2]
      exact hI.snoc h1
  · rename_i hs
    rw [hs] at hg
    cases hp
    simpa [hg, items] using hI
  · rename_i hs
    rw [hs] at hg
    cases hp
    simpa [hg, items] using hI

/-- **C94**, `chain`: changes wait to be sent only while the answers are changes. -/
theorem C94_chain (left right : List (Poll (Option (VecDiff α)))) (ws : List Waker)
    {outs : List (Poll (Option (VecDiff α)))} {s : VChain α}
    (h : run VChain.poll ws (VChain.init left right) = some (outs, s))
    (hl : outs.getLast? = some .pending ∨ outs.getLast? = some (.ready none)) : s.pending = [] := by
  have := run_keeps_last (I := fun _ : VChain α => True)
    (J := fun r s => (r = .pending ∨ r = .ready none) → s.pending = []) ?_ h trivial
  · rcases hl with h | h <;> exact this.2 _ h (by simp)
  · intro w s r s' hI hp
    refine ⟨trivial, ?_⟩
    unfold VChain.poll at hp
    split at hp
    · cases hp; simp
    · split at hp
      · cases hp
      · cases hp; simp
      · split at hp
        · cases hp; simp
        · split at hp
          · cases hp
          · cases hp; simp
          · split at hp
            · cases hp; simp
            · rename_i hn
              split at hp <;> (cases hp; exact fun _ => hn)

/-- **C94**, `map_value_signal`: the signals held are those made from the present values, one for each present
key, in ascending order.  `putAll` is the map described by the changes; changes that do not fit count as the
code takes them (see `MapDiff.put`). -/
theorem C94_map_value_signal {K V : Type} [LinearOrder K] (g : V → List (Poll (Option β)))
    (script : List (Poll (Option (MapDiff K V)))) (ws : List Waker)
    {outs : List (Poll (Option (MapDiff K β)))} {s : MMapSignal K V β}
    (h : run (MMapSignal.poll g) ws (MMapSignal.init script) = some (outs, s)) :
    (s.signals.map (·.1)).Pairwise (· < ·) ∧
    (∀ k, (mapOf s.signals k).map (·.tag) = putAll s.signal.src.got noKeys k) ∧
    (outs.getLast? = some .pending ∨ outs.getLast? = some (.ready none) → s.pending = []) := by
  have := run_keeps_last (I := fun s : MMapSignal K V β => MHeld s.signal.src.got s.signals)
    (J := fun r s => (r = .pending ∨ r = .ready none) → s.pending = []) ?_ h ⟨by simp [MMapSignal.init, Ascending], rfl⟩
  · exact ⟨List.pairwise_map.2 this.1.1, fun k => congrFun this.1.2 k,
      by rintro (h | h) <;> exact this.2 _ h (by simp)⟩
  · intro w s r s' hI hp
    have fin : ∀ done i signals np, MHeld i.src.got signals →
        MMapSignal.finish w done i signals np = (r, s') →
        MHeld s'.signal.src.got s'.signals ∧ ((r = .pending ∨ r = .ready none) → s'.pending = []) := by
      intro done i signals np hT hf
      have hn := pollEntries_held w np signals
      have keep : MHeld i.src.got (pollEntries w np signals).2.2 := by
        refine ⟨?_, ?_⟩
        · have := List.pairwise_map.2 hT.1
          rw [← hn.1] at this
          exact List.pairwise_map.1 this
        · rw [← hT.2]
          exact funext hn.2
      unfold MMapSignal.finish at hf
      split at hf
      · rename_i hq; rw [hq] at keep; cases hf; exact ⟨keep, by simp⟩
      · rename_i hq; rw [hq] at keep; split at hf <;> (cases hf; exact ⟨keep, fun _ => rfl⟩)
    have loop : ∀ (i i' : Inp (Option (MapDiff K V))) st l l' np np',
        i.loop w (mapValueBody g w) (l, np) = (st, (l', np'), i') → st ≠ .panic → MHeld i.src.got l →
        MHeld i'.src.got l' := by
      intro i i' st l l' np np' hl hs h0
      have src : ∀ (src src' : Src (Option (MapDiff K V))), src.loop w (mapValueBody g w) (l, np) = (st, (l', np'), src') →
          MHeld src.got l → MHeld src'.got l' := by
        intro src src' hl h0
        have key := pollLoop_rule (w := w) (body := mapValueBody g w)
          (fun s src => MHeld (Src.got src) s.1)
          (fun st s src => st = .panic ∨ MHeld (Src.got src) s.1) ?_ ?_ ?_ ?_ ?_ src (l, np) h0
        · rw [hl] at key
          exact key.resolve_left hs
        · intro s a t h s' hT hc
          rw [got_snoc]
          exact mapValueBody_held hc hT
        · intro s a t h s' r
          exact r.elim
        · intros; exact .inl rfl
        · intro s t h hT
          rw [got_snoc]
          exact .inr (by simpa [Src.got] using hT)
        · intro s t t' h hT ht
          rw [got_snoc]
          rcases ht with rfl | ⟨rfl, rfl⟩ <;> exact .inr (by simpa [Src.got] using hT)
      unfold Inp.loop at hl
      split at hl
      · split at hl
        · rename_i h1
          cases hl
          exact src _ _ h1 h0
        · rename_i h1
          cases hl
          exact src _ _ h1 h0
      · cases hl
        exact h0
    unfold MMapSignal.poll at hp
    split at hp
    · cases hp; exact ⟨hI, by simp⟩
    · split at hp
      · cases hp
      · cases hp
      · rename_i hl
        exact fin _ _ _ _ (loop _ _ _ _ _ _ _ hl (by simp) hI) (Option.some.inj hp)
      · rename_i hl
        exact fin _ _ _ _ (loop _ _ _ _ _ _ _ hl (by simp) hI) (Option.some.inj hp)

/-- **C94**, `flatten` and `switch` of signals: no more than one inner signal is held, and it is that of the last
value. -/
theorem C94_signal_flatten (g : ι → List (Poll (Option β))) (script : List (Poll (Option ι))) (ws : List Waker)
    {outs : List (Poll (Option β))} {s : SFlatten ι β}
    (h : run (SFlatten.poll g) ws (SFlatten.init script) = some (outs, s)) (x : Made ι (Option β))
    (hx : s.inner = some x) : s.signal.src.got.getLast? = some x.tag := by
  obtain ⟨outs', s', h1, -, h2, -⟩ := C52_flatten g script ws
  rw [h] at h1
  cases h1
  rw [← h2, hx]
  simp

/-- **C94**, `map_future`: no more than one future is held, that of the last value. -/
theorem C94_map_future (g : α → List (Poll β)) (script : List (Poll (Option α))) (ws : List Waker)
    {outs : List (Poll (Option (Option β)))} {s : SMapFuture α β}
    (h : run (SMapFuture.poll g) ws (SMapFuture.init script) = some (outs, s)) (x : Made α β)
    (hx : s.future = some x) : s.signal.src.got.getLast? = some x.tag := by
  obtain ⟨outs', s', h1, -, -, h2, -⟩ := C54_map_future g script ws
  rw [h] at h1
  cases h1
  rw [← h2, hx]
  simp

/-- The last value, or the one before the loop. -/
theorem lastValue_got {τ : Type} {w : Waker} {i i' : Inp (Option τ)} {st : Stop Empty} {o : Option τ}
    (h : i.loop w lastValue none = (st, o, i')) :
    i'.src.got.getLast? = o.or i.src.got.getLast? := by
  have src : ∀ (src : Src (Option τ)) (st : Stop Empty) o (src' : Src (Option τ)), src.loop w lastValue none = (st, o, src') →
      src'.got.getLast? = o.or src.got.getLast? := by
    intro src st o src' hl
    have key := pollLoop_rule (w := w) (body := lastValue (τ := τ))
      (fun o x => (Src.got x).getLast? = o.or src.got.getLast?)
      (fun _ o x => (Src.got x).getLast? = o.or src.got.getLast?) ?_ ?_ ?_ ?_ ?_ src none rfl
    · rw [hl] at key
      exact key
    · intro s a t h s' hT hc
      cases hc
      rw [got_snoc]
      simp [items]
    · intro s a t h s' r
      exact r.elim
    · intro s a t h hT hc
      cases hc
    · intro s t h hT
      rw [got_snoc]
      simpa [Src.got] using hT
    · intro s t t' h hT ht
      rw [got_snoc]
      rcases ht with rfl | ⟨rfl, rfl⟩ <;> simpa [Src.got] using hT
  unfold Inp.loop at h
  split at h
  · split at h
    · rename_i h1
      cases h
      exact src _ _ _ _ h1
    · rename_i h1
      cases h
      exact src _ _ _ _ h1
  · cases h
    rfl

/-- **C94**, `switch_signal_vec`: no more than one list is held, that of the last value. -/
theorem C94_switch {τ : Type} (g : τ → List (Poll (Option (VecDiff α)))) (script : List (Poll (Option τ)))
    (ws : List Waker) {outs : List (Poll (Option (VecDiff α)))} {s : VSwitch τ α}
    (h : run (VSwitch.poll g) ws (VSwitch.init script) = some (outs, s)) :
    s.cur = s.signal.src.got.getLast? ∧ (s.inner.alive = true → s.cur ≠ none) := by
  refine run_keeps (I := fun s : VSwitch τ α => s.cur = s.signal.src.got.getLast? ∧ (s.inner.alive = true → s.cur ≠ none))
    ?_ h ⟨rfl, by simp [VSwitch.init]⟩
  intro w s r s' ⟨hI, hA⟩ hp
  have hal : ∀ o i, s.inner.poll w = (o, i) → i.alive = true → s.inner.alive = true := by
    intro o i ho
    unfold Inp.poll at ho
    grind
  have fin : ∀ done v i, i.src.got.getLast? = v.or s.signal.src.got.getLast? →
      VSwitch.finish g w done v i s = some (r, s') →
      s'.cur = s'.signal.src.got.getLast? ∧ (s'.inner.alive = true → s'.cur ≠ none) := by
    intro done v i hv hf
    unfold VSwitch.finish at hf
    cases v with
    | some v =>
      simp only [Option.some_or] at hv
      simp only [] at hf
      repeat' split at hf
      all_goals cases hf
      all_goals exact ⟨hv.symm, by simp⟩
    | none =>
      simp only [Option.none_or, ← hI] at hv
      simp only [] at hf
      repeat' split at hf
      all_goals cases hf
      all_goals
        rename_i heq _
        first
          | exact ⟨hv.symm, fun h => hA (hal _ _ heq h)⟩
          | (rename_i heq _ _; exact ⟨hv.symm, fun h => hA (hal _ _ heq h)⟩)
          | grind
  unfold VSwitch.poll at hp
  split at hp
  · rename_i hl; exact fin _ _ _ (lastValue_got hl) hp
  · rename_i hl; exact fin _ _ _ (lastValue_got hl) hp
  · cases hp

/-- **C94**, `delay_remove`, on lists whose changes fit: the futures held are those of the present elements, and
one for each element whose removal is outstanding, which has not completed.  A future that has completed is
not held any more. -/
theorem C94_delay_remove (g : α → List (Poll Unit)) (script : List (Poll (Option (VecDiff α))))
    (hwf : ∃ z, replay (items script) [] = some z) (ws : List Waker)
    {outs : List (Poll (Option (VecDiff α)))} {s : VDelay α}
    (h : run (VDelay.poll g) ws (VDelay.init script) = some (outs, s)) :
    replay s.signal.src.got [] = some ((s.futures.filter (!·.isRemoving)).map (·.tag)) ∧
    (∀ t ∈ s.futures, ¬ t.future.completed) ∧
    (outs.getLast? = some .pending ∨ outs.getLast? = some (.ready none) → s.pending = []) := by
  obtain ⟨outs', s', xs, zs, h1, h2, -, -, h3, h4, -, -, h5, h6⟩ := C17_delay_remove g script hwf ws
  rw [h] at h1
  cases h1
  refine ⟨by rw [h2, h3], fun t ht => (h4 t ht).2.1, ?_⟩
  rintro (hl | hl)
  · exact (h5 hl).1
  · exact (h6 (List.mem_of_getLast? hl)).1

/-! ## Examples -/

/-- Two elements come, one is replaced, one removed: `map_signal` has made four signals and holds two. -/
example : (run (VMapSignal.poll (fun n : Nat => [.ready (some (n * 10))])) [0, 0, 0, 0, 0, 0]
    (VMapSignal.init [.ready (some (.replace [1, 2])), .ready (some (.updateAt 0 3)), .ready (some (.removeAt 1)),
      .pending, .ready (some (.push 4)), .pending])).map (fun r => (r.1, r.2.signals.map (·.tag), r.2.pending)) =
    some ([.ready (some (.replace [10, 20])), .ready (some (.updateAt 0 30)), .ready (some (.removeAt 1)),
      .ready (some (.push 40)), .pending, .pending], [3, 4], []) := rfl

/-- A signal that has not settled is let go of with its element. -/
example : (run (VFilterSignal.poll (fun n : Nat => [.ready (some (n % 2 == 0)), .pending, .pending])) [0, 0]
    (VFilterSignal.init [.ready (some (.replace [1, 2])), .pending, .ready (some .pop), .pending])).map
      (fun r => (r.1, r.2.signals.map (·.value))) =
    some ([.ready (some (.replace [2])), .ready (some .pop)], [1]) := rfl

/-- `flatten` sends nothing for the `RemoveAt` (C14), but lets go of the list. -/
example : (run (VFlatten.poll (fun n : Nat => [.ready (some (.push n)), .pending, .pending, .pending])) [0, 0, 0]
    (VFlatten.init [.ready (some (.push 1)), .ready (some (.push 2)), .pending, .ready (some (.removeAt 0)),
      .pending])).map (fun r => (r.1, r.2.inner.map (·.tag))) =
    some ([.ready (some (.insertAt 0 1)), .ready (some (.insertAt 1 2)), .pending], [2]) := rfl

/-- `map_value_signal`: a key that is inserted twice has one signal. -/
example : (run (MMapSignal.poll (fun n : Nat => [.ready (some (n * 10)), .pending, .pending])) [0, 0, 0, 0]
    (MMapSignal.init [.ready (some (.insert 5 1)), .ready (some (.insert 5 2)), .ready (some (.insert 3 7)),
      .pending])).map (fun r => (r.1, r.2.signals.map (fun e => (e.1, e.2.tag)))) =
    some ([.ready (some (.insert 5 10)), .ready (some (.insert 5 20)), .ready (some (.insert 3 70)), .pending],
      [(3, 7), (5, 2)]) := rfl

/-- `switch_signal_vec` and `flatten` of signals hold the last of two. -/
example : (run (VSwitch.poll (fun n : Nat => [.ready (some (.push n)), .pending, .pending])) [0, 0]
    (VSwitch.init [.ready (some 1), .pending, .ready (some 2), .pending])).map (fun r => (r.1, r.2.cur, r.2.inner.alive)) =
    some ([.ready (some (.push 1)), .ready (some (.replace [2]))], some 2, true) := rfl

example : (run (SFlatten.poll (fun n : Nat => [.ready (some n), .pending, .pending])) [0, 0]
    (SFlatten.init [.ready (some 1), .ready (some 2), .pending])).map (fun r => (r.1, r.2.inner.map (·.tag))) =
    some ([.ready (some 1), .ready (some 2)], some 2) := rfl

end Verif
