import Verif.Props.Live3
import Verif.SignalB
import Verif.SignalMap
import Verif.Run

/-!
# C64: `Signal` and `SignalMap` combinators with several inputs report the end
-/

namespace Verif

variable {α β ι : Type}

/-! ## `Signal::flatten`, `switch` -/

/-- `flatten` and `switch`: the end is reported once the outer signal and the last inner one
ended. -/
theorem C64_signal_flatten (g : ι → List (Poll (Option β))) (script : List (Poll (Option ι)))
    (h : Finite script) (hg : ∀ t, Finite (g t)) :
    EndsSoon (SFlatten.poll g) (SFlatten.init script) := by
  refine ends_lex (fun s => s.signal.left) (fun s => (s.inner.map fun m => m.src.todo.length).getD 0)
    (fun _ => 0) (fun s => s.signal.Due ∧ ∀ m, s.inner = some m → .ready none ∈ m.src.todo) ?_ _
    ⟨Inp.due_mk' h, by simp [SFlatten.init]⟩
  intro w s r s' ⟨hs, hi⟩ hp
  have hin : ∀ done (m m' : SFlatten ι β) r, (∀ x, m.inner = some x → .ready none ∈ x.src.todo) →
      SFlatten.pollInner w done m = (r, m') → m'.signal = m.signal ∧
        (∀ x, m'.inner = some x → .ready none ∈ x.src.todo) ∧
        (done = true → r = .ready none ∨ (m'.inner.map fun m => m.src.todo.length).getD 0 <
          (m.inner.map fun m => m.src.todo.length).getD 0) := by
    intro done m m' r hm e
    unfold SFlatten.pollInner at e
    cases hmi : m.inner with
    | none =>
      simp only [hmi] at e
      cases done with
      | true => simp at e; obtain ⟨rfl, rfl⟩ := e; exact ⟨rfl, hm, fun _ => .inl rfl⟩
      | false => simp at e; obtain ⟨rfl, rfl⟩ := e; exact ⟨rfl, hm, by simp⟩
    | some x =>
      simp only [hmi] at e
      obtain ⟨q, src, hq⟩ : ∃ q src, x.src.poll w = (q, src) := ⟨_, _, rfl⟩
      have hx := Src.poll_mem hq (hm x hmi)
      rw [hq] at e
      match q with
      | .ready none =>
        cases done with
        | true => simp at e; obtain ⟨rfl, rfl⟩ := e; exact ⟨rfl, by simp, fun _ => .inl rfl⟩
        | false => simp at e; obtain ⟨rfl, rfl⟩ := e; exact ⟨rfl, by simp, by simp⟩
      | .ready (some b) =>
        cases e
        exact ⟨rfl, fun y hy => by cases hy; exact hx.2 (by simp), fun _ => .inr (by simpa using hx.1)⟩
      | .pending =>
        cases e
        exact ⟨rfl, fun y hy => by cases hy; exact hx.2 (by simp), fun _ => .inr (by simpa using hx.1)⟩
  unfold SFlatten.poll at hp
  obtain ⟨c, i, hc⟩ : ∃ c i, s.signal.poll w = (c, i) := ⟨_, _, rfl⟩
  obtain ⟨h1, h2⟩ := Inp.poll_due hc hs
  rw [hc] at hp
  match c with
  | none =>
    simp only at hp
    injection hp with hp
    obtain ⟨k1, k2, k3⟩ := hin true _ s' r (by simpa using hi) hp
    rcases h2 with h2 | ⟨h2, -⟩
    · exact absurd rfl h2.2.1
    · rcases k3 rfl with k3 | k3
      · exact .inl k3
      · exact .inr ⟨⟨by rw [k1]; exact h1, k2⟩, .inr ⟨by simp only [k1, h2], .inl k3⟩⟩
  | some (.ready none) =>
    simp only at hp
    injection hp with hp
    obtain ⟨k1, k2, k3⟩ := hin true _ s' r (by simpa using hi) hp
    rcases h2 with h2 | ⟨-, h2, -⟩
    · exact .inr ⟨⟨by rw [k1]; exact h1, k2⟩, .inl (by simp only [k1]; exact h2.1)⟩
    · cases h2
  | some (.ready (some t)) =>
    simp only at hp
    injection hp with hp
    obtain ⟨k1, k2, k3⟩ := hin false _ s' r (by
      intro x hx; cases hx; exact hg t) hp
    rcases h2 with h2 | ⟨-, h2, -⟩
    · exact .inr ⟨⟨by rw [k1]; exact h1, k2⟩, .inl (by simp only [k1]; exact h2.1)⟩
    · cases h2
  | some .pending =>
    simp only at hp
    injection hp with hp
    obtain ⟨k1, k2, k3⟩ := hin false _ s' r (by simpa using hi) hp
    rcases h2 with h2 | ⟨-, h2, -⟩
    · exact .inr ⟨⟨by rw [k1]; exact h1, k2⟩, .inl (by simp only [k1]; exact h2.1)⟩
    · cases h2

/-! ## `map_future`, `throttle` -/

/-- What is left of a future, counting one for being there. -/
def madeLeft {ρ : Type} : Option (Made ι ρ) → Nat
  | none => 0
  | some m => m.src.todo.length + 1

/-- `map_future`: the end is reported once the signal ended and the last future completed. -/
theorem C64_map_future (g : α → List (Poll β)) (script : List (Poll (Option α)))
    (h : Finite script) (hg : ∀ a, Completes (g a)) :
    EndsSoon (SMapFuture.poll g) (SMapFuture.init script) := by
  refine ends_lex (fun s => s.signal.left) (fun s => madeLeft s.future) (fun s => s.first.toNat)
    (fun s => s.signal.Due ∧ ∀ m, s.future = some m → Completes m.src.todo) ?_ _
    ⟨Inp.due_mk' h, by simp [SMapFuture.init]⟩
  intro w s r s' ⟨hs, hi⟩ hp
  unfold SMapFuture.poll at hp
  obtain ⟨st, ⟨fut, old⟩, i, e⟩ :
      ∃ st l i, s.signal.loop w (mapFutureBody g) (s.future, s.old) = (st, l, i) := ⟨_, _, _, rfl⟩
  obtain ⟨h1, h2⟩ := Inp.loop_due e hs
  have h3 : ∀ m, fut = some m → Completes m.src.todo :=
    Inp.loop_inv e (fun l => ∀ m, l.1 = some m → Completes m.src.todo)
    (fun s a s' hh he => by
      simp only [mapFutureBody] at he
      cases he
      intro m hm
      cases hm
      exact hg a) (fun s a s' r => r.elim) hi
  rw [e] at hp
  have hfin : ∀ done, some (SMapFuture.finish w done ⟨i, fut, s.first, old⟩) = some (r, s') →
      s'.signal = i ∧ (∀ m, s'.future = some m → Completes m.src.todo) ∧
      (done = true → r = .ready none ∨ madeLeft s'.future < madeLeft fut ∨
        madeLeft s'.future = madeLeft fut ∧ s'.first.toNat < s.first.toNat) := by
    intro done hf
    injection hf with hf
    unfold SMapFuture.finish at hf
    cases fut with
    | none =>
      simp only at hf
      cases hfi : s.first <;> cases done <;> simp [hfi] at hf <;> obtain ⟨rfl, rfl⟩ := hf <;> simp
    | some m =>
      simp only at hf
      obtain ⟨q, src, hq⟩ : ∃ q src, m.src.poll w = (q, src) := ⟨_, _, rfl⟩
      have hx := (h3 m rfl).poll hq
      rw [hq] at hf
      cases q with
      | ready b => cases hf; exact ⟨rfl, by simp, fun _ => .inr (.inl (by simp [madeLeft]))⟩
      | pending =>
        simp only at hf
        have : s'.signal = i ∧ s'.future = some ⟨m.tag, src⟩ := by
          split at hf <;> cases hf <;> exact ⟨rfl, rfl⟩
        refine ⟨this.1, fun m' hm' => ?_, fun _ => .inr (.inl ?_)⟩
        · rw [this.2] at hm'
          cases hm'
          exact hx.2 rfl
        · rw [this.2]
          simpa [madeLeft] using hx.1
  cases st with
  | panic => cases hp
  | ret d => cases d
  | pending =>
    obtain ⟨f1, f2, -⟩ := hfin false hp
    rcases h2 with h2 | ⟨-, -, h2⟩
    · exact .inr ⟨⟨by rw [f1]; exact h1, f2⟩, .inl (by simp only [f1]; exact h2)⟩
    · cases h2
  | ended =>
    obtain ⟨f1, f2, f3⟩ := hfin true hp
    rcases h2 with h2 | ⟨h2, h4, -⟩
    · exact .inr ⟨⟨by rw [f1]; exact h1, f2⟩, .inl (by simp only [f1]; exact h2)⟩
    · cases h4
      rcases f3 rfl with f3 | f3
      · exact .inl f3
      · exact .inr ⟨⟨by rw [f1]; exact h1, f2⟩, .inr ⟨by simp only [f1, h2], f3⟩⟩

/-- `throttle`: the end is reported once the signal ended and the delay running then is over. -/
theorem C64_throttle (g : Nat → List (Poll Unit)) (script : List (Poll (Option α)))
    (h : Finite script) (hg : ∀ n, Completes (g n)) :
    EndsSoon (SThrottle.poll g) (SThrottle.init script) := by
  refine ends_lex (fun s => s.signal.left) (fun s => madeLeft s.future) (fun _ => 0)
    (fun s => s.signal.Due ∧ ∀ m, s.future = some m → Completes m.src.todo) ?_ _
    ⟨Inp.due_mk' h, by simp [SThrottle.init]⟩
  intro w s r s' ⟨hs, hi⟩ hp
  have hsig : ∀ m m' : SThrottle α, ∀ r, m.signal.Due →
      (∀ x, m.future = some x → Completes x.src.todo) →
      SThrottle.pollSignal g w m = (r, m') →
      (m'.signal.Due ∧ ∀ x, m'.future = some x → Completes x.src.todo) ∧
      (r = .ready none ∨ m'.signal.left < m.signal.left) := by
    intro m m' r hd hm e
    unfold SThrottle.pollSignal at e
    obtain ⟨c, i, hc⟩ : ∃ c i, m.signal.poll w = (c, i) := ⟨_, _, rfl⟩
    obtain ⟨h1, h2⟩ := Inp.poll_due hc hd
    rw [hc] at e
    match c with
    | none => cases e; exact ⟨⟨h1, hm⟩, .inl rfl⟩
    | some (.ready none) => cases e; exact ⟨⟨h1, hm⟩, .inl rfl⟩
    | some .pending =>
      cases e
      rcases h2 with h2 | ⟨-, h2, -⟩
      · exact ⟨⟨h1, hm⟩, .inr h2.1⟩
      · cases h2
    | some (.ready (some a)) =>
      simp only at e
      obtain ⟨q, src, hq⟩ : ∃ q src, (Made.new g m.calls).src.poll w = (q, src) := ⟨_, _, rfl⟩
      have hx := (show Completes (Made.new g m.calls).src.todo from hg m.calls).poll hq
      rw [hq] at e
      have h2' : i.left < m.signal.left := by
        rcases h2 with h2 | ⟨-, h2, -⟩
        · exact h2.1
        · cases h2
      cases q with
      | ready u => cases e; exact ⟨⟨h1, by simp⟩, .inr h2'⟩
      | pending =>
        cases e
        exact ⟨⟨h1, fun x hx' => by cases hx'; exact hx.2 rfl⟩, .inr h2'⟩
  unfold SThrottle.poll at hp
  cases hf : s.future with
  | none =>
    simp only [hf] at hp
    injection hp with hp
    obtain ⟨k1, k2⟩ := hsig s s' r hs hi hp
    exact k2.imp id fun k2 => ⟨k1, .inl k2⟩
  | some m =>
    simp only [hf] at hp
    obtain ⟨q, src, hq⟩ : ∃ q src, m.src.poll w = (q, src) := ⟨_, _, rfl⟩
    have hx := (hi m hf).poll hq
    rw [hq] at hp
    cases q with
    | ready u =>
      simp only at hp
      injection hp with hp
      obtain ⟨k1, k2⟩ := hsig ⟨s.signal, none, s.calls, s.old ++ [⟨m.tag, src⟩]⟩ s' r hs
        (fun _ h => by cases h) hp
      exact k2.imp id fun k2 => ⟨k1, .inl k2⟩
    | pending =>
      cases hp
      refine .inr ⟨⟨hs, fun x hx' => by cases hx'; exact hx.2 rfl⟩, .inr ⟨rfl, .inl ?_⟩⟩
      simpa [madeLeft, hf] using hx.1

/-! ## `sample_stream_cloned` -/

/-- `sample_stream_cloned`: the end is reported once the stream ended, whatever the signal does. -/
theorem C64_sample_stream (signal : List (Poll (Option α))) (stream : List (Poll (Option β)))
    (h : Finite stream) : EndsSoon SSample.poll (SSample.init signal stream) := by
  refine ends_src (·.stream) ?_ _ h
  intro w s r s' hp
  obtain ⟨q, src', e⟩ : ∃ q src', s.stream.poll w = (q, src') := ⟨_, _, rfl⟩
  have he := Src.poll_eats e
  simp only [SSample.poll, e] at hp
  match q with
  | .ready none => cases hp; exact .inl rfl
  | .pending => cases hp; exact .inr (he.resolve_left (by simp))
  | .ready (some b) =>
    have he' := he.resolve_left (by simp)
    simp only at hp
    split at hp
    · cases hp; exact .inr he'
    · cases hp

/-! ## `map_ref!`, `map_mut!` -/

theorem MapRef1.poll_live {w : Waker} {m m' : MapRef1 α} {p : PollResult}
    (e : m.poll w = (p, m')) (h : m.signal.Due) :
    m'.signal.Due ∧ (m'.signal.left < m.signal.left ∨
      m'.signal = m.signal ∧ p.done = true ∧ p.changed = false) := by
  unfold MapRef1.poll at e
  obtain ⟨c, i, hc⟩ : ∃ c i, m.signal.poll w = (c, i) := ⟨_, _, rfl⟩
  obtain ⟨h1, h2⟩ := Inp.poll_due hc h
  rw [hc] at e
  match c with
  | none =>
    cases e
    exact ⟨h1, .inr ⟨(h2.resolve_left fun h => h.2.1 rfl).1, rfl, rfl⟩⟩
  | some (.ready none) => cases e; exact ⟨h1, .inl (h2.resolve_right (by simp)).1⟩
  | some (.ready (some a)) => cases e; exact ⟨h1, .inl (h2.resolve_right (by simp)).1⟩
  | some .pending => cases e; exact ⟨h1, .inl (h2.resolve_right (by simp)).1⟩

theorem pollInputs_live {w : Waker} {ms ms' : List (MapRef1 α)} {p : PollResult}
    (e : pollInputs w ms = (p, ms')) (h : ∀ m ∈ ms, m.signal.Due) :
    (∀ m ∈ ms', m.signal.Due) ∧
    (leftSum (·.signal) ms' < leftSum (·.signal) ms ∨
      leftSum (·.signal) ms' = leftSum (·.signal) ms ∧ p.done = true ∧ p.changed = false) := by
  induction ms generalizing ms' p with
  | nil => simp only [pollInputs] at e; cases e; simp
  | cons m ms ih =>
    obtain ⟨p1, m1, e1⟩ : ∃ a b, m.poll w = (a, b) := ⟨_, _, rfl⟩
    obtain ⟨p2, ms2, e2⟩ : ∃ a b, pollInputs w ms = (a, b) := ⟨_, _, rfl⟩
    simp only [pollInputs, e1, e2] at e
    cases e
    obtain ⟨a1, a2⟩ := MapRef1.poll_live e1 (h m (by simp))
    obtain ⟨b1, b2⟩ := ih e2 fun y hy => h y (by simp [hy])
    refine ⟨?_, ?_⟩
    · intro x hx
      rcases List.mem_cons.1 hx with rfl | hx
      · exact a1
      · exact b1 x hx
    · simp only [leftSum_cons]
      rcases a2 with a2 | ⟨a2, a3, a4⟩ <;> rcases b2 with b2 | ⟨b2, b3, b4⟩
      · exact .inl (by omega)
      · exact .inl (by omega)
      · rw [a2]; exact .inl (by omega)
      · rw [a2]; exact .inr ⟨by omega, by simp [PollResult.merge, a3, b3],
          by simp [PollResult.merge, a4, b4]⟩

theorem setValues_signals (ms : List (MapRef1 α)) (vs : List α) :
    (setValues ms vs).map (·.signal) = ms.map (·.signal) := by
  induction ms generalizing vs with
  | nil => simp [setValues]
  | cons m ms ih =>
    cases vs with
    | nil => simp [setValues]
    | cons v vs => simp [setValues, ih]

/-- `map_mut!` (`map2_mut` …) for any number of signals: the end is reported once all of them
ended. -/
theorem C64_map_mut (f : List α → β × List α) (scripts : List (List (Poll (Option α))))
    (h : ∀ s ∈ scripts, Finite s) : EndsSoon (SMapMut.poll f) (SMapRef.init scripts) := by
  refine ends_lex (fun ms => leftSum (·.signal) ms) (fun _ => 0) (fun _ => 0)
    (fun ms => ∀ m ∈ ms, m.signal.Due) ?_ _ ?_
  · intro w ms r ms' hi hp
    unfold SMapMut.poll at hp
    obtain ⟨p, ms1, e⟩ : ∃ p ms1, pollInputs w ms = (p, ms1) := ⟨_, _, rfl⟩
    obtain ⟨h1, h2⟩ := pollInputs_live e hi
    rw [e] at hp
    simp only at hp
    have key : ms'.map (·.signal) = ms1.map (·.signal) := by
      split at hp
      · split at hp
        · cases hp
        · cases hp; exact setValues_signals _ _
      · split at hp <;> cases hp <;> rfl
    have hdue : ∀ m ∈ ms', m.signal.Due := by
      intro m hm
      have : m.signal ∈ ms1.map (·.signal) := key ▸ List.mem_map_of_mem hm
      obtain ⟨m1, hm1, he⟩ := List.mem_map.1 this
      exact he ▸ h1 m1 hm1
    have hsum : leftSum (·.signal) ms' = leftSum (·.signal) ms1 := by
      have : ∀ l : List (MapRef1 α), leftSum (·.signal) l = ((l.map (·.signal)).map Inp.left).sum := by
        intro l; simp [leftSum, Function.comp_def]
      rw [this, this, key]
    rcases h2 with h2 | ⟨-, h3, h4⟩
    · exact .inr ⟨hdue, .inl (by simpa only [hsum] using h2)⟩
    · simp [h3, h4] at hp
      exact .inl hp.1.symm
  · intro m hm
    obtain ⟨script, hs, rfl⟩ := List.mem_map.1 hm
    exact Inp.due_mk' (h script hs)

/-- `map_ref!` (`map_ref2` …). -/
theorem C64_map_ref (f : List α → β) (scripts : List (List (Poll (Option α))))
    (h : ∀ s ∈ scripts, Finite s) : EndsSoon (SMapRef.poll f) (SMapRef.init scripts) :=
  C64_map_mut (fun vs => (f vs, vs)) scripts h

/-- `and`. -/
theorem C64_and (a b : List (Poll (Option Bool))) (ha : Finite a) (hb : Finite b) :
    EndsSoon SAnd.poll (SMapRef.init [a, b]) :=
  C64_map_ref _ [a, b] (by simp [ha, hb])

/-- `or`. -/
theorem C64_or (a b : List (Poll (Option Bool))) (ha : Finite a) (hb : Finite b) :
    EndsSoon SOr.poll (SMapRef.init [a, b]) :=
  C64_map_ref _ [a, b] (by simp [ha, hb])

/-! ## `to_future` -/

/-- `to_future`: completes (or panics) once the signal ended. -/
theorem C64_to_future (script : List (Poll (Option α))) (h : Finite script) :
    CompletesSoon SToFuture.poll (SToFuture.init script) := by
  have key : ∀ k (s : SToFuture α), s.signal.todo.length ≤ k → .ready none ∈ s.signal.todo →
      CompletesSoon SToFuture.poll s := by
    intro k
    induction k with
    | zero =>
      intro s hk hm
      have := List.length_pos_of_mem hm
      omega
    | succ k ih =>
      intro s hk hm w
      obtain ⟨st, v, src, e⟩ : ∃ st v src, s.signal.loop (w 0) toFutureBody s.value = (st, v, src) :=
        ⟨_, _, _, rfl⟩
      have he := Src.loop_due e hm
      cases st with
      | panic => exact ⟨1, fun outs t h => by simp [runF, SToFuture.poll, e] at h⟩
      | ret d => cases d
      | ended =>
        cases v with
        | none => exact ⟨1, fun outs t h => by simp [runF, SToFuture.poll, e] at h⟩
        | some b =>
          refine ⟨1, fun outs t h => ⟨b, ?_⟩⟩
          simp [runF, SToFuture.poll, e] at h
          simp [← h.1]
      | pending =>
        obtain ⟨n, hn⟩ := ih ⟨src, v⟩ (by simp only; omega) (he.2 (by simp)) (fun i => w (i + 1))
        refine ⟨n + 1, fun outs t h => ?_⟩
        rw [range_map_succ] at h
        simp only [runF, SToFuture.poll, e] at h
        split at h
        · cases h
        · rename_i heq
          cases h
          obtain ⟨b, hb⟩ := hn _ _ heq
          exact ⟨b, List.mem_cons_of_mem _ hb⟩
  exact key _ _ (Nat.le_refl _) h

/-! ## `SignalMap` -/

section

variable {K V : Type} [LinearOrder K]

theorem all_bInsert {P : V → Prop} {k : K} {v : V} {l : List (K × V)} (h : ∀ x ∈ l, P x.2)
    (hv : P v) : ∀ x ∈ (bInsert k v l).2, P x.2 := by
  induction l with
  | nil => simpa [bInsert] using hv
  | cons e l ih =>
    have ih := ih fun x hx => h x (by simp [hx])
    have he := h e (by simp)
    have hl := fun x (hx : x ∈ l) => h x (by simp [hx])
    simp only [bInsert]
    split
    · intro x hx
      rcases List.mem_cons.1 hx with rfl | hx
      · exact hv
      · exact h x hx
    · split
      · intro x hx
        rcases List.mem_cons.1 hx with rfl | hx
        · exact hv
        · exact hl x hx
      · intro x hx
        rcases List.mem_cons.1 hx with rfl | hx
        · exact he
        · exact ih x hx

theorem all_bRemove {P : V → Prop} {k : K} {l : List (K × V)} (h : ∀ x ∈ l, P x.2) :
    ∀ x ∈ (bRemove k l).2, P x.2 := by
  induction l with
  | nil => simp [bRemove]
  | cons e l ih =>
    have ih := ih fun x hx => h x (by simp [hx])
    have he := h e (by simp)
    have hl := fun x (hx : x ∈ l) => h x (by simp [hx])
    simp only [bRemove]
    split
    · exact h
    · split
      · exact hl
      · intro x hx
        rcases List.mem_cons.1 hx with rfl | hx
        · exact he
        · exact ih x hx

theorem all_bUpdate {P : V → Prop} {k : K} {v : V} {l l' : List (K × V)}
    (h : ∀ x ∈ l, P x.2) (hv : P v) (e : bUpdate k v l = some l') : ∀ x ∈ l', P x.2 := by
  induction l generalizing l' with
  | nil => simp [bUpdate] at e
  | cons y l ih =>
    have he := h y (by simp)
    have hl := fun x (hx : x ∈ l) => h x (by simp [hx])
    simp only [bUpdate] at e
    split at e
    · cases e
      intro x hx
      rcases List.mem_cons.1 hx with rfl | hx
      · exact hv
      · exact hl x hx
    · split at e
      · cases e
      · rename_i heq
        cases e
        intro x hx
        rcases List.mem_cons.1 hx with rfl | hx
        · exact he
        · exact ih hl heq x hx

theorem newEntries_due {g : V → List (Poll (Option β))} (hg : ∀ v, Finite (g v)) {w : Waker}
    {es : List (K × V)} {l l' : List (K × MState V β)} {out : List (K × β)}
    (e : newEntries g w es l = some (out, l')) (h : ∀ x ∈ l, x.2.sig.Due) :
    ∀ x ∈ l', x.2.sig.Due := by
  induction es generalizing l l' out with
  | nil => simp only [newEntries] at e; cases e; exact h
  | cons x es ih =>
    simp only [newEntries] at e
    split at e
    · cases e
    · rename_i hv
      split at e
      · cases e
      · rename_i hv'
        cases e
        exact ih hv' (all_bInsert (P := fun m : MState V β => m.sig.Due) h (MState.new_due hv (hg _)))

theorem mapValueBody_due {g : V → List (Poll (Option β))} (hg : ∀ t, Finite (g t)) {w : Waker}
    {s s' : List (K × MState V β) × List (MapDiff K β)} {d : MapDiff K V}
    (h : ∀ x ∈ s.1, x.2.sig.Due) (e : mapValueBody g w s d = .cont s') :
    ∀ x ∈ s'.1, x.2.sig.Due := by
  obtain ⟨l, np⟩ := s
  cases d with
  | replace es =>
    simp only [mapValueBody] at e
    split at e
    · cases e
    · rename_i hv; cases e; exact newEntries_due hg hv (by simp)
  | insert k v =>
    simp only [mapValueBody] at e
    split at e
    · cases e
    · rename_i hv; cases e; exact all_bInsert (P := fun m : MState V β => m.sig.Due) h (MState.new_due hv (hg _))
  | update k v =>
    simp only [mapValueBody] at e
    split at e
    · cases e
    · rename_i hv
      split at e
      · cases e
      · rename_i hv'; cases e; exact all_bUpdate (P := fun m : MState V β => m.sig.Due) h (MState.new_due hv (hg _)) hv'
  | remove k => simp only [mapValueBody] at e; cases e; exact all_bRemove (P := fun m : MState V β => m.sig.Due) h
  | clear => simp only [mapValueBody] at e; cases e; simp

omit [LinearOrder K] in
theorem pollEntries_due {w : Waker} {p p' : List (MapDiff K β)} {l l' : List (K × MState V β)}
    {hp : Bool} (e : pollEntries w p l = (hp, p', l')) (h : ∀ x ∈ l, x.2.sig.Due) :
    (∀ x ∈ l', x.2.sig.Due) ∧
    (leftSum (·.2.sig) l' < leftSum (·.2.sig) l ∨
      leftSum (·.2.sig) l' = leftSum (·.2.sig) l ∧ p' = p ∧ hp = false) := by
  induction l generalizing p p' l' hp with
  | nil => simp only [pollEntries] at e; cases e; simp
  | cons s l ih =>
    obtain ⟨c, i, hi⟩ : ∃ c i, s.2.sig.poll w = (c, i) := ⟨_, _, rfl⟩
    obtain ⟨a1, a2⟩ := Inp.poll_due hi (h s (by simp))
    have ih' := fun p p' l' hp e => ih (p := p) (p' := p') (l' := l') (hp := hp) e
      (fun y hy => h y (by simp [hy]))
    simp only [pollEntries, hi] at e
    have key : ∃ p1 hp2 p2 l2, pollEntries w p1 l = (hp2, p2, l2) ∧ p' = p2 ∧
        l' = (s.1, ⟨s.2.tag, i⟩) :: l2 ∧ (c = none → p1 = p ∧ hp = hp2) := by
      match c with
      | some (.ready (some v)) => cases e; exact ⟨_, _, _, _, rfl, rfl, rfl, by simp⟩
      | some (.ready none) => cases e; exact ⟨p, _, _, _, rfl, rfl, rfl, by simp⟩
      | some .pending => cases e; exact ⟨p, _, _, _, rfl, rfl, rfl, by simp⟩
      | none => cases e; exact ⟨p, _, _, _, rfl, rfl, rfl, by simp⟩
    obtain ⟨p1, hp2, p2, l2, k1, rfl, rfl, k2⟩ := key
    obtain ⟨b1, b2⟩ := ih' _ _ _ _ k1
    refine ⟨?_, ?_⟩
    · intro x hx
      rcases List.mem_cons.1 hx with rfl | hx
      · exact a1
      · exact b1 x hx
    · simp only [leftSum_cons]
      rcases a2 with ⟨a2, -⟩ | ⟨a2, a3, -⟩
      · rcases b2 with b2 | ⟨b2, -⟩ <;> exact .inl (by omega)
      · obtain ⟨k3, k4⟩ := k2 a3
        rw [a2]
        rcases b2 with b2 | ⟨b2, b3, b4⟩
        · exact .inl (by omega)
        · exact .inr ⟨by omega, by rw [b3, k3], by rw [k4, b4]⟩

/-- `map_value_signal`. -/
theorem C64_map_value_signal (g : V → List (Poll (Option β)))
    (script : List (Poll (Option (MapDiff K V)))) (h : Finite script) (hg : ∀ t, Finite (g t)) :
    EndsSoon (MMapSignal.poll g) (MMapSignal.init script) := by
  refine ends_lex (fun s => s.signal.left) (fun s => leftSum (·.2.sig) s.signals)
    (fun s => s.pending.length)
    (fun s => s.signal.Due ∧ ∀ x ∈ s.signals, x.2.sig.Due) ?_ _
    ⟨Inp.due_mk' h, by simp [MMapSignal.init]⟩
  intro w s r s' ⟨hs, hi⟩ hp
  unfold MMapSignal.poll at hp
  cases hpe : s.pending with
  | cons d rest =>
    simp only [hpe] at hp
    cases hp
    exact .inr ⟨⟨hs, hi⟩, .inr ⟨rfl, .inr ⟨rfl, by simp [hpe]⟩⟩⟩
  | nil =>
    simp only [hpe] at hp
    obtain ⟨st, ⟨l, np⟩, i, e⟩ :
        ∃ st l i, s.signal.loop w (mapValueBody g w) (s.signals, []) = (st, l, i) := ⟨_, _, _, rfl⟩
    obtain ⟨h1, h2⟩ := Inp.loop_due e hs
    have h3 : ∀ x ∈ l, x.2.sig.Due := Inp.loop_inv e (fun l => ∀ x ∈ l.1, x.2.sig.Due)
      (fun s a s' hh he => mapValueBody_due hg hh he) (fun s a s' r => r.elim) hi
    rw [e] at hp
    have hfin : ∀ top, some (MMapSignal.finish w top i l np) = some (r, s') → s'.signal = i ∧
        (∀ x ∈ s'.signals, x.2.sig.Due) ∧
        (leftSum (·.2.sig) s'.signals < leftSum (·.2.sig) l ∨
          (top = true → np = [] → r = .ready none)) := by
      intro top hf
      unfold MMapSignal.finish at hf
      obtain ⟨hp, add, xs, hq⟩ : ∃ a b c, pollEntries w np l = (a, b, c) := ⟨_, _, _, rfl⟩
      obtain ⟨b1, b2⟩ := pollEntries_due hq h3
      rw [hq] at hf
      cases add with
      | cons d rest =>
        cases hf
        refine ⟨rfl, b1, b2.imp id ?_⟩
        rintro ⟨-, rfl, -⟩ - h'
        cases h'
      | nil =>
        simp only at hf
        have hs' : s'.signal = i ∧ s'.signals = xs := by split at hf <;> cases hf <;> exact ⟨rfl, rfl⟩
        refine ⟨hs'.1, by rw [hs'.2]; exact b1, ?_⟩
        rw [hs'.2]
        refine b2.imp id ?_
        rintro ⟨-, -, b4⟩ ht -
        simp [ht, b4] at hf
        exact hf.1.symm
    cases st with
    | panic => cases hp
    | ret d => cases d
    | pending =>
      obtain ⟨f1, f2, -⟩ := hfin false hp
      rcases h2 with h2 | ⟨-, -, h2⟩
      · exact .inr ⟨⟨by rw [f1]; exact h1, f2⟩, .inl (by simp only [f1]; exact h2)⟩
      · cases h2
    | ended =>
      obtain ⟨f1, f2, f3⟩ := hfin true hp
      rcases h2 with h2 | ⟨h2, h4, -⟩
      · exact .inr ⟨⟨by rw [f1]; exact h1, f2⟩, .inl (by simp only [f1]; exact h2)⟩
      · cases h4
        rcases f3 with f3 | f3
        · exact .inr ⟨⟨by rw [f1]; exact h1, f2⟩, .inr ⟨by simp only [f1, h2], .inl f3⟩⟩
        · exact .inl (f3 rfl rfl)

end

/-! ## `key_cloned` -/

section

variable {K V : Type} [DecidableEq K]

theorem pollLoop_twoEnds {σ ρ : Type} {w : Waker} {body : σ → α → Ctl σ ρ}
    (pre : List (Poll (Option α))) (hist : List (Waker × Poll (Option α))) (s : σ)
    {st : Stop ρ} {s' : σ} {src' : Src (Option α)}
    (e : pollLoop w body (pre ++ [.ready none, .ready none]) hist s = (st, s', src')) :
    src'.todo.length < pre.length + 2 ∧
      ((∃ pre', src'.todo = pre' ++ [.ready none, .ready none]) ∨
        src'.todo = [.ready none] ∧ st = .ended) := by
  induction pre generalizing hist s with
  | nil => simp [pollLoop] at e; obtain ⟨rfl, rfl, rfl⟩ := e; simp
  | cons y pre ih =>
    match y with
    | .pending => simp only [List.cons_append, pollLoop] at e; cases e; simp
    | .ready none => simp only [List.cons_append, pollLoop] at e; cases e; simp
    | .ready (some a) =>
      simp only [List.cons_append, pollLoop] at e
      cases hb : body s a with
      | cont s1 =>
        rw [hb] at e
        have := ih _ _ e
        exact ⟨by simp only [List.length_cons]; omega, this.2⟩
      | ret s1 r => rw [hb] at e; cases e; simp
      | panic => rw [hb] at e; cases e; simp

/-- `key_cloned` (C64 partial).  Missing: it does not report the end if the input reports it only
once, in the same poll as the last change of the key (`C64_key_cloned_fails`); with an input that
repeats its end it does. -/
theorem C64_key_cloned_partial (key : K) (pre : List (Poll (Option (MapDiff K V)))) :
    EndsSoon MWatch.poll (MWatch.init key (pre ++ [.ready none, .ready none])) := by
  refine ends_lex (fun s => s.signal.todo.length) (fun _ => 0) (fun _ => 0)
    (fun s => (∃ pre, s.signal.todo = pre ++ [.ready none, .ready none]) ∨
      s.signal.todo = [.ready none] ∧ s.first = false) ?_ _ (.inl ⟨pre, rfl⟩)
  intro w s r s' hi hp
  obtain ⟨st, c, src, e⟩ : ∃ st c src, s.signal.loop w (watchBody s.watchKey) none = (st, c, src) :=
    ⟨_, _, _, rfl⟩
  simp only [MWatch.poll, e] at hp
  rcases hi with ⟨pre, hi⟩ | ⟨hi, hf⟩
  · have e' := e
    simp only [Src.loop, hi] at e'
    obtain ⟨h1, h2⟩ := pollLoop_twoEnds _ _ _ e'
    have hlen : src.todo.length < s.signal.todo.length := by
      rw [hi]; simpa using h1
    have : r = .ready none ∨ s'.signal = src ∧ (st = .ended → s'.first = false) := by
      cases st with
      | panic => cases hp
      | ret d => cases d
      | ended =>
        cases c <;> cases hfi : s.first <;> simp [MWatch.finish, hfi] at hp <;>
          obtain ⟨rfl, rfl⟩ := hp <;> simp
      | pending =>
        cases c <;> cases hfi : s.first <;> simp [MWatch.finish, hfi] at hp <;>
          obtain ⟨rfl, rfl⟩ := hp <;> simp
    refine this.imp id fun ⟨g1, g2⟩ => ⟨?_, .inl (by simpa only [g1] using hlen)⟩
    rw [g1]
    exact h2.imp id fun h => ⟨h.1, g2 h.2⟩
  · simp only [Src.loop, hi, pollLoop] at e
    cases e
    simp [MWatch.finish, hf] at hp
    exact .inl hp.1.symm

end

/-- The full C64 is false of `key_cloned`: the input inserts the key and ends; `key_cloned` reports
the value, polls the ended input again, and waits for ever. -/
theorem C64_key_cloned_fails :
    ∃ (script : List (Poll (Option (MapDiff Nat Nat)))), Finite script ∧
      ¬ EndsSoon MWatch.poll (MWatch.init 0 script) := by
  refine ⟨[.ready (some (.insert 0 5)), .ready none], by simp [Finite], fun h => ?_⟩
  obtain ⟨n, hn⟩ := h fun _ => 0
  obtain ⟨outs, s, h1, h2, -⟩ := inv_run (poll := MWatch.poll)
    (fun outs (s : MWatch Nat Nat) => .ready none ∉ outs ∧ s.watchKey = 0 ∧
      ((s.signal.todo = [.ready (some (.insert 0 5)), .ready none]) ∨
        s.signal.todo = [] ∧ s.first = false)) (by
      rintro w outs ⟨⟨todo, hist⟩, k, f⟩ ⟨g1, rfl, g2 | ⟨g2, g3⟩⟩
      · simp only at g2
        subst g2
        exact ⟨_, _, rfl, by simpa using g1, rfl, .inr ⟨rfl, rfl⟩⟩
      · simp only at g2 g3
        subst g2 g3
        exact ⟨_, _, rfl, by simpa using g1, rfl, .inr ⟨rfl, rfl⟩⟩)
    ((List.range n).map fun _ => 0)
    (MWatch.init 0 [.ready (some (.insert 0 5)), .ready none])
    ⟨by simp, rfl, .inl rfl⟩
  exact h2 (hn outs s h1)

/-! ## The hypotheses are met -/

/-- `flatten` of two inner vectors, one of which ends after the outer one: the end comes with the
seventh poll. -/
example :
    (run (VFlatten.poll fun n : Nat => [.pending, .ready (some (.push n)), .ready none]) [0, 1, 2, 3, 4]
      (VFlatten.init [.ready (some (.push 1)), .pending, .ready (some (.push 2)), .ready none])).map
        (·.1) = some [.pending, .ready (some (.insertAt 0 1)), .ready (some (.insertAt 1 2)), .ready none] :=
  rfl

/-- `map_future` whose last future completes long after the signal ended. -/
example :
    (run (SMapFuture.poll fun n : Nat => [.pending, .pending, .ready (n + 1)]) [0, 1, 2, 3, 4]
      (SMapFuture.init [.ready (some 1), .ready none])).map (·.1) =
        some [.ready (some none), .pending, .ready (some (some 2)), .ready none] :=
  rfl

end Verif
