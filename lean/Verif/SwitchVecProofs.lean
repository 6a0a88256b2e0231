import Verif.SignalVec6
import Verif.MapSignalProofs

/-!
# Proofs about `switch_signal_vec`
-/

namespace Verif

variable {α τ : Type}

/-- The loop over the outer signal. -/
theorem lastValue_loop (w : Waker) (i : Inp (Option τ)) (hok : i.Ok) :
    ∃ st vs i', i.loop w lastValue none = (st, vs.getLast?, i') ∧ i'.Ok ∧
      i'.src.got = i.src.got ++ vs ∧
      ((st = .ended ∧ i'.alive = false) ∨ (st = .pending ∧ i'.alive = true ∧ i'.src.armed w)) := by
  obtain ⟨st, s', i', h1, h2, h3⟩ := Inp.loop_rule (w := w) (body := lastValue (τ := τ))
    (fun s g _ => ∃ vs, g = i.src.got ++ vs ∧ s = vs.getLast?) (fun r _ _ _ => r.elim)
    (by
      rintro s g a t ⟨vs, rfl, rfl⟩
      exact ⟨vs ++ [a], by simp, by simp⟩)
    i none hok ⟨[], by simp, rfl⟩
  cases st with
  | panic => exact h3.elim
  | ret r => exact r.elim
  | ended =>
    obtain ⟨⟨vs, h4, rfl⟩, h5⟩ := h3
    exact ⟨_, vs, i', h1, h2, h4, .inl ⟨rfl, h5⟩⟩
  | pending =>
    obtain ⟨⟨vs, h4, rfl⟩, h5⟩ := h3
    exact ⟨_, vs, i', h1, h2, h4, .inr ⟨rfl, h5⟩⟩

theorem calculateLen_apply {d : VecDiff α} {xs ys : List α} (h : d.apply xs = some ys) :
    calculateLen xs.length d = some ys.length := by
  cases apply_eq_some.1 h <;> simp [calculateLen] <;> omega

/-- The script an inner vector was made from. -/
def scriptOf (g : τ → List (Poll (Option (VecDiff α)))) : Option τ → List (Poll (Option (VecDiff α)))
  | none => []
  | some v => g v

/-- Invariant: `ys` is what the current inner vector describes. -/
structure SwInv (g : τ → List (Poll (Option (VecDiff α)))) (m : VSwitch τ α) (ys : List α) :
    Prop where
  signal : m.signal.Ok
  inner : m.inner.alive = true → m.inner.Ok
  fused : m.inner.src.fused
  over : m.inner.alive = false → m.cur = none ∨ m.inner.src.ended
  valid : Valid anyDiff m.inner.src ys
  all : m.inner.src.all = items (scriptOf g m.cur)
  cur : m.cur = m.signal.src.got.getLast?

/-- After a poll that did not answer with the end: `ys` is also what was emitted. -/
structure SwLive (g : τ → List (Poll (Option (VecDiff α)))) (m : VSwitch τ α) (ys : List α) :
    Prop extends SwInv g m ys where
  len : m.len = ys.length

/-- After the end. -/
structure SwDone (g : τ → List (Poll (Option (VecDiff α)))) (m : VSwitch τ α) (zs : List α) :
    Prop where
  inv : ∃ ys, SwInv g m ys ∧ (zs = ys ∨ ∃ w, m.inner.src.hist = [(w, .ready none)])
  outer : m.signal.alive = false
  inner : m.inner.alive = false

theorem SwInv.iok {g : τ → List (Poll (Option (VecDiff α)))} {m : VSwitch τ α} {ys : List α}
    (h : SwInv g m ys) : m.inner.alive = false ∨ m.inner.Ok := by
  cases ha : m.inner.alive with
  | false => exact .inl rfl
  | true => exact .inr (h.inner ha)

theorem getLast?_append_of {l vs : List τ} {v : τ} (h : vs.getLast? = some v) :
    (l ++ vs).getLast? = some v := by
  rw [List.getLast?_append, h]; rfl

/-- One poll of a new inner vector. -/
theorem new_inner (g : τ → List (Poll (Option (VecDiff α)))) (hg : ∀ v, Feed anyDiff (items (g v)) [])
    (w : Waker) (v : τ) :
    ∃ r i ys, (Inp.mk' (g v)).poll w = (some r, i) ∧ i.Ok ∧ Valid anyDiff i.src ys ∧
      i.src.all = items (g v) ∧
      ((r = .pending ∧ ys = [] ∧ i.alive = true ∧ i.src.armed w) ∨
       (r = .ready none ∧ ys = [] ∧ i.alive = false ∧ i.src.hist = [(w, .ready none)]) ∨
       (∃ d, r = .ready (some d) ∧ d.apply [] = some ys ∧ i.alive = true)) := by
  have hok : (Inp.mk' (g v)).Ok := Inp.ok_mk' _
  obtain ⟨r, i, ys, h1, h2, h3, h4, h5⟩ :=
    Inp.vpoll_rule w (Inp.mk' (g v)) [] hok (valid_mk' (hg v))
  obtain ⟨r', i', k1, k2, k3, -⟩ := Inp.poll_full w (Inp.mk' (g v)) hok
  rw [h1] at k1; cases k1
  have hall : i.src.all = items (g v) := by rw [k3]; exact Src.all_mk' _
  obtain _ | ((_ | d) | _) := r
  · exfalso
    rw [Inp.poll] at h1
    simp only [Inp.mk', ↓reduceIte] at h1
    split at h1 <;> simp at h1
  · refine ⟨_, i, ys, h1, h2, h3, hall, .inr (.inl ⟨rfl, h4, h5, ?_⟩)⟩
    simp only [Inp.poll, Inp.mk', Src.mk', Src.poll, ↓reduceIte] at h1
    split at h1
    · rename_i e
      split at e
      · simp at e
      · simp only [List.nil_append, Prod.mk.injEq] at e
        obtain ⟨rfl, rfl⟩ := e
        cases h1
        rfl
    · rename_i e' _
      cases h1
      exact (e' rfl).elim
  · exact ⟨_, i, ys, h1, h2, h3, hall, .inr (.inr ⟨d, rfl, h4.2, h5⟩)⟩
  · exact ⟨_, i, ys, h1, h2, h3, hall, .inl ⟨rfl, h4, h5.1, h5.2⟩⟩

/-- After `Pending`. -/
structure SwIdle (g : τ → List (Poll (Option (VecDiff α)))) (w : Waker) (m : VSwitch τ α)
    (ys : List α) : Prop extends SwLive g m ys where
  outer : m.signal.alive = false ∨ m.signal.src.armed w
  inn : m.inner.alive = false ∨ m.inner.src.armed w
  some : ¬ (m.signal.alive = false ∧ m.inner.alive = false)

theorem VSwitch.step (g : τ → List (Poll (Option (VecDiff α))))
    (hg : ∀ v, Feed anyDiff (items (g v)) []) (w : Waker) (m : VSwitch τ α) (ys : List α)
    (h : SwLive g m ys) :
    ∃ r m', VSwitch.poll g w m = some (r, m') ∧
      match r with
      | .ready (some d) => ∃ ys', d.apply ys = some ys' ∧ SwLive g m' ys'
      | .ready none => SwDone g m' ys
      | .pending => SwIdle g w m' ys := by
  obtain ⟨st, vs, sig, h1, h2, h3, h4⟩ := lastValue_loop w m.signal h.signal
  -- the answers when the loop is over
  suffices key : ∀ b, (b = true ∧ sig.alive = false) ∨
      (b = false ∧ sig.alive = true ∧ sig.src.armed w) →
      ∃ r m', VSwitch.finish g w b vs.getLast? sig m = some (r, m') ∧
      match r with
      | .ready (some d) => ∃ ys', d.apply ys = some ys' ∧ SwLive g m' ys'
      | .ready none => SwDone g m' ys
      | .pending => SwIdle g w m' ys by
    rcases h4 with ⟨rfl, h4⟩ | ⟨rfl, h4⟩
    · obtain ⟨r, m', k1, k2⟩ := key true (.inl ⟨rfl, h4⟩)
      exact ⟨r, m', by simp only [VSwitch.poll, h1]; exact k1, k2⟩
    · obtain ⟨r, m', k1, k2⟩ := key false (.inr ⟨rfl, h4⟩)
      exact ⟨r, m', by simp only [VSwitch.poll, h1]; exact k1, k2⟩
  clear h1 h4
  intro b hb
  have hset : sig.alive = false ∨ sig.src.armed w := by
    rcases hb with ⟨-, hb⟩ | ⟨-, -, hb⟩
    · exact .inl hb
    · exact .inr hb
  cases hv : vs.getLast? with
  | some v =>
    obtain ⟨r, i, zs, k1, k2, k3, k4, k5⟩ := new_inner g hg w v
    have hcur : some v = sig.src.got.getLast? := by rw [h3, getLast?_append_of hv]
    have inv : ∀ len, SwInv g ⟨sig, i, len, some v⟩ zs := fun len =>
      ⟨h2, fun _ => k2, k2.fused, fun ha => .inr (k2.dead.2 ha), k3, k4, hcur⟩
    rcases k5 with ⟨rfl, rfl, k6, k7⟩ | ⟨rfl, rfl, k6, k7⟩ | ⟨d, rfl, k6, k7⟩
    · simp only [VSwitch.finish, k1, newSignalVec]
      by_cases hl : m.len = 0
      · have : ys = [] := by have := h.len; rw [hl] at this; exact List.eq_nil_of_length_eq_zero this.symm
        subst this
        simp only [hl, ↓reduceIte]
        exact ⟨_, _, rfl, ⟨⟨inv _, rfl⟩, hset, .inr k7, by simp [k6]⟩⟩
      · simp only [hl, ↓reduceIte]
        exact ⟨_, _, rfl, [], rfl, inv _, rfl⟩
    · simp only [VSwitch.finish, k1, newSignalVec]
      rcases hb with ⟨rfl, hb⟩ | ⟨rfl, hb, hb'⟩
      · simp only [↓reduceIte]
        exact ⟨_, _, rfl, ⟨[], inv _, .inr ⟨w, k7⟩⟩, hb, k6⟩
      · by_cases hl : m.len = 0
        · have : ys = [] := by have := h.len; rw [hl] at this; exact List.eq_nil_of_length_eq_zero this.symm
          subst this
          simp only [hl, ↓reduceIte, Bool.false_eq_true]
          exact ⟨_, _, rfl, ⟨⟨inv _, rfl⟩, hset, .inl k6, by simp [hb]⟩⟩
        · simp only [hl, ↓reduceIte, Bool.false_eq_true]
          exact ⟨_, _, rfl, [], rfl, inv _, rfl⟩
    · simp only [VSwitch.finish, k1]
      by_cases hl : m.len = 0
      · have : ys = [] := by have := h.len; rw [hl] at this; exact List.eq_nil_of_length_eq_zero this.symm
        subst this
        have := calculateLen_apply k6
        simp only [List.length_nil] at this
        simp only [hl, ↓reduceIte, this]
        exact ⟨_, _, rfl, zs, k6, inv _, rfl⟩
      · simp only [hl, ↓reduceIte, k6]
        exact ⟨_, _, rfl, zs, rfl, inv _, rfl⟩
  | none =>
    have : vs = [] := by simpa using hv
    subst this
    have hcur : m.cur = sig.src.got.getLast? := by rw [h3, List.append_nil]; exact h.cur
    by_cases ha : m.inner.alive = true
    · obtain ⟨r, i, zs, k1, k2, k3, k4, k5⟩ := Inp.vpoll_rule w m.inner ys (h.inner ha) h.valid
      obtain ⟨r', i', j1, j2, j3, -⟩ := Inp.poll_full w m.inner (h.inner ha)
      rw [k1] at j1; cases j1
      have inv : ∀ len, SwInv g ⟨sig, i, len, m.cur⟩ zs := fun len =>
        ⟨h2, fun _ => k2, k2.fused, fun ha => .inr (k2.dead.2 ha), k3, j3.trans h.all, hcur⟩
      obtain _ | ((_ | d) | _) := r
      · exfalso
        rw [Inp.poll] at k1
        simp only [ha, ↓reduceIte] at k1
        split at k1 <;> simp at k1
      · cases k4
        simp only [VSwitch.finish, k1]
        rcases hb with ⟨rfl, hb⟩ | ⟨rfl, hb, hb'⟩
        · exact ⟨_, _, rfl, ⟨_, inv _, .inl rfl⟩, hb, k5⟩
        · exact ⟨_, _, rfl, ⟨⟨inv _, h.len⟩, hset, .inl k5, by simp [hb]⟩⟩
      · simp only [VSwitch.finish, k1, h.len, calculateLen_apply k4.2]
        exact ⟨_, _, rfl, zs, k4.2, inv _, rfl⟩
      · cases k4
        simp only [VSwitch.finish, k1]
        exact ⟨_, _, rfl, ⟨⟨inv _, h.len⟩, hset, .inr k5.2, by simp [k5.1]⟩⟩
    · have ha' : m.inner.alive = false := by simpa using ha
      have hp : m.inner.poll w = (none, m.inner) := by simp [Inp.poll, ha']
      have inv : SwInv g ⟨sig, m.inner, m.len, m.cur⟩ ys :=
        ⟨h2, h.inner, h.fused, h.over, h.valid, h.all, hcur⟩
      simp only [VSwitch.finish, hp]
      rcases hb with ⟨rfl, hb⟩ | ⟨rfl, hb, hb'⟩
      · exact ⟨_, _, rfl, ⟨_, inv, .inl rfl⟩, hb, ha'⟩
      · exact ⟨_, _, rfl, ⟨⟨inv, h.len⟩, hset, .inl ha', by simp [hb]⟩⟩

theorem VSwitch.init_live (g : τ → List (Poll (Option (VecDiff α))))
    (script : List (Poll (Option τ))) : SwLive g (VSwitch.init script : VSwitch τ α) [] :=
  ⟨⟨Inp.ok_mk' _, by simp [VSwitch.init], by simp [VSwitch.init, Src.mk', Src.fused],
    fun _ => .inl rfl, ⟨rfl, trivial⟩, rfl, rfl⟩, rfl⟩

end Verif
