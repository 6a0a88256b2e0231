import Verif.Input

/-!
# Rules for runs of combinators with diff outputs and with value outputs
-/

namespace Verif

variable {α β σ : Type}

theorem run_ne_nil' {poll : Waker → σ → Option (Poll (Option β) × σ)} {w : Waker}
    {ws : List Waker} {s0 s : σ} {outs : List (Poll (Option β))}
    (h : run poll (w :: ws) s0 = some (outs, s)) : outs ≠ [] := by
  rintro rfl
  simp only [run] at h
  split at h <;> try simp at h
  split at h <;> simp at h

/-- Rule for a combinator that emits diffs.  `Live s ys`: the state is `s`, the output emitted so
far describes `ys`, and the combinator may be polled.  `Idle`: the same right after `Pending`.
`Done`: right after the end. -/
theorem vec_run {poll : Waker → σ → Option (Poll (Option (VecDiff β)) × σ)}
    (Live Idle Done : σ → List β → Prop)
    (hidle : ∀ s ys, Idle s ys → Live s ys)
    (hstep : ∀ w s ys, Live s ys → ∃ r s', poll w s = some (r, s') ∧
      match r with
      | .ready (some d) => ∃ ys', d.apply ys = some ys' ∧ Live s' ys'
      | .ready none => Done s' ys
      | .pending => Idle s' ys)
    (ws : List Waker) (s0 : σ) (h0 : Live s0 []) :
    ∃ outs s ys, run poll ws s0 = some (outs, s) ∧ replay (items outs) [] = some ys ∧
      (.ready none ∉ outs → Live s ys) ∧
      (outs.getLast? = some .pending → Idle s ys) ∧
      (.ready none ∈ outs → Done s ys) := by
  obtain ⟨outs, s, h1, ys, h2, h3, h4, h5⟩ := run_rule (poll := poll)
    (fun outs s => ∃ ys, replay (items outs) [] = some ys ∧
      (.ready none ∉ outs → Live s ys) ∧
      (outs.getLast? = some .pending → Idle s ys) ∧
      (.ready none ∈ outs → Done s ys))
    (by
      rintro w outs s ⟨ys, h1, h2, -, -⟩ hne
      obtain ⟨r, s', hp, hr⟩ := hstep w s ys (h2 hne)
      refine ⟨r, s', hp, ?_⟩
      match r with
      | .ready (some d) =>
        obtain ⟨ys', hd, hl⟩ := hr
        refine ⟨ys', ?_, fun _ => hl, by simp, fun h => by simp [hne] at h⟩
        rw [items_append]
        exact replay_append_some h1 (by simp [replay, hd])
      | .ready none =>
        refine ⟨ys, by rw [items_append]; simpa using h1, by simp, by simp, fun _ => hr⟩
      | .pending =>
        refine ⟨ys, by rw [items_append]; simpa using h1, fun _ => hidle _ _ hr, fun _ => hr,
          fun h => by simp [hne] at h⟩)
    ws [] s0 ⟨[], rfl, fun _ => h0, by simp, by simp⟩ (by simp)
  simp only [List.nil_append] at h2 h3 h4 h5
  exact ⟨outs, s, ys, h1, h2, h3, h4, h5⟩

/-- `vec_run` with the waker of the last poll known in `Idle`, and from any starting point. -/
theorem vec_run_w {poll : Waker → σ → Option (Poll (Option (VecDiff β)) × σ)}
    (Live : σ → List β → Prop) (Idle : Waker → σ → List β → Prop) (Done : σ → List β → Prop)
    (hidle : ∀ w s ys, Idle w s ys → Live s ys)
    (hstep : ∀ w s ys, Live s ys → ∃ r s', poll w s = some (r, s') ∧
      match r with
      | .ready (some d) => ∃ ys', d.apply ys = some ys' ∧ Live s' ys'
      | .ready none => Done s' ys
      | .pending => Idle w s' ys)
    (ws : List Waker) (s0 : σ) (ys0 : List β) (h0 : Live s0 ys0) :
    ∃ outs s ys, run poll ws s0 = some (outs, s) ∧ replay (items outs) ys0 = some ys ∧
      (.ready none ∉ outs → Live s ys) ∧
      (∀ w, ws.getLast? = some w → outs.getLast? = some .pending → Idle w s ys) ∧
      (.ready none ∈ outs → Done s ys) := by
  induction ws generalizing s0 ys0 with
  | nil => exact ⟨[], s0, ys0, rfl, rfl, fun _ => h0, by simp, by simp⟩
  | cons w ws ih =>
    obtain ⟨r, s', hp, hr⟩ := hstep w s0 ys0 h0
    cases r with
    | pending =>
      obtain ⟨outs, s, ys, h1, h2, h3, h4, h5⟩ := ih s' ys0 (hidle _ _ _ hr)
      refine ⟨.pending :: outs, s, ys, by simp [run, hp, h1], by simpa using h2, fun h => h3 (by simpa using h),
        fun w' hw hl => ?_, fun h => h5 (by simpa using h)⟩
      cases ws with
      | nil =>
        cases h1
        cases hw
        cases h2
        exact hr
      | cons w2 ws =>
        have hne := run_ne_nil' h1
        refine h4 w' (by simpa using hw) ?_
        cases outs with
        | nil => exact absurd rfl hne
        | cons o outs => simpa using hl
    | ready x =>
      cases x with
      | none =>
        exact ⟨[.ready none], s', ys0, by simp [run, hp], rfl, by simp, by simp, fun _ => hr⟩
      | some d =>
        obtain ⟨ys', hd, hl'⟩ := hr
        obtain ⟨outs, s, ys, h1, h2, h3, h4, h5⟩ := ih s' ys' hl'
        refine ⟨.ready (some d) :: outs, s, ys, by simp [run, hp, h1], by simpa [replay, hd] using h2,
          fun h => h3 (by simpa using h), fun w' hw hl => ?_, fun h => h5 (by simpa using h)⟩
        cases ws with
        | nil =>
          cases h1
          simp at hl
        | cons w2 ws =>
          have hne := run_ne_nil' h1
          refine h4 w' (by simpa using hw) ?_
          cases outs with
          | nil => exact absurd rfl hne
          | cons o outs => simpa using hl

/-- Rule for a combinator that emits values.  `Live outs s`: the answers so far are `outs`, the
state is `s`, and the combinator may be polled; `Done` right after the end. -/
theorem sig_run {poll : Waker → σ → Option (Poll (Option β) × σ)}
    (Live Done : List (Poll (Option β)) → σ → Prop)
    (hstep : ∀ w outs s, Live outs s → ∃ r s', poll w s = some (r, s') ∧
      match r with
      | .ready none => Done (outs ++ [r]) s'
      | _ => Live (outs ++ [r]) s')
    (ws : List Waker) (s0 : σ) (h0 : Live [] s0) :
    ∃ outs s, run poll ws s0 = some (outs, s) ∧
      (.ready none ∉ outs → Live outs s) ∧
      (.ready none ∈ outs → Done outs s) := by
  obtain ⟨outs, s, h1, h2, h3⟩ := run_rule (poll := poll)
    (fun outs s => (.ready none ∉ outs → Live outs s) ∧ (.ready none ∈ outs → Done outs s))
    (by
      rintro w outs s ⟨h1, -⟩ hne
      obtain ⟨r, s', hp, hr⟩ := hstep w outs s (h1 hne)
      refine ⟨r, s', hp, ?_⟩
      match r with
      | .ready (some b) => exact ⟨fun _ => hr, fun h => by simp [hne] at h⟩
      | .ready none => exact ⟨fun h => by simp at h, fun _ => hr⟩
      | .pending => exact ⟨fun _ => hr, fun h => by simp [hne] at h⟩)
    ws [] s0 ⟨fun _ => h0, by simp⟩ (by simp)
  exact ⟨outs, s, h1, h2, h3⟩

/-- Rule for an invariant relating answers and state that also holds after the end. -/
theorem inv_run {poll : Waker → σ → Option (Poll (Option β) × σ)}
    (Inv : List (Poll (Option β)) → σ → Prop)
    (hstep : ∀ w outs s, Inv outs s → ∃ r s', poll w s = some (r, s') ∧ Inv (outs ++ [r]) s')
    (ws : List Waker) (s0 : σ) (h0 : Inv [] s0) :
    ∃ outs s, run poll ws s0 = some (outs, s) ∧ Inv outs s := by
  obtain ⟨outs, s, h1, h2⟩ := run_rule Inv (fun w outs s h _ => hstep w outs s h) ws [] s0 h0 (by simp)
  exact ⟨outs, s, h1, by simpa using h2⟩

/-- `s` is a state the consumer can get to, the answers so far being `outs`, without having been
told that the signal ended. -/
def Reach (poll : Waker → σ → Option (Poll (Option β) × σ)) (s0 : σ)
    (outs : List (Poll (Option β))) (s : σ) : Prop :=
  .ready none ∉ outs ∧ ∃ ws, run poll ws s0 = some (outs, s)

theorem reach_inv {poll : Waker → σ → Option (Poll (Option β) × σ)}
    {Inv : List (Poll (Option β)) → σ → Prop}
    (hstep : ∀ w outs s, Inv outs s → ∃ r s', poll w s = some (r, s') ∧ Inv (outs ++ [r]) s')
    {s0 : σ} (h0 : Inv [] s0) {outs : List (Poll (Option β))} {s : σ}
    (h : Reach poll s0 outs s) : Inv outs s := by
  obtain ⟨-, ws, hr⟩ := h
  obtain ⟨outs', s', g1, g2⟩ := inv_run Inv hstep ws s0 h0
  rw [hr] at g1
  cases g1
  exact g2

/-- A run with at least one poll has at least one answer. -/
theorem run_ne_nil {poll : Waker → σ → Option (Poll (Option β) × σ)} {ws : List Waker}
    {s0 s : σ} {outs : List (Poll (Option β))} (h : run poll ws s0 = some (outs, s))
    (hws : ws ≠ []) : outs ≠ [] := by
  rintro rfl
  cases ws with
  | nil => exact hws rfl
  | cons w ws =>
    simp only [run] at h
    split at h <;> try simp at h
    split at h <;> simp at h

theorem head?_snoc {outs : List α} (r : α) (hne : outs ≠ []) :
    (outs ++ [r]).head? = outs.head? := by
  cases outs with
  | nil => exact absurd rfl hne
  | cons a l => rfl

end Verif
