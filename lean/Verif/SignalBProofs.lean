import Verif.SignalB
import Verif.SignalAProofs
import Verif.FlattenProofs
import Verif.MapSignalProofs

/-!
# Lemmas for the `Signal` combinators with several inputs
-/

namespace Verif

variable {α β ι ρ : Type}

/-- A property of all made signals is that of the dropped ones and of the current one. -/
theorem forall_mem_made {P : Made ι ρ → Prop} {old : List (Made ι ρ)} {cur : Option (Made ι ρ)} :
    (∀ x ∈ old ++ cur.toList, P x) ↔ (∀ x ∈ old, P x) ∧ ∀ x, cur = some x → P x := by
  cases cur <;> simp [or_imp, forall_and]

theorem full_run_from {σ : Type} {poll : Waker → σ → Option (Poll (Option β) × σ)}
    (Inv : List (Poll (Option β)) → σ → Prop) (Post : Waker → Poll (Option β) → σ → Prop)
    (hstep : ∀ w outs s, Inv outs s → .ready none ∉ outs → ∃ r s', poll w s = some (r, s') ∧
      Inv (outs ++ [r]) s' ∧ Post w r s')
    (ws : List Waker) (outs0 : List (Poll (Option β))) (s0 : σ) (h0 : Inv outs0 s0)
    (hn : .ready none ∉ outs0) :
    ∃ outs s, run poll ws s0 = some (outs, s) ∧ Inv (outs0 ++ outs) s ∧
      (.ready none ∈ outs → ∃ w, Post w (.ready none) s) ∧
      (∀ w r, ws.getLast? = some w → outs.getLast? = some r → r ≠ .ready none → Post w r s) := by
  induction ws generalizing outs0 s0 with
  | nil => exact ⟨[], s0, rfl, by simpa using h0, by simp, by simp⟩
  | cons w ws ih =>
    obtain ⟨r, s', hp, hI, hP⟩ := hstep w outs0 s0 h0 hn
    simp only [run, hp]
    by_cases hr : r = .ready none
    · subst hr
      exact ⟨[.ready none], s', rfl, hI, fun _ => ⟨w, hP⟩, by simp⟩
    · obtain ⟨outs, s, g1, g2, g3, g4⟩ := ih _ s' hI (by simp [hn, Ne.symm hr])
      refine ⟨r :: outs, s, ?_, by simpa using g2, fun hm => g3 ?_, fun w' r' hw' hr' hne => ?_⟩
      · obtain (_ | v) | _ := r
        · exact absurd rfl hr
        · simp [g1]
        · simp [g1]
      · simpa [Ne.symm hr] using hm
      · cases ws with
        | nil =>
          cases g1
          simp only [List.getLast?_singleton, Option.some.injEq] at hw' hr'
          subst hw' hr'
          exact hP
        | cons w2 ws2 =>
          have hon : outs ≠ [] := run_ne_nil' g1
          rw [List.getLast?_cons_cons] at hw'
          obtain ⟨o, os, rfl⟩ := List.exists_cons_of_ne_nil hon
          rw [List.getLast?_cons_cons] at hr'
          exact g4 w' r' hw' hr' hne

/-- Rule for a run: an invariant relating the answers and the state, and what is known after the
last poll. -/
theorem full_run {σ : Type} {poll : Waker → σ → Option (Poll (Option β) × σ)}
    (Inv : List (Poll (Option β)) → σ → Prop) (Post : Waker → Poll (Option β) → σ → Prop)
    (hstep : ∀ w outs s, Inv outs s → .ready none ∉ outs → ∃ r s', poll w s = some (r, s') ∧
      Inv (outs ++ [r]) s' ∧ Post w r s')
    (ws : List Waker) (s0 : σ) (h0 : Inv [] s0) :
    ∃ outs s, run poll ws s0 = some (outs, s) ∧ Inv outs s ∧
      (.ready none ∈ outs → ∃ w, Post w (.ready none) s) ∧
      (∀ w r, ws.getLast? = some w → outs.getLast? = some r → r ≠ .ready none → Post w r s) := by
  simpa using full_run_from Inv Post hstep ws [] s0 h0 (by simp)

/-! ## `flatten` -/

/-- All inner signals so far. -/
def SFlatten.made (m : SFlatten ι β) : List (Made ι (Option β)) := m.old ++ m.inner.toList

/-- The values produced by the inner signals, in order. -/
def SFlatten.vals (m : SFlatten ι β) : List β := m.made.flatMap (·.src.got)

structure FlatLive (g : ι → List (Poll (Option β))) (m : SFlatten ι β) : Prop where
  inp : m.signal.Ok
  tags : m.made.map (·.tag) = m.signal.src.got
  plays : ∀ x ∈ m.made, Plays (g x.tag) x.src
  fused : ∀ x ∈ m.made, x.src.fused
  live : ∀ x, m.inner = some x → ¬ x.src.ended
  gone : m.inner = none → ∀ x, m.old.getLast? = some x → x.src.ended

theorem SFlatten.pollInner_spec {g : ι → List (Poll (Option β))} {m : SFlatten ι β}
    (h : FlatLive g m) (w : Waker) (done : Bool) :
    ∃ r m', SFlatten.pollInner w done m = (r, m') ∧ FlatLive g m' ∧ m'.signal = m.signal ∧
      m'.vals = m.vals ++ items [r] ∧
      (r = .ready none → done = true ∧ m'.inner = none) ∧
      (r = .pending → (done = true → m'.inner ≠ none) ∧ ∀ x, m'.inner = some x → x.src.armed w) ∧
      (∀ x b t, m.inner = some x → x.src.todo = .ready (some b) :: t → r = .ready (some b)) ∧
      ((∀ x ∈ m.old, x.src.got ≠ []) →
        (∀ x, m.inner = some x → x.src.got ≠ [] ∨ ∃ b t, x.src.todo = .ready (some b) :: t) →
        ∀ x ∈ m'.made, x.src.got ≠ []) := by
  obtain ⟨sig, inner, old⟩ := m
  cases inner with
  | none =>
    have hm : ∀ (hh : ∀ x ∈ old, x.src.got ≠ []), ∀ x ∈ SFlatten.made ⟨sig, none, old⟩,
        x.src.got ≠ [] := by
      intro hh x hx
      exact hh x (by simpa [SFlatten.made] using hx)
    cases done with
    | true =>
      exact ⟨_, _, rfl, h, rfl, by simp, by simp, by simp, by simp, fun a _ => hm a⟩
    | false =>
      exact ⟨_, _, rfl, h, rfl, by simp, by simp, by simp, by simp, fun a _ => hm a⟩
  | some inner =>
    have hpl := h.plays inner (by simp [SFlatten.made])
    obtain ⟨q, src', e, hf, hg, -, hq⟩ := Src.poll_rule w inner.src (h.live inner rfl)
    have hpl' := hpl.poll e
    have htodo : ∀ b t, inner.src.todo = .ready (some b) :: t → q = .ready (some b) := by
      intro b t ht
      have : q = (inner.src.poll w).1 := by rw [e]
      rw [this, Src.poll, ht]
    have hp := (forall_mem_made (P := fun x => Plays (g x.tag) x.src)).1 h.plays
    have hfu := (forall_mem_made (P := fun x => x.src.fused)).1 h.fused
    have ht := h.tags
    simp only [SFlatten.made, Option.toList] at ht
    simp only [SFlatten.pollInner, e]
    obtain (_ | b) | _ := q
    · have hL : FlatLive g ⟨sig, none, old ++ [⟨inner.tag, src'⟩]⟩ := by
        refine ⟨h.inp, by simpa [SFlatten.made] using ht, ?_, ?_, by simp, by simpa using hq⟩
        · intro x hx
          simp only [SFlatten.made, Option.toList, List.append_nil, List.mem_append,
            List.mem_singleton] at hx
          rcases hx with hx | rfl
          · exact hp.1 x hx
          · exact hpl'
        · intro x hx
          simp only [SFlatten.made, Option.toList, List.append_nil, List.mem_append,
            List.mem_singleton] at hx
          rcases hx with hx | rfl
          · exact hfu.1 x hx
          · exact hf
      have hv : SFlatten.vals ⟨sig, none, old ++ [⟨inner.tag, src'⟩]⟩ =
          SFlatten.vals ⟨sig, some inner, old⟩ := by
        simpa [SFlatten.vals, SFlatten.made] using hg
      have hgot : (∀ x ∈ old, x.src.got ≠ []) → (∀ x, some inner = some x → x.src.got ≠ [] ∨
          ∃ b t, x.src.todo = .ready (some b) :: t) →
          ∀ x ∈ SFlatten.made ⟨sig, none, old ++ [⟨inner.tag, src'⟩]⟩, x.src.got ≠ [] := by
        intro h1 h2 x hx
        simp only [SFlatten.made, Option.toList, List.append_nil, List.mem_append,
            List.mem_singleton] at hx
        rcases hx with hx | rfl
        · exact h1 x hx
        · rcases h2 inner rfl with h2 | ⟨b, t, h2⟩
          · simpa [hg] using h2
          · exact absurd (htodo b t h2) (by simp)
      have hhead : ∀ (x : Made ι (Option β)) b t, some inner = some x →
          x.src.todo = .ready (some b) :: t → False := by
        rintro x b t ⟨⟩ hh
        exact absurd (htodo b t hh) (by simp)
      cases done with
      | true =>
        exact ⟨_, _, rfl, hL, rfl, by simpa using hv, by simp, by simp,
          fun x b t h1 h2 => (hhead x b t h1 h2).elim, hgot⟩
      | false =>
        exact ⟨_, _, rfl, hL, rfl, by simpa using hv, by simp, by simp,
          fun x b t h1 h2 => (hhead x b t h1 h2).elim, hgot⟩
    all_goals
      have hL : FlatLive g ⟨sig, some ⟨inner.tag, src'⟩, old⟩ := by
        refine ⟨h.inp, by simpa [SFlatten.made] using ht, ?_, ?_, ?_, by simp⟩
        · refine (forall_mem_made (P := fun x => Plays (g x.tag) x.src)).2 ⟨hp.1, ?_⟩
          rintro x ⟨⟩; exact hpl'
        · refine (forall_mem_made (P := fun x => x.src.fused)).2 ⟨hfu.1, ?_⟩
          rintro x ⟨⟩; exact hf
        · rintro x ⟨⟩; first | exact hq | exact hq.1
    · have hv : SFlatten.vals ⟨sig, some ⟨inner.tag, src'⟩, old⟩ =
          SFlatten.vals ⟨sig, some inner, old⟩ ++ items [.ready (some b)] := by
        simpa [SFlatten.vals, SFlatten.made] using hg
      refine ⟨_, _, rfl, hL, rfl, hv, by simp, by simp, ?_, ?_⟩
      · rintro x b t ⟨⟩ hh; exact htodo b t hh
      · intro h1 h2
        refine (forall_mem_made (P := fun x => x.src.got ≠ [])).2 ⟨h1, ?_⟩
        rintro x ⟨⟩; simp [hg]
    · have hv : SFlatten.vals ⟨sig, some ⟨inner.tag, src'⟩, old⟩ =
          SFlatten.vals ⟨sig, some inner, old⟩ ++ items [.pending] := by
        simpa [SFlatten.vals, SFlatten.made] using hg
      refine ⟨_, _, rfl, hL, rfl, hv, by simp, ?_, ?_, ?_⟩
      · rintro -; refine ⟨by simp, ?_⟩; rintro x ⟨⟩; exact hq.2
      · rintro x b t ⟨⟩ hh; exact htodo b t hh
      · intro h1 h2
        refine (forall_mem_made (P := fun x => x.src.got ≠ [])).2 ⟨h1, ?_⟩
        rintro x ⟨⟩
        rcases h2 inner rfl with h2 | ⟨b, t, h2⟩
        · simpa [hg] using h2
        · exact absurd (htodo b t h2) (by simp)

theorem SFlatten.step {g : ι → List (Poll (Option β))} {m : SFlatten ι β} (h : FlatLive g m)
    (w : Waker) :
    ∃ r m', SFlatten.poll g w m = some (r, m') ∧ FlatLive g m' ∧ m'.vals = m.vals ++ items [r] ∧
      (r = .ready none → m'.signal.alive = false ∧ m'.inner = none) ∧
      (Eager g → r = .pending → Settled w m'.signal ∧ (∀ x, m'.inner = some x → x.src.armed w) ∧
        (m'.signal.alive = true ∨ m'.inner ≠ none)) ∧
      (Eager g → (∀ x ∈ m.made, x.src.got ≠ []) → ∀ x ∈ m'.made, x.src.got ≠ []) := by
  obtain ⟨sig, inner, old⟩ := m
  obtain ⟨r, i', e, hok, -, hg, hr⟩ := Inp.poll_full w sig h.inp
  simp only [SFlatten.poll, e]
  have htags := h.tags
  have keep : itemOf r = [] → FlatLive g ⟨i', inner, old⟩ := by
    intro h0
    refine ⟨hok, ?_, h.plays, h.fused, h.live, h.gone⟩
    show _ = i'.src.got
    rw [hg, h0, List.append_nil]
    exact htags
  have done : ∀ d, itemOf r = [] → (d = true → i'.alive = false) →
      (d = false → i'.alive = true ∧ i'.src.armed w) →
      ∃ r m', some (SFlatten.pollInner w d ⟨i', inner, old⟩) = some (r, m') ∧ FlatLive g m' ∧
        m'.vals = SFlatten.vals ⟨sig, inner, old⟩ ++ items [r] ∧
        (r = .ready none → m'.signal.alive = false ∧ m'.inner = none) ∧
        (Eager g → r = .pending → Settled w m'.signal ∧ (∀ x, m'.inner = some x → x.src.armed w) ∧
          (m'.signal.alive = true ∨ m'.inner ≠ none)) ∧
        (Eager g → (∀ x ∈ SFlatten.made ⟨sig, inner, old⟩, x.src.got ≠ []) →
          ∀ x ∈ m'.made, x.src.got ≠ []) := by
    intro d h0 hd1 hd2
    obtain ⟨r', m', k1, k2, k3, k4, k5, k6, -, k8⟩ := SFlatten.pollInner_spec (keep h0) w d
    refine ⟨r', m', by rw [k1], k2, k4, fun hh => ?_, fun _ hh => ?_, fun _ hh => ?_⟩
    · rw [k3]; exact ⟨hd1 (k5 hh).1, (k5 hh).2⟩
    · rw [k3]
      cases d with
      | true => exact ⟨.inl (hd1 rfl), (k6 hh).2, .inr ((k6 hh).1 rfl)⟩
      | false => exact ⟨.inr (hd2 rfl).2, (k6 hh).2, .inl (hd2 rfl).1⟩
    · have := (forall_mem_made (P := fun x => x.src.got ≠ [])).1 hh
      exact k8 this.1 (fun x hx => .inl (this.2 x hx))
  obtain _ | ((_ | t) | _) := r
  · exact done true rfl (fun _ => hr) (by simp)
  · exact done true rfl (fun _ => hr) (by simp)
  · have hL : FlatLive g ⟨i', some (Made.new g t), old ++ inner.toList⟩ := by
      refine ⟨hok, ?_, ?_, ?_, ?_, by simp⟩
      · show _ = i'.src.got
        rw [hg, ← htags]
        simp [SFlatten.made, Made.new, itemOf]
      · refine (forall_mem_made (P := fun x => Plays (g x.tag) x.src)).2 ⟨h.plays, ?_⟩
        rintro x ⟨⟩; exact plays_mk' _
      · refine (forall_mem_made (P := fun x => x.src.fused)).2 ⟨h.fused, ?_⟩
        rintro x ⟨⟩; exact fused_of_not_ended (not_ended_mk' _)
      · rintro x ⟨⟩; exact not_ended_mk' _
    obtain ⟨r', m', k1, k2, k3, k4, k5, k6, k7, k8⟩ := SFlatten.pollInner_spec hL w false
    refine ⟨r', m', congrArg some k1, k2, ?_, fun hh => ?_, fun he hh => ?_, fun he hh => ?_⟩
    · rw [k4]
      congr 1
      simp [SFlatten.vals, SFlatten.made, Made.new, Src.mk', Src.got]
    · exact absurd (k5 hh).1 (by simp)
    · obtain ⟨b, t', hb⟩ := he t
      have := k7 (Made.new g t) b t' rfl (by simpa [Made.new, Src.mk'] using hb)
      rw [hh] at this
      cases this
    · obtain ⟨b, t', hb⟩ := he t
      refine k8 hh ?_
      rintro x ⟨⟩
      exact .inr ⟨b, t', by simpa [Made.new, Src.mk'] using hb⟩
  · exact done false rfl (by simp) (fun _ => hr)

/-! ## `map_future` -/

/-- All futures so far. -/
def SMapFuture.made (m : SMapFuture α β) : List (Made α β) := m.old ++ m.future.toList

structure MapFutLive (g : α → List (Poll β)) (m : SMapFuture α β) : Prop where
  inp : m.signal.Ok
  tags : m.made.map (·.tag) = m.signal.src.got
  plays : ∀ x ∈ m.made, Plays (g x.tag) x.src
  fused : ∀ x ∈ m.made, x.src.fusedF
  live : ∀ x, m.future = some x → ¬ x.src.completed ∧ x.src.output = none
  last : m.future = none → ∀ x, m.old.getLast? = some x → ∃ b, x.src.output = some b

/-- What the futures produced. -/
def SMapFuture.outputs (m : SMapFuture α β) : List β := m.made.filterMap (·.src.output)

theorem mapFuture_loop {g : α → List (Poll β)} {m : SMapFuture α β} (h : MapFutLive g m)
    (w : Waker) :
    ∃ st fut old i', m.signal.loop w (mapFutureBody g) (m.future, m.old) = (st, (fut, old), i') ∧
      MapFutLive g ⟨i', fut, m.first, old⟩ ∧
      SMapFuture.outputs ⟨i', fut, m.first, old⟩ = m.outputs ∧
      ((st = .ended ∧ i'.alive = false) ∨ (st = .pending ∧ i'.alive = true ∧ i'.src.armed w)) := by
  obtain ⟨st, ⟨fut, old⟩, i', e, hok, hst⟩ := Inp.loop_rule (w := w) (body := mapFutureBody g)
    (fun s got _ => (s.2 ++ s.1.toList).map (·.tag) = got ∧
      (∀ x ∈ s.2 ++ s.1.toList, Plays (g x.tag) x.src) ∧
      (∀ x ∈ s.2 ++ s.1.toList, x.src.fusedF) ∧
      (∀ x, s.1 = some x → ¬ x.src.completed ∧ x.src.output = none) ∧
      (s.2 ++ s.1.toList).filterMap (·.src.output) = m.outputs ∧
      (s.1 = none → ∀ x, s.2.getLast? = some x → ∃ b, x.src.output = some b))
    (fun _ _ _ _ => False)
    (by
      rintro ⟨fut, old⟩ got a t ⟨h1, h2, h3, h4, h5, h6⟩
      refine ⟨?_, ?_, ?_, ?_, ?_, by simp⟩
      · rw [← h1]; simp [Made.new]
      · refine (forall_mem_made (P := fun x => Plays (g x.tag) x.src)).2 ⟨h2, ?_⟩
        rintro x ⟨⟩; exact plays_mk' _
      · refine (forall_mem_made (P := fun x => x.src.fusedF)).2 ⟨h3, ?_⟩
        rintro x ⟨⟩; exact not_completed.fusedF not_completed_mk'
      · rintro x ⟨⟩; exact ⟨not_completed_mk', rfl⟩
      · rw [List.filterMap_append, h5]; simp [Made.new, Src.mk', Src.output])
    m.signal (m.future, m.old) h.inp ⟨h.tags, h.plays, h.fused, h.live, rfl, h.last⟩
  refine ⟨st, fut, old, i', e, ?_⟩
  cases st with
  | panic => exact hst.elim
  | ret r => exact r.elim
  | ended =>
    obtain ⟨⟨k1, k2, k3, k4, k5, k7⟩, k6⟩ := hst
    exact ⟨⟨hok, k1, k2, k3, k4, k7⟩, k5, .inl ⟨rfl, k6⟩⟩
  | pending =>
    obtain ⟨⟨k1, k2, k3, k4, k5, k7⟩, k6⟩ := hst
    exact ⟨⟨hok, k1, k2, k3, k4, k7⟩, k5, .inr ⟨rfl, k6⟩⟩

theorem SMapFuture.step {g : α → List (Poll β)} {m : SMapFuture α β} (h : MapFutLive g m)
    (w : Waker) :
    ∃ r m', SMapFuture.poll g w m = some (r, m') ∧ MapFutLive g m' ∧ m'.first = false ∧
      (match r with
        | .ready (some (some v)) => m'.outputs = m.outputs ++ [v]
        | .ready (some none) => m.first = true ∧ m'.outputs = m.outputs
        | .ready none => m.first = false ∧ m'.outputs = m.outputs ∧ m'.signal.alive = false ∧
            m'.future = none
        | .pending => m.first = false ∧ m'.outputs = m.outputs ∧ Settled w m'.signal ∧
            (∀ x, m'.future = some x → x.src.armed w) ∧
            (m'.signal.alive = true ∨ m'.future ≠ none)) := by
  obtain ⟨st, fut, old, i', e, hL, ho, hst⟩ := mapFuture_loop h w
  have key : ∀ d, (d = true → i'.alive = false) →
      (d = false → i'.alive = true ∧ i'.src.armed w) →
      ∃ r m', some (SMapFuture.finish w d ⟨i', fut, m.first, old⟩) = some (r, m') ∧
      MapFutLive g m' ∧ m'.first = false ∧
      (match r with
        | .ready (some (some v)) => m'.outputs = m.outputs ++ [v]
        | .ready (some none) => m.first = true ∧ m'.outputs = m.outputs
        | .ready none => m.first = false ∧ m'.outputs = m.outputs ∧ m'.signal.alive = false ∧
            m'.future = none
        | .pending => m.first = false ∧ m'.outputs = m.outputs ∧ Settled w m'.signal ∧
            (∀ x, m'.future = some x → x.src.armed w) ∧
            (m'.signal.alive = true ∨ m'.future ≠ none)) := by
    intro d hd1 hd2
    rw [← ho]
    have hsettled : Settled w i' := by
      cases d with
      | true => exact .inl (hd1 rfl)
      | false => exact .inr (hd2 rfl).2
    cases fut with
    | none =>
      have hL' : MapFutLive g ⟨i', none, false, old⟩ :=
        ⟨hL.inp, hL.tags, hL.plays, hL.fused, hL.live, hL.last⟩
      cases hf : m.first with
      | true =>
        simp only [SMapFuture.finish, if_true]
        exact ⟨_, _, rfl, hL', rfl, trivial, rfl⟩
      | false =>
        simp only [SMapFuture.finish, Bool.false_eq_true, if_false]
        cases d with
        | true => exact ⟨_, _, rfl, hL', rfl, trivial, rfl, hd1 rfl, rfl⟩
        | false => exact ⟨_, _, rfl, hL', rfl, trivial, rfl, hsettled, by simp, .inl (hd2 rfl).1⟩
    | some x =>
      obtain ⟨hc, hout⟩ := hL.live x rfl
      obtain ⟨q, src', e, g1, g2, g3⟩ := Src.pollF_rule w x.src hc hout
      have hp := (forall_mem_made (P := fun x => Plays (g x.tag) x.src)).1 hL.plays
      have hfu := (forall_mem_made (P := fun x => x.src.fusedF)).1 hL.fused
      have htags := hL.tags
      simp only [SMapFuture.finish, e]
      cases q with
      | ready v =>
        have key2 : ∀ {P : Made α β → Prop}, (∀ y ∈ old, P y) → P ⟨x.tag, src'⟩ →
            ∀ y ∈ SMapFuture.made ⟨i', none, false, old ++ [⟨x.tag, src'⟩]⟩, P y := by
          intro P h1 h2 y hy
          simp only [SMapFuture.made, Option.toList, List.append_nil, List.mem_append,
            List.mem_singleton] at hy
          rcases hy with hy | rfl
          · exact h1 y hy
          · exact h2
        refine ⟨_, _, rfl, ⟨hL.inp, ?_, ?_, ?_, by simp, by simp [g3.1]⟩, rfl, ?_⟩
        · show _ = i'.src.got
          rw [← htags]; simp [SMapFuture.made]
        · exact key2 hp.1 ((hp.2 x rfl).poll e)
        · exact key2 hfu.1 g2
        · simp [SMapFuture.outputs, SMapFuture.made, g3.1, hout]
      | pending =>
        have hL' : MapFutLive g ⟨i', some ⟨x.tag, src'⟩, false, old⟩ := by
          refine ⟨hL.inp, ?_, ?_, ?_, ?_, by simp⟩
          · show _ = i'.src.got
            rw [← htags]; simp [SMapFuture.made]
          · refine (forall_mem_made (P := fun x => Plays (g x.tag) x.src)).2 ⟨hp.1, ?_⟩
            rintro y ⟨⟩; exact (hp.2 x rfl).poll e
          · refine (forall_mem_made (P := fun x => x.src.fusedF)).2 ⟨hfu.1, ?_⟩
            rintro y ⟨⟩; exact g2
          · rintro y ⟨⟩; exact ⟨g3.1, g3.2.2⟩
        have hout' : SMapFuture.outputs ⟨i', some ⟨x.tag, src'⟩, false, old⟩ =
            SMapFuture.outputs ⟨i', some x, m.first, old⟩ := by
          simp [SMapFuture.outputs, SMapFuture.made, g3.2.2, hout]
        cases hf : m.first with
        | true =>
          simp only [if_true]
          exact ⟨_, _, rfl, hL', rfl, trivial, by rw [hout', hf]⟩
        | false =>
          simp only [Bool.false_eq_true, if_false]
          refine ⟨_, _, rfl, hL', rfl, trivial, by rw [hout', hf], hsettled, ?_, .inr (by simp)⟩
          rintro y ⟨⟩; exact g3.2.1
  simp only [SMapFuture.poll, e]
  rcases hst with ⟨rfl, ha⟩ | ⟨rfl, ha, hw⟩
  · exact key true (fun _ => ha) (by simp)
  · exact key false (by simp) (fun _ => ⟨ha, hw⟩)

/-! ## `throttle` -/

/-- All futures so far. -/
def SThrottle.made (m : SThrottle α) : List (Made Nat Unit) := m.old ++ m.future.toList

structure ThrottleLive (g : Nat → List (Poll Unit)) (m : SThrottle α) : Prop where
  inp : m.signal.Ok
  calls : m.calls = m.signal.src.got.length
  tags : m.made.map Made.tag = List.range m.calls
  plays : ∀ x ∈ m.made, Plays (g x.tag) x.src
  fused : ∀ x ∈ m.made, x.src.fusedF
  gone : ∀ x ∈ m.old, x.src.completed
  live : ∀ x, m.future = some x → ¬ x.src.completed ∧ x.src.output = none

theorem SThrottle.pollSignal_spec {g : Nat → List (Poll Unit)} {m : SThrottle α}
    (h : ThrottleLive g m) (h0 : m.future = none) (w : Waker) :
    ∃ r m', SThrottle.pollSignal g w m = (r, m') ∧ ThrottleLive g m' ∧
      m'.signal.src.got = m.signal.src.got ++ items [r] ∧
      (r = .ready none → m'.signal.alive = false ∧ m'.future = none) ∧
      (r = .pending → m'.signal.src.armed w ∧ m'.future = none) := by
  obtain ⟨sig, fut, calls, old⟩ := m
  simp only at h0
  subst h0
  obtain ⟨r, i', e, hok, -, hg, hr⟩ := Inp.poll_full w sig h.inp
  have hcalls : calls = sig.src.got.length := h.calls
  have htags : (old ++ []).map Made.tag = List.range calls := h.tags
  have hplays : ∀ x ∈ old ++ [], Plays (g x.tag) x.src := h.plays
  have hfused : ∀ x ∈ old ++ [], x.src.fusedF := h.fused
  rw [List.append_nil] at htags hplays hfused
  have keep : itemOf r = [] → ThrottleLive g ⟨i', none, calls, old⟩ := by
    intro h0
    rw [h0, List.append_nil] at hg
    exact ⟨hok, by rw [hg]; exact hcalls, h.tags, h.plays, h.fused, h.gone, h.live⟩
  simp only [SThrottle.pollSignal, e]
  obtain _ | ((_ | v) | _) := r
  · exact ⟨_, _, rfl, keep rfl, by simpa [itemOf] using hg, fun _ => ⟨hr, rfl⟩, by simp⟩
  · exact ⟨_, _, rfl, keep rfl, by simpa [itemOf] using hg, fun _ => ⟨hr, rfl⟩, by simp⟩
  · have hg' : i'.src.got = sig.src.got ++ [v] := hg
    obtain ⟨q, src', e2, g1, g2, g3⟩ := Src.pollF_rule w (Made.new g calls).src not_completed_mk' rfl
    have hpl : Plays (g calls) src' := (plays_mk' (g calls)).poll e2
    have hc' : calls + 1 = i'.src.got.length := by rw [hg', hcalls]; simp
    have hmem : ∀ {P : Made Nat Unit → Prop}, (∀ y ∈ old, P y) → P ⟨calls, src'⟩ →
        ∀ y ∈ old ++ [⟨calls, src'⟩], P y := by
      intro P h1 h2 y hy
      simp only [List.mem_append, List.mem_singleton] at hy
      rcases hy with hy | rfl
      · exact h1 y hy
      · exact h2
    have htags' : (old ++ [Made.mk calls src']).map Made.tag = List.range (calls + 1) := by
      rw [List.range_succ, ← htags]; simp
    have hp' := hmem (P := fun x => Plays (g x.tag) x.src) hplays hpl
    have hf' := hmem (P := fun x => x.src.fusedF) hfused g2
    simp only [e2]
    cases q with
    | ready u =>
      refine ⟨_, _, rfl, ⟨hok, hc', ?_, ?_, ?_, ?_, by simp⟩, hg', by simp, by simp⟩
      · simpa [SThrottle.made] using htags'
      · simpa only [SThrottle.made, Option.toList, List.append_nil] using hp'
      · simpa only [SThrottle.made, Option.toList, List.append_nil] using hf'
      · simpa only [Option.toList, List.append_nil] using
          hmem (P := fun x => x.src.completed) h.gone g3.2
    | pending =>
      refine ⟨_, _, rfl, ⟨hok, hc', ?_, ?_, ?_, ?_, ?_⟩, hg', by simp, by simp⟩
      · simpa [SThrottle.made] using htags'
      · simpa only [SThrottle.made, Option.toList, List.append_nil] using hp'
      · simpa only [SThrottle.made, Option.toList, List.append_nil] using hf'
      · simpa only [Option.toList, List.append_nil] using h.gone
      · rintro x ⟨⟩; exact ⟨g3.1, g3.2.2⟩
  · exact ⟨_, _, rfl, keep rfl, by simpa [itemOf] using hg, by simp, fun _ => ⟨hr.2, rfl⟩⟩

theorem SThrottle.step {g : Nat → List (Poll Unit)} {m : SThrottle α} (h : ThrottleLive g m)
    (w : Waker) :
    ∃ r m', SThrottle.poll g w m = some (r, m') ∧ ThrottleLive g m' ∧
      m'.signal.src.got = m.signal.src.got ++ items [r] ∧
      (r = .ready none → m'.signal.alive = false ∧ m'.future = none) ∧
      (r = .pending → (∃ x, m'.future = some x ∧ x.src.armed w) ∨
        (m'.future = none ∧ m'.signal.src.armed w)) := by
  have key : ∀ m1 : SThrottle α, ThrottleLive g m1 → m1.future = none →
      m1.signal.src.got = m.signal.src.got →
      ∃ r m', some (SThrottle.pollSignal g w m1) = some (r, m') ∧ ThrottleLive g m' ∧
      m'.signal.src.got = m.signal.src.got ++ items [r] ∧
      (r = .ready none → m'.signal.alive = false ∧ m'.future = none) ∧
      (r = .pending → (∃ x, m'.future = some x ∧ x.src.armed w) ∨
        (m'.future = none ∧ m'.signal.src.armed w)) := by
    intro m1 h1 h2 h3
    obtain ⟨r, m', k1, k2, k3, k4, k5⟩ := SThrottle.pollSignal_spec h1 h2 w
    exact ⟨r, m', by rw [k1], k2, by rw [k3, h3], k4, fun hh => .inr ⟨(k5 hh).2, (k5 hh).1⟩⟩
  obtain ⟨sig, fut, calls, old⟩ := m
  cases fut with
  | none =>
    simp only [SThrottle.poll]
    exact key _ h rfl rfl
  | some x =>
    obtain ⟨hc, hout⟩ := h.live x rfl
    obtain ⟨q, src', e, g1, g2, g3⟩ := Src.pollF_rule w x.src hc hout
    have hp := (forall_mem_made (P := fun x => Plays (g x.tag) x.src)).1 h.plays
    have hfu := (forall_mem_made (P := fun x => x.src.fusedF)).1 h.fused
    have htags : (old ++ [x]).map Made.tag = List.range calls := h.tags
    have hmem : ∀ {P : Made Nat Unit → Prop}, (∀ y ∈ old, P y) → P ⟨x.tag, src'⟩ →
        ∀ y ∈ old ++ [⟨x.tag, src'⟩], P y := by
      intro P h1 h2 y hy
      simp only [List.mem_append, List.mem_singleton] at hy
      rcases hy with hy | rfl
      · exact h1 y hy
      · exact h2
    simp only [SThrottle.poll, e]
    cases q with
    | ready u =>
      refine key ⟨sig, none, calls, old ++ [⟨x.tag, src'⟩]⟩ ⟨h.inp, h.calls, ?_, ?_, ?_, ?_,
        by simp⟩ rfl rfl
      · simpa [SThrottle.made] using htags
      · simpa only [SThrottle.made, Option.toList, List.append_nil] using
          hmem (P := fun x => Plays (g x.tag) x.src) hp.1 ((hp.2 x rfl).poll e)
      · simpa only [SThrottle.made, Option.toList, List.append_nil] using
          hmem (P := fun x => x.src.fusedF) hfu.1 g2
      · exact hmem (P := fun x => x.src.completed) h.gone g3.2
    | pending =>
      refine ⟨_, _, rfl, ⟨h.inp, h.calls, ?_, ?_, ?_, h.gone, ?_⟩, by simp, by simp,
        fun _ => .inl ⟨_, rfl, g3.2.1⟩⟩
      · simpa [SThrottle.made] using htags
      · exact hmem (P := fun x => Plays (g x.tag) x.src) hp.1 ((hp.2 x rfl).poll e)
      · exact hmem (P := fun x => x.src.fusedF) hfu.1 g2
      · rintro y ⟨⟩; exact ⟨g3.1, g3.2.2⟩

/-! ## `sample_stream_cloned` -/

theorem sample_loop {w : Waker} {i : Inp (Option α)} (hok : i.Ok) :
    ∃ st i', i.loop w sampleBody i.src.got.getLast? = (st, i'.src.got.getLast?, i') ∧ i'.Ok ∧
      Settled w i' ∧ (i.src.got ≠ [] → i'.src.got ≠ []) := by
  obtain ⟨st, s', i', h1, h2, h3⟩ := Inp.loop_rule (w := w) (body := sampleBody)
    (fun s g _ => s = g.getLast? ∧ (i.src.got ≠ [] → g ≠ [])) (fun _ _ _ _ => False)
    (by
      rintro s g a t ⟨-, h⟩
      exact ⟨by simp, by simp⟩) i _ hok ⟨rfl, id⟩
  cases st with
  | panic => exact h3.elim
  | ret r => exact r.elim
  | ended => obtain ⟨⟨rfl, h4⟩, h5⟩ := h3; exact ⟨_, _, h1, h2, .inl h5, h4⟩
  | pending => obtain ⟨⟨rfl, h4⟩, h5, h6⟩ := h3; exact ⟨_, _, h1, h2, .inr h6, h4⟩

/-- The signal was not polled yet, or has a value. -/
def SampleReady (i : Inp (Option α)) : Prop :=
  i.src.got ≠ [] ∨ (i.alive = true ∧ ∃ a rest, i.src.todo = .ready (some a) :: rest)

theorem sample_loop_ready {w : Waker} {i : Inp (Option α)} (hok : i.Ok) (hr : SampleReady i) :
    ∃ st a i', i.loop w sampleBody i.src.got.getLast? = (st, some a, i') ∧ i'.Ok ∧
      Settled w i' ∧ i'.src.got.getLast? = some a := by
  have key : ∀ i : Inp (Option α), i.Ok → i.src.got ≠ [] →
      ∃ st a i', i.loop w sampleBody i.src.got.getLast? = (st, some a, i') ∧ i'.Ok ∧
      Settled w i' ∧ i'.src.got.getLast? = some a := by
    intro i hok hne
    obtain ⟨st, i', h1, h2, h3, h4⟩ := sample_loop (w := w) hok
    cases hl : i'.src.got.getLast? with
    | none => exact absurd (List.getLast?_eq_none_iff.1 hl) (h4 hne)
    | some a => exact ⟨st, a, i', by rw [h1, hl], h2, h3, hl⟩
  rcases hr with hr | ⟨ha, a, rest, ht⟩
  · exact key i hok hr
  · obtain ⟨⟨todo, hist⟩, alive⟩ := i
    simp only at ha ht
    subst ha ht
    have hne := hok.alive rfl
    have := key ⟨⟨rest, hist ++ [(w, .ready (some a))]⟩, true⟩
      ⟨fused_snoc hne, by
        constructor
        · intro h; exact absurd h (not_ended_snoc hne (by simp))
        · simp⟩ (by rw [got_snoc]; simp)
    have hg : (⟨rest, hist ++ [(w, .ready (some a))]⟩ : Src (Option α)).got.getLast? = some a := by
      rw [got_snoc]; simp
    simp only [hg] at this
    obtain ⟨st, b, i', h1, h2⟩ := this
    refine ⟨st, b, i', ?_, h2⟩
    rw [← h1]
    rfl

end Verif
