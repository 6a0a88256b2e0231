import Verif.MapSignalProofs

/-!
# Proofs about `filter_signal_cloned`
-/

namespace Verif

variable {α σ : Type}

/-- What the output contains for one element. -/
def FCState.shown (x : FCState α) : Option α := if x.isIn then some x.value else none

/-- What the output contains. -/
def kept (xs : List (FCState α)) : List α := xs.filterMap (·.shown)

@[simp] theorem kept_nil : kept ([] : List (FCState α)) = [] := rfl
@[simp] theorem kept_append (p q : List (FCState α)) : kept (p ++ q) = kept p ++ kept q := by
  simp [kept]
theorem kept_in {x : FCState α} (h : x.isIn = true) (q : List (FCState α)) :
    kept (x :: q) = x.value :: kept q := by simp [kept, FCState.shown, h]
theorem kept_out {x : FCState α} (h : x.isIn = false) (q : List (FCState α)) :
    kept (x :: q) = kept q := by simp [kept, FCState.shown, h]

theorem kept_length (p : List (FCState α)) : (p.filter (·.isIn)).length = (kept p).length := by
  induction p with
  | nil => rfl
  | cons x p ih => cases h : x.isIn <;> simp [h, kept_in, kept_out, ih]

theorem fcFindIndex_append (p q : List (FCState α)) :
    fcFindIndex (p ++ q) p.length = some (kept p).length := by
  simp [fcFindIndex, kept_length]

structure FCOk (g : α → List (Poll (Option Bool))) (x : FCState α) : Prop where
  inp : x.signal.Ok
  all : x.signal.src.all = items (g x.value)
  last : x.signal.src.got.getLast? = some x.isIn

theorem FCState.new_spec {g : α → List (Poll (Option Bool))}
    (hg : ∀ t, ∃ b rest, g t = .ready (some b) :: rest) (w : Waker) (t : α) :
    ∃ x, FCState.new g w t = some x ∧ x.value = t ∧ FCOk g x := by
  obtain ⟨b, rest, h⟩ := hg t
  obtain ⟨src, h1, h2, h3, h4⟩ := Src.first_poll w b rest
  refine ⟨⟨⟨src, true⟩, t, b⟩, ?_, rfl, ⟨h2, ?_, ?_⟩⟩
  · simp [FCState.new, h, h1, unwrapPoll]
  · simp [h, h3]
  · simp [h4]

theorem fcNewAll_spec {g : α → List (Poll (Option Bool))}
    (hg : ∀ t, ∃ b rest, g t = .ready (some b) :: rest) (w : Waker) (ts : List α) :
    ∃ xs, fcNewAll g w ts = some (kept xs, xs) ∧ xs.map (·.value) = ts ∧ (∀ x ∈ xs, FCOk g x) := by
  induction ts with
  | nil => exact ⟨[], rfl, rfl, by simp⟩
  | cons t ts ih =>
    obtain ⟨xs, h1, h2, h3⟩ := ih
    obtain ⟨x, g1, g2, g3⟩ := FCState.new_spec hg w t
    refine ⟨x :: xs, ?_, by simp [g2, h2], ?_⟩
    · cases h : x.isIn <;> simp [fcNewAll, g1, h1, h, kept_in, kept_out, g2]
    · intro y hy
      rcases List.mem_cons.1 hy with rfl | hy
      · exact g3
      · exact h3 y hy

theorem filterSignalBody_spec {g : α → List (Poll (Option Bool))}
    (hg : ∀ t, ∃ b rest, g t = .ready (some b) :: rest) (w : Waker) {d : VecDiff α}
    {xs : List (FCState α)} {ts' : List α} (hx : ∀ x ∈ xs, FCOk g x)
    (hd : d.apply (xs.map (·.value)) = some ts') (hok : FMoveOk g d (xs.map (·.value)))
    (np : List (VecDiff α)) :
    ∃ xs' add, filterSignalBody g w (xs, np) d = .cont (xs', np ++ add) ∧
      xs'.map (·.value) = ts' ∧ (∀ x ∈ xs', FCOk g x) ∧
      replay add (kept xs) = some (kept xs') := by
  rw [apply_eq_some] at hd
  generalize hts : xs.map (·.value) = ts at hd hok
  cases hd with
  | replace vs l =>
    obtain ⟨ys, h1, h2, h3⟩ := fcNewAll_spec hg w ts'
    exact ⟨ys, [.replace (kept ys)], by simp [filterSignalBody, h1], h2, h3, rfl⟩
  | insertAt p q t =>
    obtain ⟨p, q, rfl, rfl, rfl⟩ := List.map_eq_append_iff.1 hts
    obtain ⟨x, g1, rfl, g3⟩ := FCState.new_spec hg w t
    have hmem : ∀ y ∈ p ++ x :: q, FCOk g y := by
      intro y hy
      simp only [List.mem_append, List.mem_cons] at hy
      rcases hy with hy | rfl | hy
      · exact hx y (by simp [hy])
      · exact g3
      · exact hx y (by simp [hy])
    cases h : x.isIn with
    | true =>
      refine ⟨p ++ x :: q, [.insertAt (kept p).length x.value], ?_, by simp, hmem, ?_⟩
      · simp [filterSignalBody, g1, vInsert_append, h, fcFindIndex_append]
      · rw [replay_singleton, kept_append, kept_append, kept_in h]
        exact vInsert_append _ _ _
    | false =>
      refine ⟨p ++ x :: q, [], ?_, by simp, hmem, ?_⟩
      · simp [filterSignalBody, g1, vInsert_append, h]
      · simp [kept_out h, replay]
  | updateAt p b q t =>
    obtain ⟨p, bq, rfl, rfl, e⟩ := List.map_eq_append_iff.1 hts
    obtain ⟨b, q, rfl, rfl, rfl⟩ := List.map_eq_cons_iff.1 e
    obtain ⟨x, g1, rfl, g3⟩ := FCState.new_spec hg w t
    have hmem : ∀ y ∈ p ++ x :: q, FCOk g y := by
      intro y hy
      simp only [List.mem_append, List.mem_cons] at hy
      rcases hy with hy | rfl | hy
      · exact hx y (by simp [hy])
      · exact g3
      · exact hx y (by simp [hy])
    cases h : x.isIn with
    | true =>
      cases h' : b.isIn with
      | true =>
        refine ⟨p ++ x :: q, [.updateAt (kept p).length x.value], ?_, by simp, hmem, ?_⟩
        · simp [filterSignalBody, g1, h, h', fcFindIndex_append]
        · rw [replay_singleton, kept_append, kept_append, kept_in h, kept_in h']
          exact vSet_append _ _ _ _
      | false =>
        refine ⟨p ++ x :: q, [.insertAt (kept p).length x.value], ?_, by simp, hmem, ?_⟩
        · simp [filterSignalBody, g1, h, h', fcFindIndex_append]
        · rw [replay_singleton, kept_append, kept_append, kept_in h, kept_out h']
          exact vInsert_append _ _ _
    | false =>
      cases h' : b.isIn with
      | true =>
        refine ⟨p ++ x :: q, [.removeAt (kept p).length], ?_, by simp, hmem, ?_⟩
        · simp [filterSignalBody, g1, h, h', fcFindIndex_append]
        · rw [replay_singleton, kept_append, kept_append, kept_out h, kept_in h']
          simp [VecDiff.apply, vRemove_append]
      | false =>
        refine ⟨p ++ x :: q, [], ?_, by simp, hmem, ?_⟩
        · simp [filterSignalBody, g1, h, h']
        · simp [kept_out h, kept_out h', replay]
  | removeAt p b q =>
    obtain ⟨p, bq, rfl, rfl, e⟩ := List.map_eq_append_iff.1 hts
    obtain ⟨b, q, rfl, rfl, rfl⟩ := List.map_eq_cons_iff.1 e
    have hmem : ∀ y ∈ p ++ q, FCOk g y := by
      intro y hy
      exact hx y (by simp at hy ⊢; rcases hy with hy | hy <;> simp [hy])
    cases h : b.isIn with
    | true =>
      refine ⟨p ++ q, [.removeAt (kept p).length], ?_, by simp, hmem, ?_⟩
      · simp [filterSignalBody, vRemove_append, h, fcFindIndex_append]
      · rw [replay_singleton, kept_append, kept_append, kept_in h]
        simp [VecDiff.apply, vRemove_append]
    | false =>
      refine ⟨p ++ q, [], ?_, by simp, hmem, ?_⟩
      · simp [filterSignalBody, vRemove_append, h]
      · simp [kept_out h, replay]
  | moveFwd p a m q =>
    obtain ⟨p, r, rfl, rfl, e⟩ := List.map_eq_append_iff.1 hts
    obtain ⟨a, r, rfl, rfl, e2⟩ := List.map_eq_cons_iff.1 e
    obtain ⟨m, q, rfl, rfl, rfl⟩ := List.map_eq_append_iff.1 e2
    have hmem : ∀ y ∈ p ++ m ++ a :: q, FCOk g y := by
      intro y hy
      refine hx y ?_
      simp only [List.mem_append, List.mem_cons] at hy ⊢
      rcases hy with (hy | hy) | hy | hy <;> simp [hy]
    have hins := vInsert_append (p ++ m) q a
    simp only [List.length_append] at hins
    cases h : a.isIn with
    | true =>
      have f1 := fcFindIndex_append p (m ++ a :: q)
      have f2 := fcFindIndex_append (p ++ m) (a :: q)
      simp only [List.length_append] at f2
      rw [← List.append_assoc] at f1
      refine ⟨p ++ m ++ a :: q, [.move (kept p).length (kept (p ++ m)).length], ?_, by simp, hmem, ?_⟩
      · simp only [filterSignalBody, List.length_map, vRemove_append]
        rw [← List.append_assoc, hins]
        simp only [h, f1, f2]
        simp
      · rw [replay_singleton, apply_eq_some]
        have := Applies.moveFwd (kept p) a.value (kept m) (kept q)
        simpa [kept_in h] using this
    | false =>
      refine ⟨p ++ m ++ a :: q, [], ?_, by simp, hmem, ?_⟩
      · simp only [filterSignalBody, List.length_map, vRemove_append]
        rw [← List.append_assoc, hins]
        simp [h]
      · simp [kept_out h, replay]
  | moveBack p m a q =>
    obtain ⟨pm, r, rfl, e', e⟩ := List.map_eq_append_iff.1 hts
    obtain ⟨p, m, rfl, rfl, rfl⟩ := List.map_eq_append_iff.1 e'
    obtain ⟨a, q, rfl, rfl, rfl⟩ := List.map_eq_cons_iff.1 e
    have hmem : ∀ y ∈ p ++ a :: (m ++ q), FCOk g y := by
      intro y hy
      refine hx y ?_
      simp only [List.mem_append, List.mem_cons] at hy ⊢
      rcases hy with hy | hy | hy | hy <;> simp [hy]
    have hrem := vRemove_append (p ++ m) q a
    have hins := vInsert_append p (m ++ q) a
    simp only [List.length_append] at hrem
    cases h : a.isIn with
    | false =>
      refine ⟨p ++ a :: (m ++ q), [], ?_, by simp, hmem, ?_⟩
      · simp only [filterSignalBody, List.length_map, hrem]
        rw [List.append_assoc, hins]
        simp [h]
      · simp [kept_out h, replay]
    | true =>
      have hlen : ∃ pre post, p ++ a :: (m ++ q) = pre ++ post ∧ pre.length = p.length + m.length ∧
          (kept pre).length = (kept p).length + (kept m).length := by
        rcases List.eq_nil_or_concat m with rfl | ⟨m', c, rfl⟩
        · exact ⟨p, a :: q, by simp, by simp, by simp⟩
        · refine ⟨p ++ a :: m', c :: q, by simp, by simp, ?_⟩
          have hc : c.isIn = true := by
            rcases hok (by simp) with k | k
            · have k := k a.value (by
                rw [List.getElem?_append_right (by simp)]; simp)
              have hl := (hx a (by simp)).last
              have := k a.isIn (by
                rw [← (hx a (by simp)).all]
                exact List.mem_append_left _ (List.mem_of_getLast? hl))
              rw [h] at this
              cases this
            · have k := k c.value (by
                rw [List.getElem?_append_left (by simp), List.getElem?_append_right (by simp)]
                simp)
              have hl := (hx c (by simp)).last
              exact k c.isIn (by
                rw [← (hx c (by simp)).all]
                exact List.mem_append_left _ (List.mem_of_getLast? hl))
          simp [kept_in h, kept_in hc]
      obtain ⟨pre, post, h1, h2, h3⟩ := hlen
      have f1 := fcFindIndex_append p (a :: (m ++ q))
      have f2 := fcFindIndex_append pre post
      rw [← h1, h2, h3] at f2
      refine ⟨p ++ a :: (m ++ q), [.move ((kept p).length + (kept m).length) (kept p).length], ?_,
        by simp, hmem, ?_⟩
      · simp only [filterSignalBody, List.length_map, hrem]
        rw [List.append_assoc, hins]
        simp only [h, f1, f2]
        simp
      · rw [replay_singleton, apply_eq_some]
        have := Applies.moveBack (kept p) (kept m) a.value (kept q)
        simpa [kept_in h] using this
  | push l t =>
    subst hts
    obtain ⟨x, g1, rfl, g3⟩ := FCState.new_spec hg w t
    have hmem : ∀ y ∈ xs ++ [x], FCOk g y := by
      intro y hy
      simp only [List.mem_append, List.mem_singleton] at hy
      rcases hy with hy | rfl
      · exact hx y hy
      · exact g3
    cases h : x.isIn with
    | true =>
      refine ⟨xs ++ [x], [.push x.value], ?_, by simp, hmem, ?_⟩
      · simp [filterSignalBody, g1, h]
      · simp [replay, VecDiff.apply, kept_in h]
    | false =>
      refine ⟨xs ++ [x], [], ?_, by simp, hmem, ?_⟩
      · simp [filterSignalBody, g1, h]
      · simp [kept_out h, replay]
  | pop l a =>
    obtain ⟨p, r, rfl, rfl, e⟩ := List.map_eq_append_iff.1 hts
    obtain ⟨a, r, rfl, rfl, e⟩ := List.map_eq_cons_iff.1 e
    have : r = [] := by simpa using e
    subst this
    have hmem : ∀ y ∈ p, FCOk g y := fun y hy => hx y (by simp [hy])
    cases h : a.isIn with
    | true =>
      refine ⟨p, [.pop], ?_, rfl, hmem, ?_⟩
      · simp [filterSignalBody, vPop_snoc, h]
      · rw [replay_singleton, kept_append, kept_in h]
        simp [VecDiff.apply, vPop_snoc]
    | false =>
      refine ⟨p, [], ?_, rfl, hmem, ?_⟩
      · simp [filterSignalBody, vPop_snoc, h]
      · simp [kept_out h, replay]
  | clear l =>
    exact ⟨[], [.clear], by simp [filterSignalBody], rfl, by simp, rfl⟩

/-- Draining one signal. -/
theorem FCState.drain_spec {g : α → List (Poll (Option Bool))} (w : Waker) {x : FCState α}
    (h : FCOk g x) : ∃ hp x', x.drain w = (hp, x') ∧ x'.value = x.value ∧ FCOk g x' ∧
      Settled w x'.signal ∧ (hp = false ↔ x'.signal.alive = false) := by
  obtain ⟨st, b, i', h1, h2, h3⟩ := Inp.loop_rule (w := w)
    (body := fun (_ : Bool) (b : Bool) => (Ctl.cont b : Ctl Bool Empty))
    (fun b got _ => got.getLast? = some b) (fun _ _ _ _ => False)
    (by intro s g a t _; simp) x.signal x.isIn h.inp h.last
  have hall := Inp.loop_all w (fun (_ : Bool) (b : Bool) => (Ctl.cont b : Ctl Bool Empty)) x.signal x.isIn
  rw [h1] at hall
  unfold FCState.drain
  rw [h1]
  cases st with
  | panic => exact h3.elim
  | ret r => exact h3.1.elim
  | ended =>
    exact ⟨_, _, rfl, rfl, ⟨h2, hall.trans h.all, h3.1⟩, .inl h3.2, by simp [h3.2]⟩
  | pending =>
    exact ⟨_, _, rfl, rfl, ⟨h2, hall.trans h.all, h3.1⟩, .inr h3.2.2, by simp [h3.2.1]⟩

theorem drainSignals_spec {g : α → List (Poll (Option Bool))} (w : Waker) (xs : List (FCState α))
    (h : ∀ x ∈ xs, FCOk g x) (p : List α) (np : List (VecDiff α)) :
    ∃ hp add xs', drainSignals w p.length np xs = (hp, np ++ add, xs') ∧
      xs'.map (·.value) = xs.map (·.value) ∧ (∀ x ∈ xs', FCOk g x) ∧
      replay add (p ++ kept xs) = some (p ++ kept xs') ∧
      (∀ x ∈ xs', Settled w x.signal) ∧ (hp = false ↔ ∀ x ∈ xs', x.signal.alive = false) := by
  induction xs generalizing p np with
  | nil => exact ⟨false, [], [], by simp [drainSignals], rfl, by simp, rfl, by simp, by simp⟩
  | cons x xs ih =>
    obtain ⟨b, x', a1, a2, a3, a4, a5⟩ := FCState.drain_spec w (h x (by simp))
    have hrest := fun y hy => h y (List.mem_cons_of_mem x hy)
    have key : ∀ (p' : List α) (add0 : List (VecDiff α)),
        (∀ hp np' xs', drainSignals w p'.length (np ++ add0) xs = (hp, np', xs') →
          drainSignals w p.length np (x :: xs) = (b || hp, np', x' :: xs')) →
        replay add0 (p ++ kept (x :: xs)) = some (p' ++ kept xs) →
        (∀ q, p' ++ kept q = p ++ kept (x' :: q)) →
        ∃ hp add xs', drainSignals w p.length np (x :: xs) = (hp, np ++ add, xs') ∧
          xs'.map (·.value) = (x :: xs).map (·.value) ∧ (∀ x ∈ xs', FCOk g x) ∧
          replay add (p ++ kept (x :: xs)) = some (p ++ kept xs') ∧
          (∀ x ∈ xs', Settled w x.signal) ∧ (hp = false ↔ ∀ x ∈ xs', x.signal.alive = false) := by
      intro p' add0 h1 h2 h3
      obtain ⟨hp, add, xs', c1, c2, c3, c4, c5, c6⟩ := ih hrest p' (np ++ add0)
      refine ⟨b || hp, add0 ++ add, x' :: xs', ?_, by simp [a2, c2], ?_, ?_, ?_, ?_⟩
      · rw [h1 _ _ _ c1]; simp
      · intro y hy
        rcases List.mem_cons.1 hy with rfl | hy
        · exact a3
        · exact c3 y hy
      · rw [← h3]; exact replay_append_some h2 c4
      · intro y hy
        rcases List.mem_cons.1 hy with rfl | hy
        · exact a4
        · exact c5 y hy
      · simp [c6, a5]
    cases hb : x'.isIn with
    | true =>
      cases ho : x.isIn with
      | true =>
        refine key (p ++ [x'.value]) [] ?_ ?_ ?_
        · intro hp np' xs' e
          simp only [List.length_append, List.length_singleton, List.append_nil] at e
          simp [drainSignals, a1, hb, ho, e]
        · simp [replay, kept_in ho, a2]
        · simp [kept_in hb]
      | false =>
        refine key (p ++ [x'.value]) [.insertAt p.length x'.value] ?_ ?_ ?_
        · intro hp np' xs' e
          simp only [List.length_append, List.length_singleton] at e
          simp [drainSignals, a1, hb, ho, e]
        · rw [replay_singleton, kept_out ho]
          have := vInsert_append p (kept xs) x'.value
          simpa [VecDiff.apply] using this
        · simp [kept_in hb]
    | false =>
      cases ho : x.isIn with
      | true =>
        refine key p [.removeAt p.length] ?_ ?_ ?_
        · intro hp np' xs' e
          simp [drainSignals, a1, hb, ho, e]
        · rw [replay_singleton, kept_in ho]
          simp [VecDiff.apply, vRemove_append]
        · simp [kept_out hb]
      | false =>
        refine key p [] ?_ ?_ ?_
        · intro hp np' xs' e
          simp only [List.append_nil] at e
          simp [drainSignals, a1, hb, ho, e]
        · simp [replay, kept_out ho]
        · simp [kept_out hb]

/-! ## The whole -/

structure FilterSignalInv (g : α → List (Poll (Option Bool))) (s : VFilterSignal α) (ts : List α)
    (zs : List α) : Prop where
  inp : s.signal.Ok
  valid : Valid (FMoveOk g) s.signal.src ts
  tags : s.signals.map (·.value) = ts
  inner : ∀ x ∈ s.signals, FCOk g x
  queue : replay s.pending zs = some (kept s.signals)

theorem VFilterSignal.step {g : α → List (Poll (Option Bool))}
    (hg : ∀ t, ∃ b rest, g t = .ready (some b) :: rest) (w : Waker) {s : VFilterSignal α}
    {ts zs : List α} (h : FilterSignalInv g s ts zs) :
    ∃ r s' ts', VFilterSignal.poll g w s = some (r, s') ∧
      match r with
      | .ready (some d) => ∃ zs', d.apply zs = some zs' ∧ FilterSignalInv g s' ts' zs'
      | .ready none => FilterSignalInv g s' ts' zs ∧ s'.pending = [] ∧ s'.signal.alive = false ∧
          ∀ x ∈ s'.signals, x.signal.alive = false
      | .pending => FilterSignalInv g s' ts' zs ∧ s'.pending = [] ∧ Settled w s'.signal ∧
          (∀ x ∈ s'.signals, Settled w x.signal) ∧
          ¬ (s'.signal.alive = false ∧ ∀ x ∈ s'.signals, x.signal.alive = false) := by
  obtain ⟨sig, signals, pend⟩ := s
  unfold VFilterSignal.poll
  have hq := h.queue
  cases hp : pend with
  | cons c rest =>
    subst hp
    simp only [replay] at hq
    cases hc : c.apply zs with
    | none => simp [hc] at hq
    | some zs' =>
      simp only [hc] at hq
      exact ⟨_, _, ts, rfl, zs', hc, h.inp, h.valid, h.tags, h.inner, hq⟩
  | nil =>
    subst hp
    simp only
    simp only [replay, Option.some.injEq] at hq
    obtain ⟨st, ⟨signals', np⟩, i', ts', h1, h2, h3, h4⟩ := Inp.vloop_rule (ok := FMoveOk g) (w := w)
      (body := filterSignalBody g w)
      (fun q ts => q.1.map (·.value) = ts ∧ (∀ x ∈ q.1, FCOk g x) ∧ replay q.2 zs = some (kept q.1))
      (fun _ _ _ => False)
      (by
        rintro ⟨signals, np⟩ ts d ts' ⟨a, b, c⟩ hok hd
        simp only at a b c
        subst a
        obtain ⟨xs', add, e1, e2, e3, e4⟩ := filterSignalBody_spec hg w b hd hok np
        rw [e1]
        exact ⟨e2, e3, replay_append_some c e4⟩)
      sig (signals, []) ts h.inp h.valid ⟨h.tags, h.inner, by simp [replay, hq]⟩
    rw [h1]
    simp only at h4
    have hfin : ∀ top, (top = true → i'.alive = false) →
        (top = false → i'.alive = true ∧ i'.src.armed w) →
        (signals'.map (·.value) = ts' ∧ (∀ x ∈ signals', FCOk g x) ∧
          replay np zs = some (kept signals')) →
        ∃ r s' ts', some (VFilterSignal.finish w top i' signals' np) = some (r, s') ∧
          match r with
          | .ready (some d) => ∃ zs', d.apply zs = some zs' ∧ FilterSignalInv g s' ts' zs'
          | .ready none => FilterSignalInv g s' ts' zs ∧ s'.pending = [] ∧ s'.signal.alive = false ∧
              ∀ x ∈ s'.signals, x.signal.alive = false
          | .pending => FilterSignalInv g s' ts' zs ∧ s'.pending = [] ∧ Settled w s'.signal ∧
              (∀ x ∈ s'.signals, Settled w x.signal) ∧
              ¬ (s'.signal.alive = false ∧ ∀ x ∈ s'.signals, x.signal.alive = false) := by
      rintro top ht1 ht2 ⟨a, b, c⟩
      obtain ⟨hp, add, xs', d1, d2, d3, d5, d8, d9⟩ := drainSignals_spec w signals' b [] np
      simp only [List.length_nil, List.nil_append] at d1 d5
      have d7 := replay_append_some c d5
      unfold VFilterSignal.finish
      rw [d1]
      cases hall : np ++ add with
      | cons d rest =>
        rw [hall] at d7
        simp only [replay] at d7
        cases hc : d.apply zs with
        | none => simp [hc] at d7
        | some zs' =>
          simp only [hc] at d7
          exact ⟨_, _, ts', rfl, zs', hc, h2, h3, d2.trans a, d3, d7⟩
      | nil =>
        rw [hall] at d7
        by_cases hd : top && !hp
        · simp only [hd, if_true]
          simp only [Bool.and_eq_true, Bool.not_eq_true'] at hd
          exact ⟨_, _, ts', rfl, ⟨h2, h3, d2.trans a, d3, d7⟩, rfl, ht1 hd.1, d9.1 hd.2⟩
        · simp only [hd]
          refine ⟨_, _, ts', rfl, ⟨h2, h3, d2.trans a, d3, d7⟩, rfl, ?_, d8, ?_⟩
          · cases top with
            | true => exact .inl (ht1 rfl)
            | false => exact .inr (ht2 rfl).2
          · rintro ⟨k1, k2⟩
            have := d9.2 k2
            subst this
            cases top with
            | true => simp at hd
            | false => have := (ht2 rfl).1; rw [k1] at this; cases this
    cases st with
    | panic => exact h4.elim
    | ret d => exact h4.1.elim
    | ended =>
      obtain ⟨a, e⟩ := h4
      exact hfin true (fun _ => e) (by simp) a
    | pending =>
      obtain ⟨a, e⟩ := h4
      exact hfin false (by simp) (fun _ => e) a

end Verif
