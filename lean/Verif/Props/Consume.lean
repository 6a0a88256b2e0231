import Verif.Props.Expr
import Verif.Props.ForEach
import Verif.Props.SignalA2
import Verif.Props.SignalB

/-!
# What consumes an expression: `for_each`, `wait_for`, `to_future`, `stop_if`, `filter_map`,
`map_future`, `throttle` on top of an expression (property C74)

`u` is the trace at the boundary between the expression `e` and the consumer: what the consumer polled
(`hist`) is what the expression answered.
-/

namespace Verif

/-- The values or diffs in `l` show `v` (compare `Ty.Shows`). -/
def Ty.ShownBy : (τ : Ty) → List τ.Item → τ.Den → Prop
  | .sig _, l, v => l.getLast? = some v
  | .vec _, l, v => replay l [] = some v
  | @Ty.map _ _ _, l, v => mreplay l noKeys = some v

/-! ## Lemmas -/

theorem shows_iff {τ : Ty} (t : Tr τ) (v : τ.Den) : τ.Shows t v ↔ τ.ShownBy (items (t.map (·.2))) v := by
  cases τ <;> rfl

/-- An input that ended and was not polled afterwards. -/
theorem last_of_ended {α : Type} {s : Src (Option α)} (hf : s.fused) (he : s.ended) :
    ∃ y, s.hist.getLast? = some (y, .ready none) := by
  obtain ⟨w, hw⟩ := he
  obtain ⟨pre, post, hp⟩ := List.append_of_mem hw
  have := hf pre w post hp
  subst this
  exact ⟨w, by rw [hp]; simp⟩

/-- C71 for the consumers: when the input is at rest. -/
theorem rest_input {τ : Ty} {e : Expr τ} (hl : e.Lawful) {u : Tr τ} {W : Waker → Prop}
    (he : e.Exec true u W) {s : Src (Option τ.Item)} (hu : s.hist = u) :
    (∀ x, s.armed x → (∃ v, τ.ShownBy s.got v ∧ e.Spec v) ∨ W x) ∧
    (s.fused → s.ended → ∃ v, τ.ShownBy s.got v ∧ e.Spec v) := by
  obtain ⟨-, h2, h3⟩ := C71_expressions_partial e hl u W he
  subst hu
  constructor
  · intro x hx
    refine (h2 x hx).imp ?_ id
    rintro ⟨v, h, hv⟩
    exact ⟨v, (shows_iff _ _).1 h, hv⟩
  · intro hf hd
    obtain ⟨y, hy⟩ := last_of_ended hf hd
    obtain ⟨v, h, hv⟩ := h3 y hy
    exact ⟨v, (shows_iff _ _).1 h, hv⟩

/-! ## Theorems -/

/-- **C74**, `for_each` (partial: see `Expr.Lawful`).  A task made by `for_each` of any expression,
polled with the wakers `ws`: if the last answer was `Pending`, to a poll with waker `x`, then
* the future of the last call of the callback is not ready yet and was polled with `x`,
* or the callback has been told everything: the values or diffs it was called on show what the
  expression denotes for the present values of the sources,
* or `x` has been woken by a source since.
If the task is complete then the callback has been told everything. -/
theorem C74_for_each_partial {τ : Ty} {κ : Type} (e : Expr τ) (hl : e.Lawful) (u : Tr τ)
    (W : Waker → Prop) (he : e.Exec true u W) (f : κ → τ.Item → List (Poll Unit) × κ) (k0 : κ)
    (ws : List Waker) (outs : List (Poll Unit)) (m : SForEach κ τ.Item)
    (h : runF (SForEach.poll f) ws (SForEach.init k0 (u.map (·.2))) = some (outs, m))
    (hu : m.stream.hist = u) :
    (∀ x, ws.getLast? = some x → outs.getLast? = some .pending →
      (∃ s, m.future = some s ∧ s.armed x) ∨ (∃ v, τ.ShownBy (feCalls m.log) v ∧ e.Spec v) ∨ W x) ∧
    (.ready () ∈ outs → ∃ v, τ.ShownBy (feCalls m.log) v ∧ e.Spec v) := by
  obtain ⟨outs', m', h1, -, h3, -, -, h6, h7, -, h9⟩ := C65_for_each f k0 (u.map (·.2)) ws
  rw [h1] at h
  obtain ⟨rfl, rfl⟩ := Prod.mk.inj (Option.some.inj h)
  obtain ⟨r1, r2⟩ := rest_input hl he hu
  rw [h3]
  refine ⟨fun x hx hp => ?_, fun hr => r2 h9 (h7.1 ⟨(), hr⟩)⟩
  rcases h6 x hx hp with ⟨-, ha⟩ | ha
  · exact .inr (r1 x ha)
  · exact .inl ha

/-- **C74**, `wait_for` (partial: see `Expr.Lawful`).  If the last answer was `Pending`, to a poll with
waker `x`, then the expression does not denote `value` at present, or `x` has been woken since.  If it
completed with `None`, the former.  It never completes with another value. -/
theorem C74_wait_for_partial {α : Type} [BEq α] [LawfulBEq α] (e : Expr (.sig α)) (hl : e.Lawful)
    (u : SigTrace α) (W : Waker → Prop) (he : e.Exec true u W) (value : α) (ws : List Waker)
    (outs : List (Poll (Option α))) (m : SWaitFor α)
    (h : runF SWaitFor.poll ws (SWaitFor.init value (u.map (·.2))) = some (outs, m))
    (hu : m.signal.hist = u) :
    (∀ x, ws.getLast? = some x → outs.getLast? = some .pending → (∃ v, e.Spec v ∧ v ≠ value) ∨ W x) ∧
    (.ready none ∈ outs → ∃ v, e.Spec v ∧ v ≠ value) ∧
    ∀ a, .ready (some a) ∈ outs → a = value := by
  obtain ⟨outs', m', h1, hf, h2⟩ := C53_wait_for value (u.map (·.2)) ws
  rw [h1] at h
  obtain ⟨rfl, rfl⟩ := Prod.mk.inj (Option.some.inj h)
  obtain ⟨r1, r2⟩ := rest_input hl he hu
  have hne : (∀ a ∈ m'.signal.got, (a == value) = false) → ∀ v, Ty.ShownBy (.sig α) m'.signal.got v →
      v ≠ value := by
    intro ha v hv heq
    have := ha v (List.mem_of_getLast? hv)
    simp [heq] at this
  rcases h2 with ⟨rfl, rfl⟩ | ⟨k, w, r, rfl, hw, h3⟩
  · simp
  obtain (_ | a) | _ := r
  · refine ⟨by simp, fun _ => ?_, by simp⟩
    obtain ⟨v, hv, hs⟩ := r2 hf h3.1
    exact ⟨v, hs, hne h3.2 v hv⟩
  · refine ⟨by simp, by simp, fun b hb => ?_⟩
    simp only [List.mem_append, List.mem_replicate, reduceCtorEq, and_false, List.mem_cons,
      Poll.ready.injEq, Option.some.injEq, List.not_mem_nil, or_false, false_or] at hb
    subst hb
    obtain ⟨h, y, c, hh, hc, -⟩ := h3.1
    have : m'.signal.got.getLast? = some c := by simp [Src.got, hh, items_append, items]
    rw [h3.2] at this
    cases this
    exact eq_of_beq hc
  · refine ⟨fun x hx _ => ?_, by simp, by simp⟩
    have hxw : x = w := by
      obtain ⟨h4, -⟩ := h3
      rw [List.getLast?_eq_getElem?] at hx
      have : ws.length - 1 = k := by omega
      rw [this, hw] at hx
      exact (Option.some.inj hx).symm
    subst hxw
    refine (r1 x h3.2.1).imp ?_ id
    rintro ⟨v, hv, hs⟩
    exact ⟨v, hs, hne h3.2.2 v hv⟩

/-- **C74**, `to_future` (partial: see `Expr.Lawful`).  It does not panic; it completes only when the
expression has ended, with what the expression denotes; before that, the task is armed with the waker
of its last poll: the expression shows its present value or that waker has been woken. -/
theorem C74_to_future_partial {α : Type} (e : Expr (.sig α)) (hl : e.Lawful) (u : SigTrace α)
    (W : Waker → Prop) (he : e.Exec true u W) (ws : List Waker) :
    ∃ outs m, runF SToFuture.poll ws (SToFuture.init (u.map (·.2))) = some (outs, m) ∧
      (m.signal.hist = u →
        (∀ a, .ready a ∈ outs → e.Spec a) ∧
        ∀ x, ws.getLast? = some x → outs.getLast? = some .pending →
          (∃ v, m.signal.got.getLast? = some v ∧ e.Spec v) ∨ W x) := by
  have hv : ValueFirst (u.map (·.2)) := by
    intro pre post hpp
    rcases (C71_expressions_partial e hl u W he).1 with rfl | ⟨b, hb⟩
    · simp at hpp
    · cases u with
      | nil => simp at hb
      | cons q u =>
        cases pre with
        | nil =>
          simp only [List.map_cons, List.nil_append, List.cons.injEq] at hpp
          simp [hpp.1] at hb
        | cons p pre =>
          simp only [List.map_cons, List.cons_append, List.cons.injEq] at hpp
          simp only [List.head?_cons, Option.map_some, Option.some.injEq] at hb
          rw [← hpp.1, hb]
          simp [items]
  obtain ⟨outs, m, h1, hf, h2⟩ := C53_to_future (u.map (·.2)) hv ws
  refine ⟨outs, m, h1, fun hu => ?_⟩
  obtain ⟨r1, r2⟩ := rest_input hl he hu
  rcases h2 with ⟨rfl, rfl⟩ | ⟨k, w, r, rfl, hw, h3⟩
  · simp
  cases r with
  | ready a =>
    refine ⟨fun b hb => ?_, by simp⟩
    simp only [List.mem_append, List.mem_replicate, reduceCtorEq, and_false, List.mem_cons,
      Poll.ready.injEq, List.not_mem_nil, or_false, false_or] at hb
    subst hb
    obtain ⟨v, hv, hs⟩ := r2 hf h3.1
    have hv' : m.signal.got.getLast? = some v := hv
    rw [h3.2] at hv'
    cases hv'
    exact hs
  | pending =>
    refine ⟨by simp, fun x hx _ => ?_⟩
    have hxw : x = w := by
      obtain ⟨h4, -⟩ := h3
      rw [List.getLast?_eq_getElem?] at hx
      have : ws.length - 1 = k := by omega
      rw [this, hw] at hx
      exact (Option.some.inj hx).symm
    subst hxw
    exact r1 x h3.2

/-- **C74**, `stop_if` (partial: see `Expr.Lawful`).  If the last answer was `Pending`, to a poll with
waker `x`, then the last value is what the expression denotes at present and does not pass the test, or
`x` has been woken since.  If it was the end, then the last value passes the test, or is what the
expression denotes. -/
theorem C74_stop_if_partial {α : Type} (e : Expr (.sig α)) (hl : e.Lawful) (u : SigTrace α)
    (W : Waker → Prop) (he : e.Exec true u W) (p : α → Bool) (ws : List Waker)
    (outs : List (Poll (Option α))) (m : SStopIf (List α) α)
    (h : run (SStopIf.poll (logging p)) ws (SStopIf.init [] (u.map (·.2))) = some (outs, m))
    (hu : m.signal.hist = u) :
    (∀ x, ws.getLast? = some x → outs.getLast? = some .pending →
      (∃ v, (items outs).getLast? = some v ∧ e.Spec v ∧ p v = false) ∨ W x) ∧
    (.ready none ∈ outs → ∃ v, (items outs).getLast? = some v ∧ (e.Spec v ∨ p v = true)) := by
  obtain ⟨hf, hstop, harm⟩ := C57_stop_if (logging p) [] (u.map (·.2)) ws outs m h
  obtain ⟨outs', m', h1, h2, h3, h4⟩ := C53_stop_if p (u.map (·.2)) ws
  rw [h1] at h
  obtain ⟨rfl, rfl⟩ := Prod.mk.inj (Option.some.inj h)
  obtain ⟨r1, r2⟩ := rest_input hl he hu
  have hi : items outs' = m'.signal.got := by
    rcases h4 with h4 | ⟨-, h4⟩ <;> rw [h4] <;> simp [Src.got, items_append, items]
  rw [hi]
  constructor
  · intro x hx hp
    have ha := harm x hx hp
    refine (r1 x ha).imp ?_ id
    rintro ⟨v, hv, hs⟩
    have hv' : m'.signal.got.getLast? = some v := hv
    refine ⟨v, hv', hs, ?_⟩
    rcases h3 with h3 | ⟨g, y, a, hh, -, -⟩
    · exact h3 v (List.mem_of_getLast? hv')
    · unfold Src.armed at ha
      simp [hh] at ha
  · intro hr
    rcases h3 with h3 | ⟨g, y, a, hh, hpa, -⟩
    · rcases h4 with h4 | ⟨⟨g, y, a, hh, hpa, -⟩, -⟩
      · have hend : m'.signal.ended := by
          rw [h4] at hr
          obtain ⟨q, hq, hq2⟩ := List.mem_map.1 hr
          exact ⟨q.1, by rw [← hq2]; exact hq⟩
        obtain ⟨v, hv, hs⟩ := r2 hf hend
        exact ⟨v, hv, .inl hs⟩
      · exact ⟨a, by simp [Src.got, hh, items_append, items], .inr hpa⟩
    · exact ⟨a, by simp [Src.got, hh, items_append, items], .inr hpa⟩

/-- **C74**, `filter_map` of a `Signal` (partial: see `Expr.Lawful`).  If the last answer was `Pending`,
to a poll with waker `x`, and the callback accepts what the expression denotes at present, then the last
value is what the callback makes of it, or `x` has been woken since.  If the last answer was the end,
the former. -/
theorem C74_filter_map_partial {α β : Type} (e : Expr (.sig α)) (hl : e.Lawful) (u : SigTrace α)
    (W : Waker → Prop) (he : e.Exec true u W) (f : α → Option β) (ws : List Waker)
    (outs : List (Poll (Option (Option β)))) (m : SFilterMap (List α) α)
    (h : run (SFilterMap.poll (logging f)) ws (SFilterMap.init [] (u.map (·.2))) = some (outs, m))
    (hu : m.signal.hist = u) :
    (∀ x, ws.getLast? = some x → outs.getLast? = some .pending →
      (∃ v, e.Spec v ∧ ∀ b, f v = some b → (items outs).getLast? = some (some b)) ∨ W x) ∧
    (.ready none ∈ outs → ∃ v, e.Spec v ∧ ∀ b, f v = some b → (items outs).getLast? = some (some b)) := by
  obtain ⟨hf, hend, harm⟩ := C57_signal_filter_map (logging f) [] (u.map (·.2)) ws outs m h
  obtain ⟨outs', m', h1, h2, -⟩ := C51_filter_map f (u.map (·.2)) ws
  rw [h1] at h
  obtain ⟨rfl, rfl⟩ := Prod.mk.inj (Option.some.inj h)
  obtain ⟨r1, r2⟩ := rest_input hl he hu
  have key : ∀ v, m'.signal.got.getLast? = some v → ∀ b, f v = some b →
      (items outs').getLast? = some (some b) := by
    intro v hv b hb
    rw [h2]
    obtain ⟨l, hl⟩ : ∃ l, m'.signal.got = l ++ [v] := by
      rcases List.eq_nil_or_concat m'.signal.got with h | ⟨l, a, h⟩
      · simp [h] at hv
      · rw [h] at hv
        simp only [List.concat_eq_append, List.getLast?_concat, Option.some.injEq] at hv
        subst hv
        exact ⟨l, by simpa using h⟩
    rw [hl]
    cases l with
    | nil => simp [filterMapSpec, hb]
    | cons a l => simp [filterMapSpec, hb, List.getLast?_cons]
  refine ⟨fun x hx hp => ?_, fun hr => ?_⟩
  · refine (r1 x (harm x hx hp)).imp ?_ id
    rintro ⟨v, hv, hs⟩
    exact ⟨v, hs, key v hv⟩
  · obtain ⟨v, hv, hs⟩ := r2 hf (hend hr)
    exact ⟨v, hs, key v hv⟩

/-- **C74**, `map_future` (partial: see `Expr.Lawful`).  If the last answer was `Pending`, to a poll with
waker `x`, then `x` has been woken by a source since, or, for the value `v` that the expression denotes
at present,
* the future made for `v` is not ready yet and was polled with `x`,
* or it has been ready and its output is the last value.
If the last answer was the end, the last is the case. -/
theorem C74_map_future_partial {α β : Type} (e : Expr (.sig α)) (hl : e.Lawful) (u : SigTrace α)
    (W : Waker → Prop) (he : e.Exec true u W) (g : α → List (Poll β)) (ws : List Waker)
    (outs : List (Poll (Option (Option β)))) (m : SMapFuture α β)
    (h : run (SMapFuture.poll g) ws (SMapFuture.init (u.map (·.2))) = some (outs, m))
    (hu : m.signal.src.hist = u) :
    (∀ x, ws.getLast? = some x → outs.getLast? = some .pending →
      (∃ v, e.Spec v ∧ ((∃ y, m.future = some y ∧ y.tag = v ∧ y.src.armed x) ∨
        ∃ y b, m.old.getLast? = some y ∧ y.tag = v ∧ y.src.output = some b ∧
          (items outs).getLast? = some (some b))) ∨ W x) ∧
    (.ready none ∈ outs → ∃ v, e.Spec v ∧
      ∃ y b, m.old.getLast? = some y ∧ y.tag = v ∧ y.src.output = some b ∧
          (items outs).getLast? = some (some b)) := by
  obtain ⟨outs', m', h1, ⟨lead, hlead, -, hitems⟩, -, htags, -, -, hlast, hfused, hend, hpend⟩ :=
    C54_map_future g (u.map (·.2)) ws
  rw [h1] at h
  obtain ⟨rfl, rfl⟩ := Prod.mk.inj (Option.some.inj h)
  obtain ⟨r1, r2⟩ := rest_input hl he hu
  -- the future made last belongs to the last value
  have key : ∀ v, m'.signal.src.got.getLast? = some v → m'.future = none →
      ∃ y b, m'.old.getLast? = some y ∧ y.tag = v ∧ y.src.output = some b ∧
        (items outs').getLast? = some (some b) := by
    intro v hv hn
    rw [hn] at htags hitems
    simp only [Option.toList_none, List.append_nil] at htags hitems
    rw [← htags, List.getLast?_map, Option.map_eq_some_iff] at hv
    obtain ⟨y, hy, rfl⟩ := hv
    obtain ⟨b, hb⟩ := hlast hn y hy
    refine ⟨y, b, hy, rfl, hb, ?_⟩
    obtain ⟨l, hl⟩ : ∃ l, m'.old = l ++ [y] := by
      rcases List.eq_nil_or_concat m'.old with h | ⟨l, a, h⟩
      · simp [h] at hy
      · rw [h] at hy
        simp only [List.concat_eq_append, List.getLast?_concat, Option.some.injEq] at hy
        subst hy
        exact ⟨l, by simpa using h⟩
    rw [hitems, hl]
    simp [List.filterMap_append, hb]
  have key2 : ∀ v, m'.signal.src.got.getLast? = some v → ∀ y, m'.future = some y → y.tag = v := by
    intro v hv y hy
    rw [← htags, hy] at hv
    simpa using hv
  refine ⟨fun x hx hp => ?_, fun hr => ?_⟩
  · obtain ⟨k1, k2, -⟩ := hpend x hx hp
    have hrest : (∃ v, Ty.ShownBy (.sig α) m'.signal.src.got v ∧ e.Spec v) ∨ W x := by
      rcases k1 with k1 | k1
      · exact .inl (r2 hfused k1)
      · exact r1 x k1
    refine hrest.imp ?_ id
    rintro ⟨v, hv, hs⟩
    refine ⟨v, hs, ?_⟩
    cases hfut : m'.future with
    | none => exact .inr (key v hv hfut)
    | some y => exact .inl ⟨y, rfl, key2 v hv y hfut, k2 y hfut⟩
  · obtain ⟨k1, k2⟩ := hend hr
    obtain ⟨v, hv, hs⟩ := r2 hfused k1
    exact ⟨v, hs, key v hv k2⟩

/-- **C74**, `throttle` (partial: see `Expr.Lawful`).  If the last answer was `Pending`, to a poll with
waker `x`, then the future made after the last value is not ready yet and was polled with `x`, or the
last value is what the expression denotes at present, or `x` has been woken since.  If the last answer
was the end, the second is the case. -/
theorem C74_throttle_partial {α : Type} (e : Expr (.sig α)) (hl : e.Lawful) (u : SigTrace α)
    (W : Waker → Prop) (he : e.Exec true u W) (g : Nat → List (Poll Unit)) (ws : List Waker)
    (outs : List (Poll (Option α))) (m : SThrottle α)
    (h : run (SThrottle.poll g) ws (SThrottle.init (u.map (·.2))) = some (outs, m))
    (hu : m.signal.src.hist = u) :
    (∀ x, ws.getLast? = some x → outs.getLast? = some .pending →
      (∃ y, m.future = some y ∧ y.src.armed x) ∨
      (∃ v, (items outs).getLast? = some v ∧ e.Spec v) ∨ W x) ∧
    (.ready none ∈ outs → ∃ v, (items outs).getLast? = some v ∧ e.Spec v) := by
  obtain ⟨outs', m', h1, hi, -, -, -, -, hfused, hend, hpend⟩ := C55_throttle g (u.map (·.2)) ws
  rw [h1] at h
  obtain ⟨rfl, rfl⟩ := Prod.mk.inj (Option.some.inj h)
  obtain ⟨r1, r2⟩ := rest_input hl he hu
  rw [hi]
  refine ⟨fun x hx hp => ?_, fun hr => r2 hfused (hend hr).1⟩
  rcases hpend x hx hp with k | ⟨-, k⟩
  · exact .inl k
  · exact .inr (r1 x k)

/-! ## Non-vacuity -/

/-- The trace of the demo expression of C71: 10, then 17; the flag may have been cleared since. -/
def demoSeen : SigTrace Nat :=
  [(9, .ready (some 10)), (9, .pending), (9, .ready (some 17)), (9, .pending)]

/-- The hypotheses of the theorems above are met: each consumer polls the whole trace of the demo
expression.  The callback of `for_each` was called on 10 and 17; if the flag was not cleared that is
what the expression denotes, otherwise waker 9 has been woken. -/
example (late : Bool) : (demoExpr late).Lawful ∧ (∃ W, (demoExpr late).Exec true demoSeen W ∧
      (late = true → W 9)) ∧
    (∃ m, runF (SForEach.poll fun k (_ : Nat) => ([.ready ()], k)) [9, 9]
        (SForEach.init () (demoSeen.map (·.2))) = some ([.pending, .pending], m) ∧
      m.stream.hist = demoSeen ∧ feCalls m.log = [10, 17]) ∧
    (∃ m, runF SWaitFor.poll [9, 9] (SWaitFor.init 5 (demoSeen.map (·.2))) =
        some ([.pending, .pending], m) ∧ m.signal.hist = demoSeen) ∧
    (∃ m, runF SToFuture.poll [9, 9] (SToFuture.init (demoSeen.map (·.2))) =
        some ([.pending, .pending], m) ∧ m.signal.hist = demoSeen) ∧
    (∃ m, run (SStopIf.poll (logging (· == 5))) [9, 9, 9, 9] (SStopIf.init [] (demoSeen.map (·.2))) =
        some ([.ready (some 10), .pending, .ready (some 17), .pending], m) ∧ m.signal.hist = demoSeen) ∧
    (∃ m, run (SFilterMap.poll (logging fun n => if n < 12 then none else some (n + 1))) [9, 9, 9, 9]
        (SFilterMap.init [] (demoSeen.map (·.2))) =
        some ([.ready (some none), .pending, .ready (some (some 18)), .pending], m) ∧
      m.signal.hist = demoSeen) ∧
    (∃ m, run (SMapFuture.poll fun n => [.pending, .ready (n + 1)]) [9, 9]
        (SMapFuture.init (demoSeen.map (·.2))) =
        some ([.ready (some none), .pending], m) ∧ m.signal.src.hist = demoSeen) ∧
    (∃ m, run (SThrottle.poll fun _ => [.ready ()]) [9, 9, 9, 9] (SThrottle.init (demoSeen.map (·.2))) =
        some ([.ready (some 10), .pending, .ready (some 17), .pending], m) ∧
      m.signal.src.hist = demoSeen) := by
  obtain ⟨h1, h2, -⟩ := demoExpr_meets late
  exact ⟨h1, h2, ⟨_, rfl, rfl, rfl⟩, ⟨_, rfl, rfl⟩, ⟨_, rfl, rfl⟩, ⟨_, rfl, rfl⟩, ⟨_, rfl, rfl⟩,
    ⟨_, rfl, rfl⟩, ⟨_, rfl, rfl⟩⟩

end Verif
