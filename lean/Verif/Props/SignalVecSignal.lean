import Verif.FilterSignalProofs
import Verif.Props.SignalVecMap

/-!
# `SignalVec::map_signal`, `filter_signal_cloned` (properties C12, C13, and C57–C59 for them)
-/

namespace Verif

variable {α β ι : Type}

/-- **C12.**  `map_signal`: for every well-formed input history, all inner signals that answer their
first poll with a value (`g t` is the script of the signal made from `t`) and every schedule of polls:
no poll panics, the emitted diffs are applicable, the inner signals held are those of the current
elements in order, and whenever the last answer is `Pending` or the end, the emitted diffs describe
the latest value of each of them, position by position. -/
theorem C12_map_signal (g : ι → List (Poll (Option β))) (hg : Eager g)
    (script : List (Poll (Option (VecDiff ι)))) (hwf : ∃ z, replay (items script) [] = some z)
    (ws : List Waker) :
    ∃ outs s zs, run (VMapSignal.poll g) ws (VMapSignal.init script) = some (outs, s) ∧
      replay (items outs) [] = some zs ∧
      replay s.signal.src.got [] = some (s.signals.map (·.tag)) ∧
      (∀ x ∈ s.signals, x.sig.src.all = items (g x.tag)) ∧
      (outs.getLast? = some .pending ∨ .ready none ∈ outs →
        s.signals.map (fun x => x.sig.src.got.getLast?) = zs.map some) := by
  obtain ⟨outs, s, zs, h1, h2, h3, h4, h5⟩ := vec_run (poll := VMapSignal.poll g)
    (fun s zs => ∃ ts, MapSignalInv anyDiff g s ts zs)
    (fun s zs => (∃ ts, MapSignalInv anyDiff g s ts zs) ∧ s.pending = [])
    (fun s zs => (∃ ts, MapSignalInv anyDiff g s ts zs) ∧ s.pending = [])
    (fun _ _ h => h.1)
    (by
      rintro w s zs ⟨ts, h⟩
      obtain ⟨r, s', ts', g1, g2⟩ := VMapSignal.step hg w h
      refine ⟨r, s', g1, ?_⟩
      match r with
      | .ready (some d) => obtain ⟨zs', g3, g4, -⟩ := g2; exact ⟨zs', g3, ts', g4⟩
      | .ready none => exact ⟨⟨ts', g2.1⟩, g2.2.1⟩
      | .pending => exact ⟨⟨ts', g2.1⟩, g2.2.1⟩)
    ws (VMapSignal.init script)
    ⟨[], Inp.ok_mk' _, valid_mk' (feed_any.2 hwf), rfl, by simp [VMapSignal.init], ⟨[], rfl, rfl⟩,
      fun _ => lively_nil _⟩
  have hinv : ∃ ts, MapSignalInv anyDiff g s ts zs := by
    by_cases he : .ready none ∈ outs
    · exact (h5 he).1
    · exact h3 he
  obtain ⟨ts, hi⟩ := hinv
  refine ⟨outs, s, zs, h1, h2, by rw [hi.tags]; exact hi.valid.now, fun x hx => (hi.inner x hx).all,
    fun h => ?_⟩
  have hp : s.pending = [] := by
    rcases h with h | h
    · exact (h4 h).2
    · exact (h5 h).2
  obtain ⟨vs, q1, q2⟩ := hi.queue
  rw [hp] at q1
  cases q1
  exact q2

/-- The signals of the examples: `t` starts with `10 * t`, becomes `10 * t + 1` and then ends. -/
def demoSignals (t : Nat) : List (Poll (Option Nat)) :=
  [.ready (some (10 * t)), .pending, .pending, .ready (some (10 * t + 1)), .pending,
   .pending, .ready (some (10 * t + 2)), .ready none]

example : Eager demoSignals := fun t => ⟨_, _, rfl⟩
example : (run (VMapSignal.poll demoSignals) (List.replicate 20 0) (VMapSignal.init demoScript)).bind
    (fun q => replay (items q.1) []) = some [42, 52, 32] := by decide
example : (run (VMapSignal.poll demoSignals) (List.replicate 20 0) (VMapSignal.init demoScript)).any
    (fun q => q.1.contains .pending && q.1.contains (.ready none)) = true := by decide

/-- **C13** (partial).  `filter_signal_cloned`: for every well-formed input history that satisfies
`FMoveOk`, all inner signals that answer their first poll with a value and every schedule of
polls: no poll panics, the emitted diffs are applicable, and whenever the last answer is `Pending` or
the end, they describe exactly the elements whose inner signal last said `true`, in order.

Missing for the full claim: the side condition on moves towards the front, without which it is false
(`C13_filter_signal_fails`, `C13_move_off_by_one`). -/
theorem C13_filter_signal_partial (g : α → List (Poll (Option Bool))) (hg : Eager g)
    (script : List (Poll (Option (VecDiff α)))) (hwf : Feed (FMoveOk g) (items script) [])
    (ws : List Waker) :
    ∃ outs s zs, run (VFilterSignal.poll g) ws (VFilterSignal.init script) = some (outs, s) ∧
      replay (items outs) [] = some zs ∧
      replay s.signal.src.got [] = some (s.signals.map (·.value)) ∧
      (∀ x ∈ s.signals, x.signal.src.all = items (g x.value)) ∧
      (outs.getLast? = some .pending ∨ .ready none ∈ outs →
        zs = (s.signals.filter (fun x => x.signal.src.got.getLast? == some true)).map (·.value)) := by
  obtain ⟨outs, s, zs, h1, h2, h3, h4, h5⟩ := vec_run (poll := VFilterSignal.poll g)
    (fun s zs => ∃ ts, FilterSignalInv g s ts zs)
    (fun s zs => (∃ ts, FilterSignalInv g s ts zs) ∧ s.pending = [])
    (fun s zs => (∃ ts, FilterSignalInv g s ts zs) ∧ s.pending = [])
    (fun _ _ h => h.1)
    (by
      rintro w s zs ⟨ts, h⟩
      obtain ⟨r, s', ts', g1, g2⟩ := VFilterSignal.step hg w h
      refine ⟨r, s', g1, ?_⟩
      match r with
      | .ready (some d) => obtain ⟨zs', g3, g4⟩ := g2; exact ⟨zs', g3, ts', g4⟩
      | .ready none => exact ⟨⟨ts', g2.1⟩, g2.2.1⟩
      | .pending => exact ⟨⟨ts', g2.1⟩, g2.2.1⟩)
    ws (VFilterSignal.init script)
    ⟨[], Inp.ok_mk' _, valid_mk' hwf, rfl, by simp [VFilterSignal.init], rfl⟩
  have hinv : ∃ ts, FilterSignalInv g s ts zs := by
    by_cases he : .ready none ∈ outs
    · exact (h5 he).1
    · exact h3 he
  obtain ⟨ts, hi⟩ := hinv
  refine ⟨outs, s, zs, h1, h2, by rw [hi.tags]; exact hi.valid.now, fun x hx => (hi.inner x hx).all,
    fun h => ?_⟩
  have hp : s.pending = [] := by
    rcases h with h | h
    · exact (h4 h).2
    · exact (h5 h).2
  have q := hi.queue
  rw [hp] at q
  simp only [replay, Option.some.injEq] at q
  rw [q]
  have hin := hi.inner
  generalize s.signals = xs at hin
  induction xs with
  | nil => rfl
  | cons x xs ih =>
    have hl := (hin x (by simp)).last
    have ih := ih (fun y hy => hin y (by simp [hy]))
    cases hx : x.isIn with
    | true => rw [hx] at hl; simp [kept_in hx, hl, ih]
    | false => rw [hx] at hl; simp [kept_out hx, hl, ih]

/-- Histories without moves towards the front satisfy the condition. -/
theorem feed_forward (g : α → List (Poll (Option Bool))) (ds : List (VecDiff α)) (xs : List α)
    (h : ∃ z, replay ds xs = some z) (hm : ∀ old new, .move old new ∈ ds → old ≤ new) :
    Feed (FMoveOk g) ds xs := by
  induction ds generalizing xs with
  | nil => trivial
  | cons d ds ih =>
    obtain ⟨z, hz⟩ := h
    simp only [replay] at hz
    cases hd : d.apply xs with
    | none => simp [hd] at hz
    | some ys =>
      simp only [hd] at hz
      refine ⟨?_, ys, hd, ih ys ⟨z, hz⟩ (fun o n h => hm o n (by simp [h]))⟩
      cases d with
      | move o n => exact fun h => absurd (hm o n (by simp)) (by omega)
      | _ => trivial

/-- **C13** (partial), for input histories without moves towards the front, and any signals. -/
theorem C13_filter_signal_forward_partial (g : α → List (Poll (Option Bool))) (hg : Eager g)
    (script : List (Poll (Option (VecDiff α)))) (hwf : ∃ z, replay (items script) [] = some z)
    (hmove : ∀ old new, .move old new ∈ items script → old ≤ new) (ws : List Waker) :
    ∃ outs s zs, run (VFilterSignal.poll g) ws (VFilterSignal.init script) = some (outs, s) ∧
      replay (items outs) [] = some zs ∧
      replay s.signal.src.got [] = some (s.signals.map (·.value)) ∧
      (∀ x ∈ s.signals, x.signal.src.all = items (g x.value)) ∧
      (outs.getLast? = some .pending ∨ .ready none ∈ outs →
        zs = (s.signals.filter (fun x => x.signal.src.got.getLast? == some true)).map (·.value)) :=
  C13_filter_signal_partial g hg script (feed_forward g _ _ hwf hmove) ws

/-- **C13**, the defect in general: whenever a shown element `a` is moved towards the front and the
element `c` just before it is hidden, the emitted `old_index` is one too large: the shown elements
before `a` are those of `p ++ m`. -/
theorem C13_move_off_by_one (g : α → List (Poll (Option Bool))) (w : Waker) (p m q : List (FCState α))
    (c a : FCState α) (out : List (VecDiff α)) (ha : a.isIn = true) (hc : c.isIn = false) :
    (VecDiff.move (p.length + m.length + 1) p.length).apply (p ++ m ++ c :: a :: q) =
      some (p ++ a :: m ++ c :: q) ∧
    filterSignalBody g w (p ++ m ++ c :: a :: q, out) (.move (p.length + m.length + 1) p.length) =
      .cont (p ++ a :: m ++ c :: q,
        out ++ [.move (((p ++ m).filter (·.isIn)).length + 1) (p.filter (·.isIn)).length]) := by
  constructor
  · rw [apply_eq_some]
    simpa [Nat.add_assoc] using Applies.moveBack p (m ++ [c]) a q
  · have hrem := vRemove_append (p ++ m ++ [c]) q a
    have hins := vInsert_append p (m ++ c :: q) a
    have h1 := fcFindIndex_append p (a :: (m ++ c :: q))
    have h2 := fcFindIndex_append (p ++ a :: m) (c :: q)
    rw [← kept_length] at h1 h2
    simp [ha, Nat.add_assoc] at hrem hins h1 h2
    simp [filterSignalBody, ha, hc, Nat.add_assoc, hrem, hins, h1, h2]

/-- The filter signals of the examples: `t` is in if it is odd, and changes its mind later. -/
def demoFilter (t : Nat) : List (Poll (Option Bool)) :=
  [.ready (some (t % 2 == 1)), .pending, .pending, .pending, .ready (some (t % 2 == 0)), .ready none]

example : Eager demoFilter := fun t => ⟨_, _, rfl⟩
example : (run (VFilterSignal.poll demoFilter) (List.replicate 20 0) (VFilterSignal.init demoScript)).bind
    (fun q => replay (items q.1) []) = some [4] := by decide
example : (run (VFilterSignal.poll demoFilter) (List.replicate 1 0) (VFilterSignal.init demoScript)).bind
    (fun q => replay (items q.1) []) = some [1, 3] := by decide

/-- Constant signals, and a move towards the front over kept elements only. -/
example : Feed (FMoveOk fun t : Nat => [.ready (some (t % 2 == 1))])
    [.replace [1, 2, 3, 5], .move 3 0, .move 2 1] [] := by
  refine ⟨trivial, _, rfl, ?_, _, rfl, ?_, _, rfl, trivial⟩ <;> simp [FMoveOk, items]

/-- **C13 is false**: keep the odd elements of `[1, 2, 3]` (the filter signals never change), then
move the last element to the front: the emitted `Move` is out of range of the output. -/
theorem C13_filter_signal_fails :
    ∃ (g : Nat → List (Poll (Option Bool))) (script : List (Poll (Option (VecDiff Nat)))),
      Eager g ∧ replay (items script) [] = some [3, 1, 2] ∧
      ∃ outs s, run (VFilterSignal.poll g) [0, 0] (VFilterSignal.init script) = some (outs, s) ∧
        replay (items outs) [] = none := by
  exact ⟨fun t => [.ready (some (t % 2 == 1))],
    [.ready (some (.replace [1, 2, 3])), .ready (some (.move 2 0))],
    fun t => ⟨_, _, rfl⟩, rfl, _, _, rfl, rfl⟩

/-- The wrong index need not be out of range: then the consumer silently gets another order.  Keep
the odd elements of `[1, 2, 3, 5]` and move 3 to the front: the consumer sees `[5, 1, 3]`, the kept
elements are `[3, 1, 5]`. -/
theorem C13_filter_signal_wrong_order :
    ∃ (g : Nat → List (Poll (Option Bool))) (script : List (Poll (Option (VecDiff Nat)))),
      Eager g ∧ replay (items script) [] = some [3, 1, 2, 5] ∧
      ∃ outs s, run (VFilterSignal.poll g) [0, 0, 0] (VFilterSignal.init script) = some (outs, s) ∧
        outs.getLast? = some .pending ∧ replay (items outs) [] = some [5, 1, 3] ∧
        (s.signals.filter (·.isIn)).map (·.value) = [3, 1, 5] := by
  exact ⟨fun t => [.ready (some (t % 2 == 1))],
    [.ready (some (.replace [1, 2, 3, 5])), .ready (some (.move 2 0))],
    fun t => ⟨_, _, rfl⟩, rfl, _, _, rfl, rfl, rfl, rfl⟩

/-! ## Wakers and the end -/

/-- A fresh inner signal is used correctly. -/
theorem unwrapPoll_ok {β : Type} {script : List (Poll (Option β))} {w : Waker} {b : β}
    {r : Poll (Option β)} {src : Src (Option β)} (h : (Src.mk' script).poll w = (r, src))
    (hb : unwrapPoll r = some b) : (⟨src, true⟩ : Inp (Option β)).Ok := by
  obtain ⟨r', src', h1, h2, -, -, h5⟩ := Src.poll_rule w (Src.mk' script) (not_ended_mk' _)
  rw [h] at h1
  cases h1
  match r with
  | .ready (some x) => exact ⟨h2, by simpa using h5⟩
  | .ready none => simp [unwrapPoll] at hb
  | .pending => simp [unwrapPoll] at hb

theorem MState.new_ok {g : ι → List (Poll (Option β))} {w : Waker} {t : ι} {b : β} {x : MState ι β}
    (h : MState.new g w t = some (b, x)) : x.sig.Ok := by
  unfold MState.new at h
  obtain ⟨r, src, e⟩ : ∃ r src, (Src.mk' (g t)).poll w = (r, src) := ⟨_, _, rfl⟩
  rw [e] at h
  simp only at h
  cases hu : unwrapPoll r with
  | none => simp [hu] at h
  | some c => simp only [hu, Option.some.injEq, Prod.mk.injEq] at h; rw [← h.2]; exact unwrapPoll_ok e hu

theorem FCState.new_ok {g : α → List (Poll (Option Bool))} {w : Waker} {t : α} {x : FCState α}
    (h : FCState.new g w t = some x) : x.signal.Ok := by
  unfold FCState.new at h
  obtain ⟨r, src, e⟩ : ∃ r src, (Src.mk' (g t)).poll w = (r, src) := ⟨_, _, rfl⟩
  rw [e] at h
  simp only at h
  cases hu : unwrapPoll r with
  | none => simp [hu] at h
  | some c => simp only [hu, Option.some.injEq] at h; rw [← h]; exact unwrapPoll_ok e hu

theorem mapNewAll_ok {g : ι → List (Poll (Option β))} {w : Waker} {ts : List ι} {bs : List β}
    {xs : List (MState ι β)} (h : mapNewAll g w ts = some (bs, xs)) : ∀ x ∈ xs, x.sig.Ok := by
  induction ts generalizing bs xs with
  | nil => cases h; simp
  | cons t ts ih =>
    simp only [mapNewAll] at h
    split at h
    · cases h
    · rename_i b s e1
      split at h
      · cases h
      · rename_i bs' ss e2
        cases h
        intro x hx
        rcases List.mem_cons.1 hx with rfl | hx
        · exact MState.new_ok e1
        · exact ih e2 x hx

theorem fcNewAll_ok {g : α → List (Poll (Option Bool))} {w : Waker} {ts vs : List α}
    {xs : List (FCState α)} (h : fcNewAll g w ts = some (vs, xs)) : ∀ x ∈ xs, x.signal.Ok := by
  induction ts generalizing vs xs with
  | nil => cases h; simp
  | cons t ts ih =>
    simp only [fcNewAll] at h
    split at h
    · cases h
    · rename_i s e1
      split at h
      · cases h
      · rename_i bs' ss e2
        cases h
        intro x hx
        rcases List.mem_cons.1 hx with rfl | hx
        · exact FCState.new_ok e1
        · exact ih e2 x hx

theorem mem_vInsert {σ : Type} {l l' : List σ} {i : Nat} {a : σ} (h : vInsert l i a = some l') :
    ∀ x ∈ l', x = a ∨ x ∈ l := by
  obtain ⟨p, q, rfl, -, rfl⟩ := vInsert_eq_some.1 h
  intro x hx; grind
theorem mem_vSet {σ : Type} {l l' : List σ} {i : Nat} {a : σ} (h : vSet l i a = some l') :
    ∀ x ∈ l', x = a ∨ x ∈ l := by
  obtain ⟨p, b, q, rfl, -, rfl⟩ := vSet_eq_some.1 h
  intro x hx; grind
theorem mem_vRemove {σ : Type} {l l' : List σ} {i : Nat} {a : σ} (h : vRemove l i = some (a, l')) :
    a ∈ l ∧ ∀ x ∈ l', x ∈ l := by
  obtain ⟨p, q, rfl, -, rfl⟩ := vRemove_eq_some.1 h
  exact ⟨by simp, by intro x hx; grind⟩
theorem mem_vPop {σ : Type} {l l' : List σ} {a : σ} (h : vPop l = (some a, l')) :
    ∀ x ∈ l', x ∈ l := by
  rw [vPop_eq_some] at h
  subst h
  intro x hx; grind
theorem mem_set {σ : Type} {l : List σ} {i : Nat} {a : σ} : ∀ x ∈ l.set i a, x = a ∨ x ∈ l := by
  intro x hx
  rcases List.mem_or_eq_of_mem_set hx with h | h
  · exact .inr h
  · exact .inl h

theorem mapSignalBody_ok {g : ι → List (Poll (Option β))} {w : Waker}
    {q q' : List (MState ι β) × List (VecDiff β)} {d : VecDiff ι} (hq : ∀ x ∈ q.1, x.sig.Ok)
    (h : mapSignalBody g w q d = .cont q') : ∀ x ∈ q'.1, x.sig.Ok := by
  obtain ⟨signals, np⟩ := q
  simp only at hq
  cases d with
  | replace vs =>
    simp only [mapSignalBody] at h
    split at h
    · cases h
    · rename_i e; cases h; exact mapNewAll_ok e
  | insertAt i t =>
    simp only [mapSignalBody] at h
    split at h
    · cases h
    · rename_i e
      split at h
      · cases h
      · rename_i e2
        cases h
        intro x hx
        rcases mem_vInsert e2 x hx with rfl | hx
        · exact MState.new_ok e
        · exact hq x hx
  | updateAt i t =>
    simp only [mapSignalBody] at h
    split at h
    · cases h
    · rename_i e
      split at h
      · cases h
      · rename_i e2
        cases h
        intro x hx
        rcases mem_vSet e2 x hx with rfl | hx
        · exact MState.new_ok e
        · exact hq x hx
  | push t =>
    simp only [mapSignalBody] at h
    split at h
    · cases h
    · rename_i e
      cases h
      intro x hx
      simp only [List.mem_append, List.mem_singleton] at hx
      rcases hx with hx | rfl
      · exact hq x hx
      · exact MState.new_ok e
  | move i j =>
    simp only [mapSignalBody] at h
    split at h
    · cases h
    · rename_i e
      split at h
      · cases h
      · rename_i e2
        cases h
        obtain ⟨m1, m2⟩ := mem_vRemove e
        intro x hx
        rcases mem_vInsert e2 x hx with rfl | hx
        · exact hq _ m1
        · exact hq x (m2 x hx)
  | removeAt i =>
    simp only [mapSignalBody] at h
    split at h
    · cases h
    · rename_i e
      cases h
      exact fun x hx => hq x ((mem_vRemove e).2 x hx)
  | pop =>
    simp only [mapSignalBody] at h
    split at h
    · cases h
    · rename_i e
      cases h
      exact fun x hx => hq x (mem_vPop e x hx)
  | clear =>
    simp only [mapSignalBody] at h
    cases h
    simp

theorem filterSignalBody_ok {g : α → List (Poll (Option Bool))} {w : Waker}
    {q q' : List (FCState α) × List (VecDiff α)} {d : VecDiff α} (hq : ∀ x ∈ q.1, x.signal.Ok)
    (h : filterSignalBody g w q d = .cont q') : ∀ x ∈ q'.1, x.signal.Ok := by
  obtain ⟨signals, np⟩ := q
  simp only at hq
  have cont_ite : ∀ (b : Bool) (sg : List (FCState α)) (o : Option Nat) (e : Nat → VecDiff α),
      (if b = true then (match o with
        | none => Ctl.panic
        | some i => Ctl.cont (sg, np ++ [e i])) else (Ctl.cont (sg, np) : Ctl _ Empty)) = .cont q' →
      q'.1 = sg := by
    intro b sg o e h
    cases b with
    | true =>
      cases o with
      | none => simp at h
      | some i => simp at h; rw [← h]
    | false => simp at h; rw [← h]
  cases d with
  | replace vs =>
    simp only [filterSignalBody] at h
    split at h
    · cases h
    · rename_i e; cases h; exact fcNewAll_ok e
  | insertAt i t =>
    simp only [filterSignalBody] at h
    split at h
    · cases h
    · rename_i e
      split at h
      · cases h
      · rename_i e2
        have hs := cont_ite _ _ _ _ h
        rw [hs]
        intro x hx
        rcases mem_vInsert e2 x hx with rfl | hx
        · exact FCState.new_ok e
        · exact hq x hx
  | updateAt i t =>
    simp only [filterSignalBody] at h
    split at h
    · cases h
    · rename_i s e
      split at h
      · cases h
      · rename_i old e2
        have hs : q'.1 = signals.set i s := by
          repeat' split at h
          all_goals cases h
          all_goals rfl
        rw [hs]
        intro x hx
        rcases mem_set x hx with rfl | hx
        · exact FCState.new_ok e
        · exact hq x hx
  | push t =>
    simp only [filterSignalBody] at h
    split at h
    · cases h
    · rename_i s e
      have hs : q'.1 = signals ++ [s] := by
        cases hi : s.isIn <;> simp [hi] at h <;> rw [← h]
      rw [hs]
      intro x hx
      simp only [List.mem_append, List.mem_singleton] at hx
      rcases hx with hx | rfl
      · exact hq x hx
      · exact FCState.new_ok e
  | move i j =>
    simp only [filterSignalBody] at h
    split at h
    · cases h
    · rename_i s sg e
      split at h
      · cases h
      · rename_i sg' e2
        have hs : q'.1 = sg' := by
          repeat' split at h
          all_goals cases h
          all_goals rfl
        rw [hs]
        obtain ⟨m1, m2⟩ := mem_vRemove e
        intro x hx
        rcases mem_vInsert e2 x hx with rfl | hx
        · exact hq _ m1
        · exact hq x (m2 x hx)
  | removeAt i =>
    simp only [filterSignalBody] at h
    split at h
    · cases h
    · rename_i e
      have hs := cont_ite _ _ _ _ h
      rw [hs]
      exact fun x hx => hq x ((mem_vRemove e).2 x hx)
  | pop =>
    simp only [filterSignalBody] at h
    split at h
    · cases h
    · rename_i s sg e
      have hs : q'.1 = sg := by
        cases hi : s.isIn <;> simp [hi] at h <;> rw [← h]
      rw [hs]
      exact fun x hx => hq x (mem_vPop e x hx)
  | clear =>
    simp only [filterSignalBody] at h
    cases h
    simp

theorem pollSignals_any (w : Waker) {xs xs' : List (MState ι β)} (h : ∀ x ∈ xs, x.sig.Ok) {n : Nat}
    {np np' : List (VecDiff β)} {hp : Bool} (e : pollSignals w n np xs = (hp, np', xs')) :
    (∀ x ∈ xs', x.sig.Ok) ∧ np.length ≤ np'.length ∧
      (np' = [] → (∀ x ∈ xs', Settled w x.sig) ∧ (hp = false → ∀ x ∈ xs', x.sig.alive = false) ∧
        (hp = true → ∃ x ∈ xs', x.sig.src.armed w)) := by
  induction xs generalizing n np np' xs' hp with
  | nil => simp only [pollSignals] at e; cases e; simp
  | cons x xs ih =>
    obtain ⟨r, i', a1, a2, a3⟩ := Inp.poll_any w x.sig (h x (by simp))
    have hrest := fun y hy => h y (List.mem_cons_of_mem x hy)
    rw [pollSignals, a1] at e
    obtain _ | ((_ | b) | _) := r
    · obtain ⟨hp1, np1, xs1, e1⟩ : ∃ a b c, pollSignals w (n + 1) np xs = (a, b, c) := ⟨_, _, _, rfl⟩
      simp only [e1] at e
      cases e
      obtain ⟨b1, b2, b3⟩ := ih hrest e1
      refine ⟨by simpa using ⟨a2, b1⟩, b2, fun hn => ?_⟩
      obtain ⟨c1, c2, c3⟩ := b3 hn
      refine ⟨by simpa using ⟨.inl a3, c1⟩, fun hh => by simpa using ⟨a3, c2 hh⟩, fun hh => ?_⟩
      obtain ⟨y, hy, e⟩ := c3 hh
      exact ⟨y, by simp [hy], e⟩
    · obtain ⟨hp1, np1, xs1, e1⟩ : ∃ a b c, pollSignals w (n + 1) np xs = (a, b, c) := ⟨_, _, _, rfl⟩
      simp only [e1] at e
      cases e
      obtain ⟨b1, b2, b3⟩ := ih hrest e1
      refine ⟨by simpa using ⟨a2, b1⟩, b2, fun hn => ?_⟩
      obtain ⟨c1, c2, c3⟩ := b3 hn
      refine ⟨by simpa using ⟨.inl a3, c1⟩, fun hh => by simpa using ⟨a3, c2 hh⟩, fun hh => ?_⟩
      obtain ⟨y, hy, e⟩ := c3 hh
      exact ⟨y, by simp [hy], e⟩
    · obtain ⟨hp1, np1, xs1, e1⟩ : ∃ a b' c, pollSignals w (n + 1) (np ++ [.updateAt n b]) xs = (a, b', c) :=
        ⟨_, _, _, rfl⟩
      simp only [e1] at e
      cases e
      obtain ⟨b1, b2, b3⟩ := ih hrest e1
      simp only [List.length_append, List.length_singleton] at b2
      refine ⟨by simpa using ⟨a2, b1⟩, by omega, fun hn => ?_⟩
      simp [hn] at b2
    · obtain ⟨hp1, np1, xs1, e1⟩ : ∃ a b c, pollSignals w (n + 1) np xs = (a, b, c) := ⟨_, _, _, rfl⟩
      simp only [e1] at e
      cases e
      obtain ⟨b1, b2, b3⟩ := ih hrest e1
      refine ⟨by simpa using ⟨a2, b1⟩, b2, fun hn => ?_⟩
      obtain ⟨c1, c2⟩ := b3 hn
      exact ⟨by simpa using ⟨.inr a3.2, c1⟩, by simp, fun _ => ⟨_, List.mem_cons_self, a3.2⟩⟩

theorem FCState.drain_any (w : Waker) {x x' : FCState α} {hp : Bool} (h : x.signal.Ok)
    (e : x.drain w = (hp, x')) :
    x'.signal.Ok ∧ Settled w x'.signal ∧ (hp = false → x'.signal.alive = false) ∧
      (hp = true → x'.signal.src.armed w) := by
  obtain ⟨st, b, i', h1, h2, h5⟩ := Inp.loop_rule (w := w)
    (body := fun (_ : Bool) (b : Bool) => (Ctl.cont b : Ctl Bool Empty))
    (fun _ _ _ => True) (fun _ _ _ _ => False) (by intros; trivial) x.signal x.isIn h trivial
  unfold FCState.drain at e
  rw [h1] at e
  cases st with
  | panic => exact h5.elim
  | ret r => exact r.elim
  | ended => cases e; exact ⟨h2, .inl h5.2, fun _ => h5.2, by simp⟩
  | pending => cases e; exact ⟨h2, .inr h5.2.2, by simp, fun _ => h5.2.2⟩

theorem drainSignals_any (w : Waker) {xs xs' : List (FCState α)} (h : ∀ x ∈ xs, x.signal.Ok) {n : Nat}
    {np np' : List (VecDiff α)} {hp : Bool} (e : drainSignals w n np xs = (hp, np', xs')) :
    (∀ x ∈ xs', x.signal.Ok) ∧ (∀ x ∈ xs', Settled w x.signal) ∧
      (hp = false → ∀ x ∈ xs', x.signal.alive = false) ∧
      (hp = true → ∃ x ∈ xs', x.signal.src.armed w) := by
  induction xs generalizing n np np' xs' hp with
  | nil => simp only [drainSignals] at e; cases e; simp
  | cons x xs ih =>
    obtain ⟨b, x1, e1⟩ : ∃ b x1, x.drain w = (b, x1) := ⟨_, _, rfl⟩
    obtain ⟨a1, a2, a3, a4⟩ := FCState.drain_any w (h x (by simp)) e1
    have hrest := fun y hy => h y (List.mem_cons_of_mem x hy)
    simp only [drainSignals, e1] at e
    generalize (if x1.isIn ≠ x.isIn then
        if x1.isIn then np ++ [.insertAt n x1.value] else np ++ [.removeAt n] else np) = np1 at e
    generalize (if x1.isIn = true then n + 1 else n) = n1 at e
    obtain ⟨hp2, np2, xs2, e2⟩ : ∃ a b c, drainSignals w n1 np1 xs = (a, b, c) := ⟨_, _, _, rfl⟩
    rw [e2] at e
    cases e
    obtain ⟨b1, b2, b3, b4⟩ := ih hrest e2
    refine ⟨by simpa using ⟨a1, b1⟩, by simpa using ⟨a2, b2⟩, fun hh => ?_, fun hh => ?_⟩
    · simp only [Bool.or_eq_false_iff] at hh
      simpa using ⟨a3 hh.1, b3 hh.2⟩
    · simp only [Bool.or_eq_true] at hh
      rcases hh with hh | hh
      · exact ⟨x1, by simp, a4 hh⟩
      · obtain ⟨y, hy, e⟩ := b4 hh
        exact ⟨y, by simp [hy], e⟩

/-- **C57, C58, C59 for `map_signal`.**  For all inputs and inner signals whatsoever and every
schedule of polls, for as long as no poll panics:
* neither the input nor any of the inner signals held is polled again after its end;
* the end is reported only after the input and all inner signals held ended, and all diffs were
  delivered;
* after `Pending`, each of them has ended, or its last answer was `Pending`, given to a poll with the
  waker of the last poll; at least one of them has not ended. -/
theorem C57_map_signal (g : ι → List (Poll (Option β)))
    (script : List (Poll (Option (VecDiff ι)))) (ws : List Waker)
    (outs : List (Poll (Option (VecDiff β)))) (s : VMapSignal ι β)
    (h : run (VMapSignal.poll g) ws (VMapSignal.init script) = some (outs, s)) :
    (s.signal.src.fused ∧ ∀ x ∈ s.signals, x.sig.src.fused) ∧
    (.ready none ∈ outs → s.pending = [] ∧ s.signal.src.ended ∧ ∀ x ∈ s.signals, x.sig.src.ended) ∧
    (∀ w, ws.getLast? = some w → outs.getLast? = some .pending →
      (s.signal.src.ended ∨ s.signal.src.armed w) ∧
      (∀ x ∈ s.signals, x.sig.src.ended ∨ x.sig.src.armed w) ∧
      (s.signal.src.armed w ∨ ∃ x ∈ s.signals, x.sig.src.armed w)) := by
  obtain ⟨⟨a1, a2⟩, b, c⟩ := any_run (poll := VMapSignal.poll g)
    (fun s => s.signal.Ok ∧ ∀ x ∈ s.signals, x.sig.Ok)
    (fun w s => (Settled w s.signal ∧ ∀ x ∈ s.signals, Settled w x.sig) ∧
      (s.signal.src.armed w ∨ ∃ x ∈ s.signals, x.sig.src.armed w))
    (fun s => s.pending = [] ∧ s.signal.alive = false ∧ ∀ x ∈ s.signals, x.sig.alive = false)
    (by
      rintro w ⟨sig, signals, pend⟩ r s' ⟨hs, hi⟩ hp
      unfold VMapSignal.poll at hp
      cases pend with
      | cons c rest => cases hp; exact ⟨hs, hi⟩
      | nil =>
        simp only at hp
        obtain ⟨st, ⟨sg, np⟩, i', h1, h2, h3, h4, h5⟩ := Inp.loop_any_inv w (mapSignalBody g w)
          (fun q => ∀ x ∈ q.1, x.sig.Ok) (fun (r : Empty) _ => r.elim)
          (fun s a s' hp he => mapSignalBody_ok hp he)
          (fun s a s' r => r.elim)
          sig (signals, []) hs hi
        rw [h1] at hp
        have hfin : ∀ top, (top = true → i'.alive = false) → (top = false → i'.src.armed w) →
            (∀ x ∈ sg, x.sig.Ok) → VMapSignal.finish w top i' sg np = (r, s') →
            Outcome (fun s => s.signal.Ok ∧ ∀ x ∈ s.signals, x.sig.Ok)
              (fun s => (Settled w s.signal ∧ ∀ x ∈ s.signals, Settled w x.sig) ∧
                (s.signal.src.armed w ∨ ∃ x ∈ s.signals, x.sig.src.armed w))
              (fun s => s.pending = [] ∧ s.signal.alive = false ∧ ∀ x ∈ s.signals, x.sig.alive = false) r s' := by
          intro top ht1 ht2 hi' hf
          unfold VMapSignal.finish at hf
          obtain ⟨hp, np', xs, e⟩ : ∃ a b c, pollSignals w 0 np sg = (a, b, c) := ⟨_, _, _, rfl⟩
          obtain ⟨b1, -, b2⟩ := pollSignals_any w hi' e
          rw [e] at hf
          cases np' with
          | cons d rest => cases hf; exact ⟨h2, b1⟩
          | nil =>
            obtain ⟨b3, b4, b5⟩ := b2 rfl
            simp only at hf
            by_cases hd : top && !hp
            · simp only [hd, if_true] at hf
              cases hf
              simp only [Bool.and_eq_true, Bool.not_eq_true'] at hd
              exact ⟨⟨h2, b1⟩, rfl, ht1 hd.1, b4 hd.2⟩
            · simp only [hd] at hf
              cases hf
              refine ⟨⟨h2, b1⟩, ⟨?_, b3⟩, ?_⟩
              · cases top with
                | true => exact .inl (ht1 rfl)
                | false => exact .inr (ht2 rfl)
              · cases top with
                | true => exact .inr (b5 (by simpa using hd))
                | false => exact .inl (ht2 rfl)
        cases st with
        | panic => cases hp
        | ret d => exact d.elim
        | ended => exact hfin true (fun _ => h3.2 rfl) (by simp) h5 (Option.some.inj hp)
        | pending => exact hfin false (by simp) (fun _ => h4 rfl) h5 (Option.some.inj hp))
    ⟨Inp.ok_mk' _, by simp [VMapSignal.init]⟩ h
  refine ⟨⟨a1.fused, fun x hx => (a2 x hx).fused⟩, fun he => ?_, fun w hw hl => ?_⟩
  · exact ⟨(b he).1, a1.dead.2 (b he).2.1, fun x hx => (a2 x hx).dead.2 ((b he).2.2 x hx)⟩
  · obtain ⟨⟨d1, d2⟩, d3⟩ := c w hw hl
    exact ⟨d1.imp a1.dead.2 id, fun x hx => (d2 x hx).imp (a2 x hx).dead.2 id, d3⟩

/-- **C57, C58, C59 for `filter_signal_cloned`**, as for `map_signal`. -/
theorem C57_filter_signal (g : α → List (Poll (Option Bool)))
    (script : List (Poll (Option (VecDiff α)))) (ws : List Waker)
    (outs : List (Poll (Option (VecDiff α)))) (s : VFilterSignal α)
    (h : run (VFilterSignal.poll g) ws (VFilterSignal.init script) = some (outs, s)) :
    (s.signal.src.fused ∧ ∀ x ∈ s.signals, x.signal.src.fused) ∧
    (.ready none ∈ outs → s.pending = [] ∧ s.signal.src.ended ∧ ∀ x ∈ s.signals, x.signal.src.ended) ∧
    (∀ w, ws.getLast? = some w → outs.getLast? = some .pending →
      (s.signal.src.ended ∨ s.signal.src.armed w) ∧
      (∀ x ∈ s.signals, x.signal.src.ended ∨ x.signal.src.armed w) ∧
      (s.signal.src.armed w ∨ ∃ x ∈ s.signals, x.signal.src.armed w)) := by
  obtain ⟨⟨a1, a2⟩, b, c⟩ := any_run (poll := VFilterSignal.poll g)
    (fun s => s.signal.Ok ∧ ∀ x ∈ s.signals, x.signal.Ok)
    (fun w s => (Settled w s.signal ∧ ∀ x ∈ s.signals, Settled w x.signal) ∧
      (s.signal.src.armed w ∨ ∃ x ∈ s.signals, x.signal.src.armed w))
    (fun s => s.pending = [] ∧ s.signal.alive = false ∧ ∀ x ∈ s.signals, x.signal.alive = false)
    (by
      rintro w ⟨sig, signals, pend⟩ r s' ⟨hs, hi⟩ hp
      unfold VFilterSignal.poll at hp
      cases pend with
      | cons c rest => cases hp; exact ⟨hs, hi⟩
      | nil =>
        simp only at hp
        obtain ⟨st, ⟨sg, np⟩, i', h1, h2, h3, h4, h5⟩ := Inp.loop_any_inv w (filterSignalBody g w)
          (fun q => ∀ x ∈ q.1, x.signal.Ok) (fun (r : Empty) _ => r.elim)
          (fun s a s' hp he => filterSignalBody_ok hp he)
          (fun s a s' r => r.elim)
          sig (signals, []) hs hi
        rw [h1] at hp
        have hfin : ∀ top, (top = true → i'.alive = false) → (top = false → i'.src.armed w) →
            (∀ x ∈ sg, x.signal.Ok) → VFilterSignal.finish w top i' sg np = (r, s') →
            Outcome (fun s => s.signal.Ok ∧ ∀ x ∈ s.signals, x.signal.Ok)
              (fun s => (Settled w s.signal ∧ ∀ x ∈ s.signals, Settled w x.signal) ∧
                (s.signal.src.armed w ∨ ∃ x ∈ s.signals, x.signal.src.armed w))
              (fun s => s.pending = [] ∧ s.signal.alive = false ∧ ∀ x ∈ s.signals, x.signal.alive = false) r s' := by
          intro top ht1 ht2 hi' hf
          unfold VFilterSignal.finish at hf
          obtain ⟨hp, np', xs, e⟩ : ∃ a b c, drainSignals w 0 np sg = (a, b, c) := ⟨_, _, _, rfl⟩
          obtain ⟨b1, b3, b4, b5⟩ := drainSignals_any w hi' e
          rw [e] at hf
          cases np' with
          | cons d rest => cases hf; exact ⟨h2, b1⟩
          | nil =>
            simp only at hf
            by_cases hd : top && !hp
            · simp only [hd, if_true] at hf
              cases hf
              simp only [Bool.and_eq_true, Bool.not_eq_true'] at hd
              exact ⟨⟨h2, b1⟩, rfl, ht1 hd.1, b4 hd.2⟩
            · simp only [hd] at hf
              cases hf
              refine ⟨⟨h2, b1⟩, ⟨?_, b3⟩, ?_⟩
              · cases top with
                | true => exact .inl (ht1 rfl)
                | false => exact .inr (ht2 rfl)
              · cases top with
                | true => exact .inr (b5 (by simpa using hd))
                | false => exact .inl (ht2 rfl)
        cases st with
        | panic => cases hp
        | ret d => exact d.elim
        | ended => exact hfin true (fun _ => h3.2 rfl) (by simp) h5 (Option.some.inj hp)
        | pending => exact hfin false (by simp) (fun _ => h4 rfl) h5 (Option.some.inj hp))
    ⟨Inp.ok_mk' _, by simp [VFilterSignal.init]⟩ h
  refine ⟨⟨a1.fused, fun x hx => (a2 x hx).fused⟩, fun he => ?_, fun w hw hl => ?_⟩
  · exact ⟨(b he).1, a1.dead.2 (b he).2.1, fun x hx => (a2 x hx).dead.2 ((b he).2.2 x hx)⟩
  · obtain ⟨⟨d1, d2⟩, d3⟩ := c w hw hl
    exact ⟨d1.imp a1.dead.2 id, fun x hx => (d2 x hx).imp (a2 x hx).dead.2 id, d3⟩

example : ∃ outs s, run (VFilterSignal.poll demoFilter) (List.replicate 20 0)
    (VFilterSignal.init demoScript) = some (outs, s) ∧ .ready none ∈ outs ∧ s.signals.length = 3 :=
  ⟨_, _, rfl, by decide, by decide⟩

end Verif
