import Verif.ExprProofs
import Verif.SourceChan
import Verif.MutableVecLively

/-!
# Expressions made of combinators of all three kinds (property C71)
-/

namespace Verif

/-- **C71** (partial: see `Expr.Lawful` for what is not covered).  Take an expression made of
combinators of `Signal`, `SignalVec` and `SignalMap`, nested in any way, and an execution of it with any
history of its sources, in which no subscriber of a source has been dropped while it was needed.
The values and diffs that come out are in order: a signal starts with a value, and diffs can be
applied.  If the last answer was `Pending`, to a poll with waker `x`, then
* the output shows what the expression denotes, given the present values of the sources,
* or `x` has been woken since, by one of the sources in use.
If the last answer was the end, the former is the case. -/
theorem C71_expressions_partial {τ : Ty} (e : Expr τ) (hl : e.Lawful) (t : Tr τ) (W : Waker → Prop)
    (he : e.Exec true t W) :
    τ.Good t ∧
    (∀ x, t.getLast? = some (x, .pending) → (∃ v, τ.Shows t v ∧ e.Spec v) ∨ W x) ∧
    (∀ x, t.getLast? = some (x, .ready none) → ∃ v, τ.Shows t v ∧ e.Spec v) := by
  have h := e.sound hl he
  refine ⟨h.good, fun x hx => ?_, fun x hx => ?_⟩
  · exact (h.fresh rfl (some x) (.inl ⟨x, rfl, hx⟩)).imp id fun ⟨y, e, h⟩ => by cases e; exact h
  · exact (h.fresh rfl none (.inr ⟨x, hx⟩)).elim id fun ⟨y, e, _⟩ => by cases e

/-- **C71**, whatever has been dropped: what comes out is always in order. -/
theorem C71_in_order_partial {τ : Ty} (e : Expr τ) (hl : e.Lawful) (t : Tr τ) (W : Waker → Prop)
    (he : e.Exec false t W) : τ.Good t ∧ (e.Forward → τ.Fwds t) :=
  ⟨(e.sound hl he).good, (e.sound hl he).fwds⟩

/-- **C71**, `chain`: which expressions send no `Replace` by nothing and no `Clear` while they are empty.
Those whose sources send none, and which are made of `map`, `sort_by_cloned`, `enumerate`, `map_signal`,
`delay_remove` and `chain`.  Partial: other expressions may also send none, but this depends on their sources (a `filter`
may turn a `Replace` into one by nothing). -/
theorem C71_brisk_partial {β : Type} (e : Expr (.vec β)) (hl : e.Lawful) (hb : e.Brisk) (live : Bool)
    (t : Trace β) (W : Waker → Prop) (he : e.Exec live t W) : t.Brisk :=
  e.brisk hl hb he

/-- **C71**: so `a.chain(b)` is covered if `a` and `b` are such expressions, and it is such an expression
itself: `chain`s may be nested. -/
theorem C71_nested_chains {β : Type} (e e' : Expr (.vec β)) (hl : e.Lawful) (hl' : e'.Lawful)
    (hb : e.Brisk) (hb' : e'.Brisk) : (e.chain e').Lawful ∧ (e.chain e').Brisk :=
  ⟨⟨hl, hl', fun _ _ _ he => e.brisk hl hb he, fun _ _ _ he => e'.brisk hl' hb' he⟩, hb, hb'⟩

/-! ## The sources -/

/-- A `Mutable` with initial value `a`, after the history `es` with the answers `os`. -/
def Source.mutable {α : Type} (a : α) (es : List (Mut.Ev α)) (os : List (Mut.Obs α)) (m : Mut.World α)
    (mine : Nat → Prop) : Source (.sig α) :=
  ⟨fun k => Mut.polled k es os, mine, fun k => Mut.Kept m k es os, m.value,
    fun k => Mut.WokenSince a k es m⟩

/-- A `MutableVec` with initial contents `vs`, after the history `h`. -/
def Source.mutableVec {α : Type} (vs : List α) (h : List (MutVec.Ev α)) (w : MutVec.World α)
    (mine : Nat → Prop) : Source (.vec α) :=
  ⟨fun k => MutVec.polled k (MutVec.World.init vs) h, mine, fun k => MutVec.Kept vs k h w, w.values,
    fun k => MutVec.WokenSince vs k h w⟩

/-- A `MutableBTreeMap` with initial contents `vs`, after the history `h`. -/
def Source.mutableMap {K V : Type} [LinearOrder K] (vs : MutMap.BMap K V) (h : List (MutMap.Ev K V))
    (w : MutMap.World K V) (mine : Nat → Prop) : Source (.map K V) :=
  ⟨fun k => MutMap.polled k (MutMap.World.init vs) h, mine, fun k => MutMap.Kept vs k h w,
    mapOf w.values.1, fun k => MutMap.WokenSince vs k h w⟩

/-- The `Receiver` of a channel with initial value `a`, after the history `es` with the answers `os`;
it is subscriber 0.  Its present value is the one sent last. -/
def Source.receiver {α : Type} (a : α) (es : List (Chan.Ev α)) (os : List (Chan.Obs α))
    (m : Chan.World α) : Source (.sig α) :=
  ⟨fun _ => Chan.polled es os, fun k => k = 0, fun _ => True, Chan.latest a es os,
    fun _ => Chan.WokenSince a es m⟩

/-- `always(a)`; the `k`-th such signal has been polled with the wakers `ws k`. -/
def Source.always {α : Type} (a : α) (ws : Nat → List Waker) : Source (.sig α) :=
  ⟨fun k => (ws k).zip (((run SAlways.poll (ws k) ⟨some a⟩).map (·.1)).getD []), fun _ => True,
    fun _ => True, a, fun _ _ => False⟩

/-- `signal_vec::always(vs)`; the `k`-th such signal has been polled with the wakers `ws k`. -/
def Source.vecAlways {α : Type} (vs : List α) (ws : Nat → List Waker) : Source (.vec α) :=
  ⟨fun k => (ws k).zip (((run VAlways.poll (ws k) ⟨some vs⟩).map (·.1)).getD []), fun _ => True,
    fun _ => True, vs, fun _ _ => False⟩

/-- **C71**: a `Mutable` is a source. -/
theorem C71_mutable {α : Type} (a : α) (es : List (Mut.Ev α)) (os : List (Mut.Obs α)) (m : Mut.World α)
    (h : (Mut.World.new a).runs es = some (os, m)) (mine : Nat → Prop) :
    (Source.mutable a es os m mine).Ok where
  good k _ := (Mut.polled_value k h).1
  fresh k _ hk o ho := by
    have := Mut.polled_rest h hk ho
    rwa [← (Mut.C34_refines a es os m h).2.2] at this

/-- **C71**: a `MutableVec` is a source. -/
theorem C71_mutable_vec {α : Type} (vs : List α) (h : List (MutVec.Ev α)) (w : MutVec.World α)
    (hr : (MutVec.World.init vs).runs h = some w) (mine : Nat → Prop) :
    (Source.mutableVec vs h w mine).Ok where
  good k _ := MutVec.polled_replay hr k
  fresh _ _ hk _ ho := MutVec.polled_rest hr hk ho

/-- **C71**: a `MutableVec` sends no change without effect, unless the program replaces the contents by
nothing while they are empty. -/
theorem C71_mutable_vec_brisk {α : Type} (vs : List α) (h : List (MutVec.Ev α)) (w : MutVec.World α)
    (hr : (MutVec.World.init vs).runs h = some w)
    (hn : ∀ (h1 : List (MutVec.Ev α)) (o : MutVec.Op α) (h2 : List (MutVec.Ev α)) (w1 : MutVec.World α),
      h = h1 ++ .op o :: h2 → (MutVec.World.init vs).runs h1 = some w1 → w1.values = [] →
      o ≠ .replace [] ∧ o ≠ .replaceCloned [] ∧ o ≠ .applyVecDiff (.replace []))
    (mine : Nat → Prop) : (Expr.source (Source.mutableVec vs h w mine)).Brisk := by
  intro k _
  refine (brisk_feed (MutVec.polled_replay hr k)).2 ?_
  rw [MutVec.polled_diffs]
  refine MutVec.received_lively vs h w hr ?_ k
  intro h1 o h2 w1 e h1' hp
  cases o with
  | replace xs => exact (hn h1 _ h2 w1 e h1' hp.2).1 (by rw [hp.1])
  | replaceCloned xs => exact (hn h1 _ h2 w1 e h1' hp.2).2.1 (by rw [hp.1])
  | applyVecDiff d =>
    cases d with
    | replace xs => exact (hn h1 _ h2 w1 e h1' hp.2).2.2 (by rw [hp.1])
    | _ => exact hp
  | _ => exact hp

/-- **C71**: neither does `signal_vec::always(vs)`, unless `vs` is empty. -/
theorem C71_vec_always_brisk {α : Type} (vs : List α) (hv : vs ≠ []) (ws : Nat → List Waker) :
    (Expr.source (Source.vecAlways vs ws)).Brisk := by
  intro k _ a d b he _
  have key : ∀ ws : List Waker, Trace.diffs (ws.zip (((run VAlways.poll ws ⟨some vs⟩).map (·.1)).getD [])) =
      if ws = [] then [] else [.replace vs] := by
    intro ws
    rcases ws with _ | ⟨w, _ | ⟨w', ws'⟩⟩
    · rfl
    · rfl
    · simp [run, VAlways.poll, Trace.diffs, Trace.answers, items]
  have he' := (key (ws k)).symm.trans he
  split at he'
  · simp at he'
  · rw [List.singleton_eq_append_iff] at he'
    rcases he' with ⟨-, he'⟩ | ⟨-, he'⟩
    · cases he'; simp [hv]
    · simp at he'

/-- **C71**: a `MutableBTreeMap` is a source, and its diffs have their keys in order. -/
theorem C71_mutable_map {K V : Type} [LinearOrder K] (vs : MutMap.BMap K V) (h : List (MutMap.Ev K V))
    (w : MutMap.World K V) (hr : (MutMap.World.init vs).runs h = some w) (mine : Nat → Prop) :
    (Source.mutableMap vs h w mine).Ok ∧ ∀ k, mine k →
      ∀ d ∈ items (((Source.mutableMap vs h w mine).trace k).map (·.2)), Sorted d :=
  ⟨⟨fun k _ => (MutMap.polled_replay hr k).1, fun _ _ hk _ ho => MutMap.polled_rest hr hk ho⟩,
    fun k _ => (MutMap.polled_replay hr k).2⟩

/-- **C71**: the `Receiver` of a channel is a source. -/
theorem C71_receiver {α : Type} (a : α) (es : List (Chan.Ev α)) (os : List (Chan.Obs α))
    (m : Chan.World α) (h : (Chan.World.new a).runs es = some (os, m)) :
    (Source.receiver a es os m).Ok where
  good _ _ := (Chan.seen h).first.imp And.left id
  fresh _ _ _ _ ho := Chan.polled_rest h ho

/-- **C71**: `always` is a source. -/
theorem C71_always {α : Type} (a : α) (ws : Nat → List Waker) : (Source.always a ws).Ok := by
  have key : ∀ k, (Source.always a ws).trace k = [] ∨
      ((∃ w, (Source.always a ws).trace k = [(w, .ready (some a))]) ∨
        ∃ w w', (Source.always a ws).trace k = [(w, .ready (some a)), (w', .ready none)]) := by
    intro k
    simp only [Source.always]
    rcases ws k with _ | ⟨w, _ | ⟨w', ws'⟩⟩
    · exact .inl rfl
    · exact .inr (.inl ⟨w, rfl⟩)
    · exact .inr (.inr ⟨w, w', by simp [run, SAlways.poll]⟩)
  constructor
  · intro k _
    rcases key k with h | ⟨w, h⟩ | ⟨w, w', h⟩ <;> rw [h]
    · exact .inl rfl
    · exact .inr ⟨a, rfl⟩
    · exact .inr ⟨a, rfl⟩
  · intro k _ _ o ho
    rcases key k with h | ⟨w, h⟩ | ⟨w, w', h⟩ <;> rw [h] at ho ⊢
    · rcases ho with ⟨x, _, h⟩ | ⟨y, h⟩ <;> simp at h
    · exact .inl rfl
    · exact .inl rfl

/-- `option(None)`; the `k`-th such signal has been polled with the wakers `ws k`. -/
def Source.optionNone (α : Type) (ws : Nat → List Waker) : Source (.sig (Option α)) :=
  ⟨fun k => (ws k).zip (((run SOption.poll (ws k) (SOption.init none)).map (·.1)).getD []), fun _ => True,
    fun _ => True, none, fun _ _ => False⟩

/-- `result(Err(x))`; the `k`-th such signal has been polled with the wakers `ws k`. -/
def Source.resultErr {ε : Type} (α : Type) (x : ε) (ws : Nat → List Waker) :
    Source (.sig (Except ε α)) :=
  ⟨fun k => (ws k).zip (((run SResult.poll (ws k) (SResult.init (α := α) (.error x))).map (·.1)).getD []),
    fun _ => True, fun _ => True, .error x, fun _ _ => False⟩

/-- `signal_map::always(vs)`; the `k`-th such signal has been polled with the wakers `ws k`. -/
def Source.mapAlways {K V : Type} [LinearOrder K] (vs : List (K × V)) (ws : Nat → List Waker) :
    Source (.map K V) :=
  ⟨fun k => (ws k).zip (((run MAlways.poll (ws k) ⟨some vs⟩).map (·.1)).getD []), fun _ => True,
    fun _ => True, mapOf vs, fun _ _ => False⟩

/-- One answer, then the end. -/
theorem once_ok {τ : Ty} {s : Source τ} {i : τ.Item}
    (key : ∀ k, s.trace k = [] ∨ (∃ w, s.trace k = [(w, .ready (some i))]) ∨
      ∃ w w', s.trace k = [(w, .ready (some i)), (w', .ready none)])
    (hg : ∀ w, τ.Good [] ∧ τ.Good [(w, .ready (some i))] ∧
      ∀ w', τ.Good [(w, .ready (some i)), (w', .ready none)])
    (hs : ∀ w w', τ.Shows [(w, .ready (some i)), (w', .ready none)] s.cur) : s.Ok := by
  constructor
  · intro k _
    rcases key k with h | ⟨w, h⟩ | ⟨w, w', h⟩ <;> rw [h]
    · exact (hg 0).1
    · exact (hg w).2.1
    · exact (hg w).2.2 w'
  · intro k _ _ o ho
    rcases key k with h | ⟨w, h⟩ | ⟨w, w', h⟩ <;> rw [h] at ho ⊢
    · rcases ho with ⟨x, _, h⟩ | ⟨y, h⟩ <;> simp at h
    · rcases ho with ⟨x, _, h⟩ | ⟨y, h⟩ <;> simp at h
    · exact .inl (hs w w')

/-- **C71**: `option(None)` is a source. -/
theorem C71_option_none (α : Type) (ws : Nat → List Waker) : (Source.optionNone α ws).Ok := by
  refine once_ok (i := none) (fun k => ?_) (fun w => ⟨.inl rfl, .inr ⟨_, rfl⟩, fun _ => .inr ⟨_, rfl⟩⟩)
    fun _ _ => rfl
  simp only [Source.optionNone]
  rcases ws k with _ | ⟨w, _ | ⟨w', ws'⟩⟩
  · exact .inl rfl
  · exact .inr (.inl ⟨w, rfl⟩)
  · exact .inr (.inr ⟨w, w', by simp [run, SOption.poll, SOption.init, SMaybe.poll]⟩)

/-- **C71**: `result(Err(x))` is a source. -/
theorem C71_result_err {ε : Type} (α : Type) (x : ε) (ws : Nat → List Waker) :
    (Source.resultErr α x ws).Ok := by
  refine once_ok (i := .error x) (fun k => ?_) (fun w => ⟨.inl rfl, .inr ⟨_, rfl⟩, fun _ => .inr ⟨_, rfl⟩⟩)
    fun _ _ => rfl
  simp only [Source.resultErr]
  rcases ws k with _ | ⟨w, _ | ⟨w', ws'⟩⟩
  · exact .inl rfl
  · exact .inr (.inl ⟨w, rfl⟩)
  · exact .inr (.inr ⟨w, w', by simp [run, SResult.poll, SResult.init, SMaybe.poll]⟩)

/-- **C71**: `signal_vec::always` is a source. -/
theorem C71_vec_always {α : Type} (vs : List α) (ws : Nat → List Waker) :
    (Source.vecAlways vs ws).Ok := by
  refine once_ok (i := .replace vs) (fun k => ?_) (fun w => ⟨⟨[], rfl⟩, ⟨vs, rfl⟩, fun _ => ⟨vs, rfl⟩⟩)
    fun _ _ => rfl
  simp only [Source.vecAlways]
  rcases ws k with _ | ⟨w, _ | ⟨w', ws'⟩⟩
  · exact .inl rfl
  · exact .inr (.inl ⟨w, rfl⟩)
  · exact .inr (.inr ⟨w, w', by simp [run, VAlways.poll]⟩)

/-- **C71**: `signal_map::always` is a source if no key occurs twice. -/
theorem C71_map_always {K V : Type} [LinearOrder K] (vs : List (K × V)) (hd : (vs.map (·.1)).Nodup)
    (ws : Nat → List Waker) : (Source.mapAlways vs ws).Ok := by
  have hr : mreplay [.replace vs] noKeys = some (mapOf vs) := by simp [mreplay, MapDiff.apply, hd]
  refine once_ok (i := .replace vs) (fun k => ?_) (fun w => ⟨⟨_, rfl⟩, ⟨_, hr⟩, fun _ => ⟨_, hr⟩⟩)
    fun _ _ => hr
  simp only [Source.mapAlways]
  rcases ws k with _ | ⟨w, _ | ⟨w', ws'⟩⟩
  · exact .inl rfl
  · exact .inr (.inl ⟨w, rfl⟩)
  · exact .inr (.inr ⟨w, w', by simp [run, MAlways.poll]⟩)

/-! ## Non-vacuity -/

/-- The `Mutable`s of the elements: `m[0]` is 3 at first, then 10; `m[1]` is 7. -/
def demoCells (n : Nat) : List (Mut.Ev Nat) :=
  if n = 0 then [.signal, .poll 0 9, .poll 0 9, .poll 0 9, .poll 0 9, .set 10, .poll 0 9, .poll 0 9, .poll 0 9]
  else .signal :: List.replicate 7 (.poll 0 9)

def demoCellRun (n : Nat) : List (Mut.Obs Nat) × Mut.World Nat :=
  ((Mut.World.new (if n = 0 then 3 else 7)).runs (demoCells n)).getD ([], Mut.World.new 0)

/-- `m[n].signal()` -/
def demoECell (n : Nat) : Source (.sig Nat) :=
  .mutable (if n = 0 then 3 else 7) (demoCells n) (demoCellRun n).1 (demoCellRun n).2 (· = 0)

def demoListRun : MutVec.World Nat :=
  ((MutVec.World.init [0, 1]).runs (.subscribe :: List.replicate 7 (.poll 0 9))).getD (MutVec.World.init [])

/-- `list.signal_vec()`, the list is `[0, 1]` -/
def demoEList : Source (.vec Nat) :=
  .mutableVec [0, 1] (.subscribe :: List.replicate 7 (.poll 0 9)) demoListRun (· = 0)

/-- The flag may be cleared at the end. -/
def demoFlags (late : Bool) : List (Mut.Ev Bool) :=
  [.signal, .poll 0 9, .poll 0 9, .poll 0 9, .poll 0 9] ++ if late then [.set false] else []

def demoFlagRun (late : Bool) : List (Mut.Obs Bool) × Mut.World Bool :=
  ((Mut.World.new true).runs (demoFlags late)).getD ([], Mut.World.new true)

/-- `flag.signal()` -/
def demoEFlag (late : Bool) : Source (.sig Bool) :=
  .mutable true (demoFlags late) (demoFlagRun late).1 (demoFlagRun late).2 (· = 0)

/-- `list.signal_vec().map_signal(|n| m[n].signal()).sum()` -/
def demoESum : Expr (.sig Nat) :=
  .sink (.sum (· + ·) 0) (.mapSignal (fun n => .source (demoECell n)) (.source demoEList))

/-- `flag.signal().switch(|b| if b { demoESum } else { always(0) })` -/
def demoExpr (late : Bool) : Expr (.sig Nat) :=
  .switch (fun b => if b then demoESum else .source (.always 0 fun _ => [])) (.source (demoEFlag late))

/-- The demo expression meets the hypotheses of C71.  What comes out is 10, then 17.  At the end the
expression denotes 17, or, if the flag has been cleared, 0, and then the waker 9 has been woken. -/
theorem demoExpr_meets (late : Bool) : (demoExpr late).Lawful ∧
    (∃ W, (demoExpr late).Exec true
      [(9, .ready (some 10)), (9, .pending), (9, .ready (some 17)), (9, .pending)] W ∧
      (late = true → W 9)) ∧
    ∀ v, (demoExpr late).Spec v → v = if late then 0 else 17 := by
  have hcell : ∀ n, (demoECell n).Ok := fun n => by
    refine C71_mutable _ _ _ _ ?_ _
    by_cases hn : n = 0
    · subst hn; rfl
    · simp only [demoCellRun, demoCells, hn, if_false]; rfl
  have hlist : demoEList.Ok := C71_mutable_vec _ _ _ rfl _
  have hflag : (demoEFlag late).Ok := by
    refine C71_mutable _ _ _ _ ?_ _
    cases late <;> rfl
  have hsum : demoESum.Lawful := ⟨⟨Nat.add_comm, Nat.add_assoc⟩, fun n => hcell n, hlist⟩
  refine ⟨⟨fun b => ?_, hflag⟩, ?_, ?_⟩
  · cases b
    · exact C71_always 0 _
    · exact hsum
  · have hexec : ∀ live, ∃ W, demoESum.Exec live
        [(9, .ready (some 10)), (9, .pending), (9, .ready (some 17)), (9, .pending)] W := by
      intro live
      refine ⟨_, [(9, .ready (some (.replace [3, 7]))), (9, .pending), (9, .pending),
        (9, .ready (some (.updateAt 0 10))), (9, .pending), (9, .pending)],
        ⟨[(9, .ready (some (.replace [(0, 0), (1, 0)])))] ++ List.replicate 6 (9, .pending),
        fun n _ => (demoECell n).trace 0, demoEList.woken 0, fun n _ => (demoECell n).woken 0,
        ⟨0, rfl, fun _ => .inl rfl, rfl, rfl⟩, fun b n => .inr ⟨_, 0, rfl, by simp, rfl, rfl⟩,
        _, rfl, rfl, ?_, rfl⟩, _, rfl, rfl⟩
      intro x hx
      simp at hx
      rcases hx with rfl | rfl
      · exact ⟨rfl, 0, rfl, fun _ => .inl ⟨by decide, by decide⟩, rfl, rfl⟩
      · exact ⟨rfl, 0, rfl, fun _ => .inl ⟨by decide, by decide⟩, rfl, rfl⟩
    obtain ⟨W, hW⟩ := hexec true
    have hex : (demoExpr late).Exec true
        [(9, .ready (some 10)), (9, .pending), (9, .ready (some 17)), (9, .pending)] fun y =>
        (demoEFlag late).woken 0 y ∨ ∃ x : Made (Bool × Nat) (Option Nat), ([] ++ (some (⟨(true, 0),
          ⟨[], [(9, .ready (some 10)), (9, .pending), (9, .ready (some 17)), (9, .pending)]⟩⟩ :
          Made (Bool × Nat) (Option Nat))).toList).getLast? = some x ∧ W y := by
      refine ⟨[(9, .ready (some (true, 0))), (9, .pending), (9, .pending), (9, .pending)],
        fun b n => if b = true ∧ n = 0 then
          [(9, .ready (some 10)), (9, .pending), (9, .ready (some 17)), (9, .pending)] else [],
        (demoEFlag late).woken 0, fun _ _ => W, ?_, ?_, ?_⟩
      · cases late <;> exact ⟨0, rfl, fun _ => .inl ⟨by decide, by decide⟩, rfl, rfl⟩
      · intro b n
        by_cases hb : b = true ∧ n = 0
        · obtain ⟨rfl, rfl⟩ := hb
          exact .inr (hexec false)
        · exact .inl (if_neg hb)
      · refine ⟨_, rfl, rfl, ?_, rfl⟩
        intro x hx
        simp at hx
        subst hx
        exact ⟨rfl, hW⟩
    refine ⟨_, hex, ?_⟩
    rintro rfl
    exact .inl ⟨[.signal, .poll 0 9, .poll 0 9, .poll 0 9], [.set false], _, _, [9], rfl, by simp, rfl,
      rfl, by simp⟩
  · rintro v ⟨b, rfl, hv⟩
    cases late
    · obtain ⟨xs, ⟨ys, rfl, hy⟩, rfl⟩ := hv
      have hy' : List.Forall₂ (fun (a y : Nat) => y = (demoECell a).cur) [0, 1] xs := hy
      rcases hy' with _ | ⟨rfl, _ | ⟨rfl, hy'⟩⟩
      cases hy'
      rfl
    · exact hv

/-- A map with one entry; `2 => 6` may be inserted at the end. -/
def demoMaps (late : Bool) : List (MutMap.Ev Nat Nat) :=
  [.subscribe, .poll 0 9, .poll 0 9] ++ if late then [.op (.insert 2 6)] else []

def demoMapInit : MutMap.BMap Nat Nat := ⟨[(1, 5)], List.pairwise_singleton _ _⟩

def demoMapRun (late : Bool) : MutMap.World Nat Nat :=
  ((MutMap.World.init demoMapInit).runs (demoMaps late)).getD (MutMap.World.init demoMapInit)

/-- `map.signal_map()` -/
def demoEMap (late : Bool) : Source (.map Nat Nat) :=
  .mutableMap demoMapInit (demoMaps late) (demoMapRun late) (· = 0)

def demoChoices : List (Mut.Ev Bool) := [.signal, .poll 0 9, .poll 0 9, .poll 0 9]

def demoChoiceRun : List (Mut.Obs Bool) × Mut.World Bool :=
  ((Mut.World.new true).runs demoChoices).getD ([], Mut.World.new true)

/-- `choice.signal()` -/
def demoChoice : Source (.sig Bool) :=
  .mutable true demoChoices demoChoiceRun.1 demoChoiceRun.2 (· = 0)

/-- `choice.signal().switch_signal_vec(|b| if b { map.signal_vec_keys() } else { list.signal_vec() })` -/
def demoESwitch (late : Bool) : Expr (.vec Nat) :=
  .switchVec (fun b => if b then .keys linearSearch (demoEMap late) else .source demoEList)
    (.source demoChoice)

/-- This expression also meets the hypotheses of C71. -/
example (late : Bool) : (demoESwitch late).Lawful ∧
    (∃ W, (demoESwitch late).Exec true [(9, .ready (some (.replace [1]))), (9, .pending)] W ∧
      (late = true → W 9)) ∧
    ∀ v, (demoESwitch late).Spec v → (2 ∈ v ↔ late = true) := by
  have hmap : ∀ k, k = 0 → ((demoEMap late).Ok ∧ ∀ k, k = 0 →
      ∀ d ∈ items (((demoEMap late).trace k).map (·.2)), Sorted d) := fun _ _ => by
    refine C71_mutable_map _ _ _ ?_ _
    cases late <;> rfl
  obtain ⟨hmap, hsorted⟩ := hmap 0 rfl
  have hch : demoChoice.Ok := C71_mutable _ _ _ _ rfl _
  have htr : (demoEMap late).trace 0 = [(9, .ready (some (.replace [(1, 5)]))), (9, .pending)] := by
    cases late <;> rfl
  refine ⟨⟨fun b => ?_, hch, fun b t W h => ?_⟩, ?_, ?_⟩
  · cases b
    · exact C71_mutable_vec _ _ _ rfl _
    · exact ⟨hmap, linearSearch_ok, hsorted⟩
  · cases b
    · obtain ⟨k, hk, -, rfl, -⟩ := h
      cases hk
      intro h
      cases h
    · obtain ⟨k, hk, -, -, s, h, -⟩ := h
      cases hk
      rcases t with _ | ⟨⟨w, r⟩, t⟩
      · simp
      · obtain ⟨s1, h⟩ := run_head h
        rw [htr] at h
        cases h
        simp
  · have hkeys : ∀ live, Expr.Exec (.keys linearSearch (demoEMap late)) live
        [(9, .ready (some (.replace [1]))), (9, .pending)] ((demoEMap late).woken 0) := by
      intro live
      cases late <;> exact ⟨0, rfl, fun _ => .inl rfl, rfl, _, rfl, rfl⟩
    have hex : (demoESwitch late).Exec true [(9, .ready (some (.replace [1]))), (9, .pending)] fun y =>
        demoChoice.woken 0 y ∨ ∃ q : Bool × Nat, [(true, 0)].getLast? = some q ∧ (demoEMap late).woken 0 y := by
      refine ⟨[(9, .ready (some (true, 0))), (9, .pending), (9, .pending)],
        fun b n => if b = true ∧ n = 0 then [(9, .ready (some (.replace [1]))), (9, .pending)] else [],
        demoChoice.woken 0, fun _ _ => (demoEMap late).woken 0,
        ⟨0, rfl, fun _ => .inl ⟨by decide, by decide⟩, rfl, rfl⟩, ?_, _, rfl, rfl, ?_, rfl⟩
      · intro b n
        by_cases hb : b = true ∧ n = 0
        · obtain ⟨rfl, rfl⟩ := hb
          exact .inr ⟨_, hkeys false⟩
        · exact .inl (if_neg hb)
      · intro q hq
        have hq' : [(true, 0)].getLast? = some q := hq
        cases hq'
        exact ⟨rfl, hkeys true⟩
    refine ⟨_, hex, ?_⟩
    rintro rfl
    exact .inr ⟨_, rfl, [.subscribe, .poll 0 9], [.op (.insert 2 6)], _, [9], rfl, by simp, rfl, rfl,
      by simp⟩
  · rintro v ⟨b, rfl, -, hv⟩
    rw [hv 2]
    cases late <;> decide

/-- A flag behind a `Broadcaster` whose waker is 7; it may be cleared at the end. -/
def demoShareds (late : Bool) : List (Mut.Ev Bool) :=
  [.signal, .poll 0 7, .poll 0 7] ++ if late then [.set false] else []

def demoSharedRun (late : Bool) : List (Mut.Obs Bool) × Mut.World Bool :=
  ((Mut.World.new true).runs (demoShareds late)).getD ([], Mut.World.new true)

/-- `let shared = flag.signal().broadcast()`; what happens to it: two subscribers, which are polled in
turn, and the wake-up if the flag is cleared. -/
def demoShareEvs (late : Bool) : List Bc.Ev :=
  [.subscribe, .subscribe, .poll 0 9, .poll 1 9, .poll 0 9, .poll 1 9] ++ if late then [.wake] else []

def demoEShared (late : Bool) : Expr (.sig Bool) :=
  .source (.mutable true (demoShareds late) (demoSharedRun late).1 (demoSharedRun late).2 (· = 0))

/-- `and(shared.signal(), shared.signal_ref(|b| b))` -/
def demoEAnd (late : Bool) : Expr (.sig Bool) :=
  .and (.broadcast id (demoEShared late)) (.broadcast id (demoEShared late))

/-- This expression also meets the hypotheses of C71. -/
example (late : Bool) : (demoEAnd late).Lawful ∧
    (∃ W, (demoEAnd late).Exec true [(9, .ready (some true)), (9, .pending)] W ∧ (late = true → W 9)) ∧
    ∀ v, (demoEAnd late).Spec v → v = !late := by
  have hm : (demoEShared late).Lawful := by
    refine C71_mutable _ _ _ _ ?_ _
    cases late <;> rfl
  refine ⟨⟨hm, hm⟩, ?_, ?_⟩
  · have hsub : ∀ k, k = 0 ∨ k = 1 → ∃ W, Expr.Exec (.broadcast id (demoEShared late)) true
        [(9, .ready (some true)), (9, .pending)] W ∧ (late = true → W 9) := by
      intro k hk
      cases late
      · refine ⟨_, ⟨[(7, .ready (some true)), (7, .pending)], _, fun _ b => b, demoShareEvs false, _, _, k,
          ⟨0, rfl, fun _ => .inl ⟨by decide, by decide⟩, rfl, rfl⟩, rfl, rfl, rfl, ?_, ?_, ?_, rfl⟩, by simp⟩
        · rintro x hx ⟨es₁, es₂, os₁, m₁, new, he, -, hr, hn, hx'⟩
          exfalso
          have hw : (demoSharedRun false).2.woken = [] := rfl
          rw [hw] at hn
          rw [(List.append_eq_nil_iff.1 hn.symm).2] at hx'
          simp at hx'
        · exact fun _ => .inl (by simp [demoShareEvs])
        · rcases hk with rfl | rfl <;> rfl
      · refine ⟨_, ⟨[(7, .ready (some true)), (7, .pending)], _, fun _ b => b, demoShareEvs true, _, _, k,
          ⟨0, rfl, fun _ => .inl ⟨by decide, by decide⟩, rfl, rfl⟩, rfl, rfl, rfl, fun _ _ _ => rfl, ?_, ?_, rfl⟩,
          fun _ => ?_⟩
        · exact fun _ => .inl (by simp [demoShareEvs])
        · rcases hk with rfl | rfl <;> rfl
        · rcases hk with rfl | rfl
          · exact ⟨[_, _, _, _], _, [_, _], rfl, by simp, _, .tail _ (.head _), by decide⟩
          · exact ⟨[_, _, _, _, _], _, [_], rfl, by simp, _, .head _, by decide⟩
    obtain ⟨W, h1, h2⟩ := hsub 0 (.inl rfl)
    obtain ⟨W', h3, h4⟩ := hsub 1 (.inr rfl)
    exact ⟨_, ⟨_, _, W, W', h1, h3, rfl, _, rfl, rfl⟩, fun h => .inl (h2 h)⟩
  · rintro v ⟨a, b, ⟨a', rfl, rfl⟩, ⟨b', rfl, rfl⟩, rfl⟩
    cases late <;> rfl

def demoOuters (late : Bool) : List (MutVec.Ev Nat) :=
  [.subscribe, .poll 0 9, .poll 0 9] ++ if late then [.op (.push 2)] else []

def demoOuterRun (late : Bool) : MutVec.World Nat :=
  ((MutVec.World.init [0, 1]).runs (demoOuters late)).getD (MutVec.World.init [])

/-- `list.signal_vec().map(|n| always(vec![n, n + 10])).flatten()`; `list` is `[0, 1]`, and 2 may be
pushed at the end. -/
def demoEFlatten (late : Bool) : Expr (.vec Nat) :=
  .flatten (fun n => .source (.vecAlways [n, n + 10] fun _ => [9, 9]))
    (.source (.mutableVec [0, 1] (demoOuters late) (demoOuterRun late) (· = 0)))

/-- This expression also meets the hypotheses of C71. -/
example (late : Bool) : (demoEFlatten late).Lawful ∧
    (∃ W, (demoEFlatten late).Exec true [(9, .ready (some (.replace [0, 10, 1, 11]))), (9, .pending)] W ∧
      (late = true → W 9)) ∧
    ∀ v, (demoEFlatten late).Spec v → v = [0, 10, 1, 11] ++ if late then [2, 12] else [] := by
  refine ⟨⟨fun n => C71_vec_always _ _, ?_, ?_⟩, ?_, ?_⟩
  · refine C71_mutable_vec _ _ _ ?_ _
    cases late <;> rfl
  · rintro live t W ⟨k, hk, -, rfl, -⟩
    cases hk
    cases late <;> (intro d hd; cases hd <;> first | trivial | (rename_i h; cases h))
  · have hex : (demoEFlatten late).Exec true
        [(9, .ready (some (.replace [0, 10, 1, 11]))), (9, .pending)] fun y =>
        (Source.mutableVec [0, 1] (demoOuters late) (demoOuterRun late) (· = 0)).woken 0 y ∨
          ∃ x ∈ ([0, 1] : List Nat), False := by
      refine ⟨[(9, .ready (some (.replace [(0, 0), (1, 0)]))), (9, .pending)],
        fun n _ => [(9, .ready (some (.replace [n, n + 10]))), (9, .ready none)],
        _, fun _ _ _ => False, ⟨0, rfl, ?_, ?_, rfl⟩, fun b n => .inr ⟨_, 0, trivial, by simp, rfl, rfl⟩,
        _, rfl, rfl, ?_, ?_⟩
      · intro _; cases late <;> exact .inl rfl
      · cases late <;> rfl
      · intro x hx
        simp at hx
        rcases hx with rfl | rfl <;> exact ⟨rfl, 0, trivial, fun _ => trivial, rfl, rfl⟩
      · funext y
        simp
    refine ⟨_, hex, ?_⟩
    rintro rfl
    exact .inl ⟨[.subscribe, .poll 0 9], [.op (.push 2)], _, [9], rfl, by simp, rfl, rfl, by simp⟩
  · rintro v ⟨xs, yss, hx, hy, rfl⟩
    have hx' : xs = [0, 1] ++ if late then [2] else [] := by
      rw [hx]; cases late <;> rfl
    have hy' : List.Forall₂ (fun (a : Nat) (ys : List Nat) => ys = [a, a + 10]) xs yss := hy
    subst hx'
    cases late
    · rcases hy' with _ | ⟨rfl, _ | ⟨rfl, hy'⟩⟩
      cases hy'
      rfl
    · rcases hy' with _ | ⟨rfl, _ | ⟨rfl, _ | ⟨rfl, hy'⟩⟩⟩
      cases hy'
      rfl

/-- `list.signal_vec().chain(always(vec![5])).chain(always(vec![7]))`; `list` is `[0, 1]`, and 2 may be
pushed at the end. -/
def demoEChain (late : Bool) : Expr (.vec Nat) :=
  .chain (.chain (.source (.mutableVec [0, 1] (demoOuters late) (demoOuterRun late) (· = 0)))
    (.source (.vecAlways [5] fun _ => [9, 9]))) (.source (.vecAlways [7] fun _ => [9, 9]))

/-- This expression, with nested `chain`s, also meets the hypotheses of C71. -/
example (late : Bool) : (demoEChain late).Lawful ∧
    (∃ W, (demoEChain late).Exec true [(9, .ready (some (.replace [0, 1, 5, 7]))), (9, .pending)] W ∧
      (late = true → W 9)) ∧
    ∀ v, (demoEChain late).Spec v → v = [0, 1] ++ (if late then [2] else []) ++ [5, 7] := by
  have hr : (MutVec.World.init [0, 1]).runs (demoOuters late) = some (demoOuterRun late) := by
    cases late <;> rfl
  have h1 : (Expr.source (.mutableVec [0, 1] (demoOuters late) (demoOuterRun late) (· = 0))).Lawful :=
    by simp only [Expr.Lawful]; exact C71_mutable_vec _ _ _ hr (· = 0)
  have h5 : ∀ n : Nat, (Expr.source (.vecAlways [n] fun _ => [9, 9])).Lawful := fun n => by
    simp only [Expr.Lawful]; exact C71_vec_always [n] fun _ => [9, 9]
  have b1 := C71_mutable_vec_brisk _ _ _ hr (by
    intro h1 o h2 w1 e h1' hv
    have : ∀ e ∈ demoOuters late, ∀ o, e = .op o → o = .push 2 := by
      cases late <;> simp [demoOuters] <;> (rintro o rfl; rfl)
    have := this (.op o) (by rw [e]; simp) o rfl
    subst this
    simp) (· = 0)
  have h2 := C71_nested_chains
    (.source (.mutableVec [0, 1] (demoOuters late) (demoOuterRun late) (· = 0)))
    (.source (.vecAlways [5] fun _ => [9, 9])) h1 (h5 5) b1
    (C71_vec_always_brisk [5] (by simp) _)
  have h3 := C71_nested_chains _ (.source (.vecAlways [7] fun _ => [9, 9])) h2.1
    (h5 7) h2.2
    (C71_vec_always_brisk [7] (by simp) _)
  refine ⟨h3.1, ?_, ?_⟩
  · have hex : (demoEChain late).Exec true
        [(9, .ready (some (.replace [0, 1, 5, 7]))), (9, .pending)] fun y =>
        ((Source.mutableVec [0, 1] (demoOuters late) (demoOuterRun late) (· = 0)).woken 0 y ∨ False) ∨
          False := by
      refine ⟨[(9, .ready (some (.replace [0, 1, 5]))), (9, .pending)],
        [(9, .ready (some (.replace [7]))), (9, .ready none)], _, _,
        ⟨[(9, .ready (some (.replace [0, 1]))), (9, .pending)],
        [(9, .ready (some (.replace [5]))), (9, .ready none)], _, _,
        ⟨0, rfl, ?_, ?_, rfl⟩, ⟨0, trivial, fun _ => trivial, rfl, rfl⟩, rfl, _, rfl, rfl, rfl⟩,
        ⟨0, trivial, fun _ => trivial, rfl, rfl⟩, rfl, _, rfl, rfl, rfl⟩
      · intro _; cases late <;> exact .inl rfl
      · cases late <;> rfl
    refine ⟨_, hex, ?_⟩
    rintro rfl
    exact .inl (.inl ⟨[.subscribe, .poll 0 9], [.op (.push 2)], _, [9], rfl, by simp, rfl, rfl, by simp⟩)
  · rintro v ⟨xs, ys, ⟨xs', ys', hx, rfl, rfl⟩, rfl, rfl⟩
    have hx' : xs' = [0, 1] ++ if late then [2] else [] := by
      rw [hx]; cases late <;> rfl
    subst hx'
    cases late <;> rfl

end Verif
