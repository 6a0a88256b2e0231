import Verif.Props.Expr
import Verif.SourceHubConc
import Verif.SourceMutConc
import Verif.SourceChanConc

/-!
# Expressions whose sources are changed by other threads (property C80)

`C71_expressions_partial` relates the polls of an expression to the polls of its sources, whatever
happens in between.  Here the sources are the interleaving models of `Mutable`, `MutableVec`,
`MutableBTreeMap` and `channel`: while one thread polls the expression, other threads write, in steps
as small as the accesses to shared memory (`Mutable`, `channel`) or the critical sections and the
sends of single diffs (`MutableVec`, `MutableBTreeMap`).
-/

namespace Verif

/-! ## The sources -/

/-- A `MutableVec` with initial contents `l`, after the interleaved history `es` with the answers
`os`. -/
def Source.vecConc {α : Type} (l : List α) (es : List (HubConc.Ev (MutVec.Op α)))
    (os : List (Option (Poll (Option (VecDiff α))))) (w : HubConc.World (List α) (VecDiff α))
    (mine : Nat → Prop) : Source (.vec α) :=
  ⟨fun k => HubConc.polled k es os, mine, fun k => HubConc.Kept k es os w, w.values,
    fun k => HubConc.WokenSince (HubConc.vecApi α) l k es w⟩

/-- A `MutableBTreeMap` with initial contents `b`, after the interleaved history `es` with the answers
`os`. -/
def Source.mapConc {K V : Type} [LinearOrder K] (b : MutMap.BMap K V)
    (es : List (HubConc.Ev (MutMap.Op K V))) (os : List (Option (Poll (Option (MapDiff K V)))))
    (w : HubConc.World (MutMap.BMap K V) (MapDiff K V)) (mine : Nat → Prop) : Source (.map K V) :=
  ⟨fun k => HubConc.polled k es os, mine, fun k => HubConc.Kept k es os w, mapOf w.values.1,
    fun k => HubConc.WokenSince (HubConc.mapApi K V) b k es w⟩

/-- A `Mutable`, after an interleaved history that ended in `m`. -/
def Source.mutableConc {α : Type} (m : MutConc.World α) (mine : Nat → Prop) : Source (.sig α) :=
  ⟨fun i => MutConc.polled m i, mine, fun _ => True, m.value, fun i => MutConc.WokenSince m i⟩

/-- The `Receiver` of a channel with initial value `a`, after the interleaved history `es` that ended
in `m`; it is subscriber 0.  Its present value is the one stored last. -/
def Source.receiverConc {α : Type} (a : α) (es : List (ChanConc.Ev α)) (m : ChanConc.World α) :
    Source (.sig α) :=
  ⟨fun _ => m.answers, fun k => k = 0, fun _ => True, (ChanConc.World.init a).latest a es,
    fun _ => ChanConc.WokenSince m⟩

/-- **C80**: a `MutableVec` that other threads change is a source, at all moments at which none of
its methods is running. -/
theorem C80_vec {α : Type} (l : List α) (es : List (HubConc.Ev (MutVec.Op α)))
    (os : List (Option (Poll (Option (VecDiff α))))) (w : HubConc.World (List α) (VecDiff α))
    (h : (HubConc.World.init l).runs (HubConc.vecApi α) es = some (os, w)) (hj : w.job = none)
    (mine : Nat → Prop) : (Source.vecConc l es os w mine).Ok where
  good k _ := by
    obtain ⟨s, d, hs⟩ := HubConc.polled_some HubConc.vec_ok h k
    obtain ⟨y, hy, -⟩ := HubConc.vec_split hs
    exact ⟨y, hy⟩
  fresh _ _ hk _ ho := HubConc.polled_rest HubConc.vec_ok h hj hk ho

theorem HubConc.map_sorted_ok {K V : Type} [LinearOrder K] : (HubConc.mapApi K V).Ok
    (fun (m : MutMap.BMap K V) ds => mreplay ds noKeys = some (mapOf m.1) ∧ ∀ d ∈ ds, Sorted d) where
  first m := by
    refine ⟨HubConc.map_ok.first m, ?_⟩
    simp only [HubConc.mapApi]
    split
    · simp
    · simpa [Sorted] using m.2
  eff o m ds m' X h hX := by
    refine ⟨HubConc.map_ok.eff o m ds m' X h hX.1, ?_⟩
    simp only [HubConc.mapApi, Option.some.injEq, Prod.mk.injEq] at h
    obtain ⟨rfl, rfl⟩ := h
    intro d hd
    rcases List.mem_append.1 hd with hd | hd
    · exact hX.2 d hd
    · exact MutMap.diffs_sorted o m d hd

/-- **C80**: a `MutableBTreeMap` that other threads change is a source, at all moments at which none
of its methods is running, and its diffs have their keys in order. -/
theorem C80_map {K V : Type} [LinearOrder K] (b : MutMap.BMap K V)
    (es : List (HubConc.Ev (MutMap.Op K V))) (os : List (Option (Poll (Option (MapDiff K V)))))
    (w : HubConc.World (MutMap.BMap K V) (MapDiff K V))
    (h : (HubConc.World.init b).runs (HubConc.mapApi K V) es = some (os, w)) (hj : w.job = none)
    (mine : Nat → Prop) : (Source.mapConc b es os w mine).Ok ∧ ∀ k, mine k →
      ∀ d ∈ items (((Source.mapConc b es os w mine).trace k).map (·.2)), Sorted d := by
  have key := fun k => HubConc.polled_some HubConc.map_sorted_ok h k
  refine ⟨⟨fun k _ => ?_, fun k _ hk o ho => ?_⟩, fun k _ d hd => ?_⟩
  · obtain ⟨s, d, hs, -⟩ := key k
    obtain ⟨y, hy, -⟩ := HubConc.map_split hs
    exact ⟨y, hy⟩
  · exact (HubConc.polled_rest HubConc.map_sorted_ok h hj hk ho).imp And.left id
  · obtain ⟨s, l, -, hs⟩ := key k
    exact hs d (List.mem_append_left _ hd)

/-- **C80** (partial): a `Mutable` that other threads write to is a source, at all moments at which no
write and no poll of these signals is running, if no write took a waker in the window of C36, and no
write ran or came after the poll by which a signal ended.  Missing: these schedules, for which
the claim is false (`C36_lost_wakeup`, `C62_last_value_lost`). -/
theorem C80_mutable_partial {α : Type} (a : α) (es : List (MutConc.Ev α)) (m : MutConc.World α)
    (h : (MutConc.World.init a).runs es = some m) (mine : Nat → Prop) (hn : MutConc.NoWindow a es)
    (hq : MutConc.Quiet m mine) (he : MutConc.QuietEnd a es m mine) :
    (Source.mutableConc m mine).Ok where
  good i _ := MutConc.polled_first h i
  fresh _ hi _ _ ho := MutConc.polled_rest h hn hq he hi ho

/-- **C80** (partial): the `Receiver` of a channel that other threads send to is a source, at all
moments at which no call is running, if no `notify` fell into the window of C41, no `close` into that
of C40, and the receiver left no value behind when it ended.  Missing: these schedules, for which the
claim is false (`C41_lost_wakeup`, `C40_never_ends`, `C80_receiver_left`). -/
theorem C80_receiver_partial {α : Type} (a : α) (es : List (ChanConc.Ev α)) (m : ChanConc.World α)
    (h : (ChanConc.World.init a).runs es = some m) (h1 : ChanConc.NoOverlap a es)
    (h2 : ChanConc.NoWindow a es) (hr : ChanConc.AtRest m) (hc : ChanConc.CleanEnd m) :
    (Source.receiverConc a es m).Ok where
  good _ _ := by
    obtain ⟨os, hos⟩ := ChanConc.runs_runE h
    exact (ChanConc.seen hos).first.imp And.left id
  fresh _ _ _ _ ho := ChanConc.answers_rest h h1 h2 hr hc ho

/-- A poll finds no value; another thread sends 5 and drops its `Sender`, the only one; the poll finds
no sender. -/
def leftBehind : List (ChanConc.Ev Nat) :=
  [.callPoll 1, .rstep, .callPoll 2, .rstep, .callSend 5, .step 0, .step 0, .step 0, .callDrop, .step 0,
   .step 0, .step 0, .rstep]

/-- Without the last hypothesis of `C80_receiver_partial` the claim is false: the receiver ends with the
value 0, although 5 was sent before the `Sender` was dropped. -/
theorem C80_receiver_left : ∃ m, (ChanConc.World.init 0).runs leftBehind = some m ∧
    ChanConc.AtRest m ∧ ¬ (Source.receiverConc 0 leftBehind m).Ok := by
  refine ⟨_, rfl, ⟨rfl, rfl⟩, fun h => ?_⟩
  rcases h.fresh 0 rfl trivial none (.inr ⟨2, rfl⟩) with k | ⟨x, k, -⟩
  · have k' : some (0 : Nat) = some 5 := k
    cases k'
  · cases k

/-! ## A demonstration -/

/-- `m[0]` is 3 at first; another thread sets it to 10, while its signal is polled.  `m[1]` is 7. -/
def demoCellsConc (n : Nat) : List (MutConc.Ev Nat) :=
  let ready := [MutConc.Ev.poll 0 9, .sstep 0, .sstep 0]
  let pending := [MutConc.Ev.poll 0 9, .sstep 0, .sstep 0, .sstep 0]
  if n = 0 then
    [.subscribe, .sstep 0, .sstep 0] ++ ready ++ pending ++ pending ++ pending ++
      [.write 10, .wstep, .poll 0 9, .wstep, .sstep 0, .wstep, .wstep, .sstep 0] ++ pending ++ pending
  else [.subscribe, .sstep 0, .sstep 0] ++ ready ++ pending ++ pending ++ pending ++ pending ++
      pending ++ pending

def demoCellConcRun (n : Nat) : MutConc.World Nat :=
  ((MutConc.World.init (if n = 0 then 3 else 7)).runs (demoCellsConc n)).getD (MutConc.World.init 0)

/-- `m[n].signal()` -/
def demoCellConc (n : Nat) : Source (.sig Nat) := .mutableConc (demoCellConcRun n) (· = 0)

/-- The list `[0, 1]`.  A second subscriber comes and goes; another thread may push `1` at the end. -/
def demoListConc (late : Bool) : List (HubConc.Ev (MutVec.Op Nat)) :=
  [.subscribe, .poll 0 9, .poll 0 9, .subscribe, .poll 0 9, .poll 0 9, .dropRx 1, .poll 0 9, .poll 0 9,
    .poll 0 9] ++ if late then [.call (.push 1), .tick, .tick, .tick, .tick, .tick] else []

def demoListConcRun (late : Bool) :
    List (Option (Poll (Option (VecDiff Nat)))) × HubConc.World (List Nat) (VecDiff Nat) :=
  ((HubConc.World.init [0, 1]).runs (HubConc.vecApi Nat) (demoListConc late)).getD
    ([], HubConc.World.init [])

/-- `list.signal_vec()` -/
def demoVecConc (late : Bool) : Source (.vec Nat) :=
  .vecConc [0, 1] (demoListConc late) (demoListConcRun late).1 (demoListConcRun late).2 (· = 0)

/-- `list.signal_vec().map_signal(|n| m[n].signal()).sum()` -/
def demoSumConc (late : Bool) : Expr (.sig Nat) :=
  .sink (.sum (· + ·) 0) (.mapSignal (fun n => .source (demoCellConc n)) (.source (demoVecConc late)))

theorem demoCellConc_ok (n : Nat) : (demoCellConc n).Ok := by
  have hrun : (MutConc.World.init (if n = 0 then 3 else 7)).runs (demoCellsConc n) =
      some (demoCellConcRun n) := by
    by_cases hn : n = 0
    · subst hn; rfl
    · simp only [demoCellConcRun, demoCellsConc, hn, if_false]; rfl
  have hpc : (demoCellConcRun n).writer = none ∧ (demoCellConcRun n).ending = false ∧
      ((demoCellConcRun n).sigs 0).pc = .idle ∧
      ∀ b ∈ ((demoCellConcRun n).sigs 0).answers, b.answer ≠ .ready none := by
    by_cases hn : n = 0
    · subst hn
      exact ⟨rfl, rfl, rfl, by decide⟩
    · simp only [demoCellConcRun, demoCellsConc, hn, if_false]
      exact ⟨rfl, rfl, rfl, by decide⟩
  refine C80_mutable_partial _ _ _ hrun _ (MutConc.noWindow_of_check ?_) ⟨hpc.1, hpc.2.1, ?_⟩ ?_
  · by_cases hn : n = 0
    · subst hn; rfl
    · simp only [demoCellsConc, hn, if_false]; rfl
  · rintro i rfl
    exact .inl hpc.2.2.1
  · rintro i rfl b hb h
    exact absurd h (hpc.2.2.2 b hb)

/-- The demo expression meets the hypotheses of C71, by C80.  What comes out is 10, then 17, although
`m[0]` is set while the expression is polled.  At the end the expression denotes 17, or, if another
thread has pushed `1`, 24, and then the waker 9 has been woken. -/
theorem demoSumConc_meets (late : Bool) : (demoSumConc late).Lawful ∧
    (∃ W, (demoSumConc late).Exec true
      [(9, .ready (some 10)), (9, .pending), (9, .ready (some 17)), (9, .pending)] W ∧
      (late = true → W 9)) ∧
    ∀ v, (demoSumConc late).Spec v → v = if late then 24 else 17 := by
  have hlist : (demoVecConc late).Ok := by
    cases late <;> exact C80_vec _ _ _ _ rfl rfl _
  refine ⟨⟨⟨Nat.add_comm, Nat.add_assoc⟩, demoCellConc_ok, hlist⟩, ?_, ?_⟩
  · refine ⟨_, ⟨[(9, .ready (some (.replace [3, 7]))), (9, .pending), (9, .pending),
      (9, .ready (some (.updateAt 0 10))), (9, .pending), (9, .pending)],
      ⟨[(9, .ready (some (.replace [(0, 0), (1, 0)])))] ++ List.replicate 6 (9, .pending),
      fun n _ => (demoCellConc n).trace 0, (demoVecConc late).woken 0, fun n _ => (demoCellConc n).woken 0,
      ⟨0, rfl, fun _ => .inl ?_, ?_, rfl⟩, fun b n => .inr ⟨_, 0, rfl, by simp, rfl, rfl⟩,
      _, rfl, rfl, ?_, rfl⟩, _, rfl, rfl⟩, ?_⟩
    · cases late <;> rfl
    · cases late <;> rfl
    · intro x hx
      simp at hx
      rcases hx with rfl | rfl
      · exact ⟨rfl, 0, rfl, fun _ => trivial, rfl, rfl⟩
      · exact ⟨rfl, 0, rfl, fun _ => trivial, rfl, rfl⟩
    · rintro rfl
      exact .inl ⟨[.subscribe, .poll 0 9, .poll 0 9, .subscribe, .poll 0 9, .poll 0 9, .dropRx 1, .poll 0 9,
        .poll 0 9], [.call (.push 1), .tick, .tick, .tick, .tick, .tick], _, _, [9], rfl, by simp, rfl, rfl,
        by simp⟩
  · rintro v ⟨xs, ⟨ys, rfl, hy⟩, rfl⟩
    cases late
    · have hy' : List.Forall₂ (fun (a y : Nat) => y = (demoCellConc a).cur) [0, 1] xs := hy
      rcases hy' with _ | ⟨rfl, _ | ⟨rfl, hy'⟩⟩
      cases hy'
      rfl
    · have hy' : List.Forall₂ (fun (a y : Nat) => y = (demoCellConc a).cur) [0, 1, 1] xs := hy
      rcases hy' with _ | ⟨rfl, _ | ⟨rfl, _ | ⟨rfl, hy'⟩⟩⟩
      cases hy'
      rfl

/-- `C80_receiver_partial` applies to the busy schedule of `Verif/Props/ChannelConc.lean`, in which a
`send` overlaps a poll: the receiver shows 0 and waits, 5 was sent, and its waker has been woken. -/
example : ∃ m, (ChanConc.World.init 0).runs ChanConc.busy = some m ∧ ChanConc.AtRest m ∧
    ChanConc.CleanEnd m ∧ (Source.receiverConc 0 ChanConc.busy m).cur = 5 ∧
    (Source.receiverConc 0 ChanConc.busy m).trace 0 = [(9, .ready (some 0)), (1, .pending)] ∧
    (Source.receiverConc 0 ChanConc.busy m).woken 0 1 :=
  ⟨_, rfl, ⟨rfl, rfl⟩, fun x h => (by cases h), rfl, rfl, List.mem_singleton_self 1⟩

/-- A map into which another thread inserts while subscriber 0 is polled. -/
def demoMapConc : List (HubConc.Ev (MutMap.Op Nat Nat)) :=
  [.subscribe, .poll 0 9, .call (.insert 2 6), .poll 0 9, .tick, .tick, .tick, .tick, .poll 0 8]

/-- `C80_map` applies to it. -/
example : ∃ os w, (HubConc.World.init demoMapInit).runs (HubConc.mapApi Nat Nat) demoMapConc = some (os, w) ∧
    w.job.isNone ∧ w.values.1 = [(1, 5), (2, 6)] ∧ HubConc.polled 0 demoMapConc os =
      [(9, .ready (some (.replace [(1, 5)]))), (9, .pending), (8, .ready (some (.insert 2 6)))] :=
  ⟨_, _, rfl, rfl, rfl, rfl⟩

end Verif
