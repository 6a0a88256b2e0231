import Verif.ChannelRAProofs

/-!
# C82: `channel` with the orderings that the code asks for
-/

namespace Verif.ChanRA

variable {α : Type}

/-! ## What holds in every execution -/

/-- **C82**, the values.  In every release/acquire execution, however stale the loads are: the values
produced by the polls are, in order, some of the values stored, each at most once (the first stored
value is the initial one); the waiting value is the last one stored, and if none waits then the
last one stored was produced last. -/
theorem C82_values (init : α) (es : List (Ev α)) (m : World α) (hr : (World.init init).runs es = some m) :
    (produced m.answers).Sublist m.stored ∧
    (∀ a, m.value = some a → m.stored.getLast? = some a) ∧
    (m.value = none → (produced m.answers).getLast? = m.stored.getLast?) := by
  obtain ⟨⟨l, h1, h2⟩, h3⟩ := vals_runs hr
  refine ⟨?_, fun a ha => by rw [h1, ha]; simp, h3⟩
  rw [h1]
  exact h2.trans (List.sublist_append_left _ _)

/-- **C82**, the next poll.  In every release/acquire execution, a poll started when a value waits and
made while the other threads rest produces that value, whatever its thread knows. -/
theorem C82_next_poll (init : α) (es : List (Ev α)) (m : World α) (_hr : (World.init init).runs es = some m)
    (hi : m.r = .idle) (a : α) (hv : m.value = some a) (w : Waker) (v : Nat) (hvl : v ≤ m.last)
    (r : Poll (Option α)) : m.Answers w v r ↔ r = .ready (some a) := by
  rw [answers_iff hi hvl]
  simp only [mayAnswer, hv]

/-- The end has been answered only after the channel was closed or the counter was 0. -/
theorem early_step {m m' : World α} {e : Ev α} (hb : Base m) (hc : Count m)
    (h : (∃ w, (w, Poll.ready none) ∈ m.answers) → m.closed = true ∨ m.cur = 0)
    (hs : m.step e = some ((), m')) :
    (∃ w, (w, Poll.ready none) ∈ m'.answers) → m'.closed = true ∨ m'.cur = 0 := by
  cases e with
  | callSend a v => simp only [World.step] at hs; split at hs <;> cases hs; exact h
  | callClose v => simp only [World.step] at hs; split at hs <;> cases hs; exact h
  | callClone v => simp only [World.step] at hs; split at hs <;> cases hs; exact h
  | callDrop v => simp only [World.step] at hs; split at hs <;> cases hs; exact h
  | callPoll w v => simp only [World.step] at hs; split at hs <;> cases hs; exact h
  | rstep k =>
    simp only [World.step] at hs
    split at hs
    · cases hs
    · split at hs <;> cases hs
      · rintro ⟨w, hw⟩
        simp only [List.mem_append, List.mem_singleton, Prod.mk.injEq] at hw
        rcases hw with hw | ⟨-, hw⟩
        · exact h ⟨w, hw⟩
        · cases hw
      · exact h
    · split at hs
      · cases hs
      · rename_i n hn
        split at hs <;> cases hs
        · rename_i hz
          intro _
          obtain hcl | hcl : m.closed = true ∨ m.closed = false := by cases m.closed <;> simp
          · exact .inl hcl
          · refine .inr ?_
            have := List.mem_of_getElem? (load_le hn).2.2
            rcases List.mem_append.1 this with k | k
            · exact absurd hz ((hc.open_ hcl).2 n k)
            · rw [List.mem_singleton.1 k] at hz; exact hz
        · exact h
    · cases hs
      rintro ⟨w, hw⟩
      simp only [List.mem_append, List.mem_singleton, Prod.mk.injEq] at hw
      rcases hw with hw | ⟨-, hw⟩
      · exact h ⟨w, hw⟩
      · cases hw
  | step i k =>
    obtain ⟨l1, c, l2, m1, v, o, hl, hi, he, rfl⟩ := step_split hs
    have hin : c ∈ m.calls := by rw [hl]; simp
    obtain ⟨f1, f2, f3, f4, f5, f6⟩ := exec_frame he
    have hcount := hc.open_
    rw [hl] at hcount
    simp only [counted_append, counted_cons] at hcount
    simp only [f5]
    intro hw
    have hbor : c.pc.owns = false → m.handles ≠ 0 := fun k => hb.borrow ⟨c, hin, k⟩
    cases hcl : m.closed with
    | true =>
      have : m1.closed = true := by
        rcases c with ⟨pc, vw⟩
        cases pc <;> simp only [World.exec] at he <;> (repeat split at he) <;> cases he <;>
          first | exact hcl | rfl
      exact .inl this
    | false =>
      have h0 : m.cur = 0 := (h hw).resolve_left (by simp [hcl])
      have hh := (hcount hcl).1
      rcases c with ⟨pc, vw⟩
      cases pc with
      | closeStore => cases he; exact .inr rfl
      | cloneAdd => have := hbor rfl; omega
      | dropSub => simp only [Pc.counted] at hh; omega
      | _ =>
        simp only [World.exec] at he
        (repeat split at he) <;> cases he <;> exact .inr h0

theorem early_runs {init : α} {es : List (Ev α)} {m : World α} (ha : Along init es CountOk)
    (h : (World.init init).runs es = some m) (w : Waker) (hw : (w, Poll.ready none) ∈ m.answers) :
    m.closed = true ∨ m.handles = 0 := by
  have := (along_inv (Inv := fun m => Base m ∧ Count m ∧
    ((∃ w, (w, Poll.ready none) ∈ m.answers) → m.closed = true ∨ m.cur = 0))
    ⟨base_runs (es := []) rfl, count_init init, by simp [World.init]⟩
    (fun _ _ _ ⟨i1, i2, i3⟩ hp hs => ⟨base_step i1 hs, count_step i1 i2 hp hs, early_step i1 i2 i3 hs⟩) ha h)
  obtain ⟨-, hc, he⟩ := this
  cases hcl : m.closed with
  | true => exact .inl rfl
  | false =>
    have h0 : m.cur = 0 := (he ⟨w, hw⟩).resolve_left (by simp [hcl])
    have := (hc.open_ hcl).1
    exact .inr (by omega)

theorem answers_of_zero {m : World α} {w : Waker} {v : Nat} {r : Poll (Option α)} (hb : Base m) (hi : m.r = .idle)
    (hvl : v ≤ m.last) (hval : m.value = none) (hz : ZeroFrom (m.old ++ [m.cur]) v) :
    m.Answers w v r ↔ r = .ready none := by
  rw [answers_iff hi hvl]
  simp only [mayAnswer, hval]
  have hmax : max (max m.rview v) m.valueView ≤ m.last :=
    Nat.max_le.2 ⟨Nat.max_le.2 ⟨hb.rview, hvl⟩, hb.vview⟩
  have hv' : v ≤ max (max m.rview v) m.valueView := by omega
  constructor
  · rintro ⟨k, n, hl, rfl⟩
    rw [(hz.mono hv').load hl]; rfl
  · rintro rfl
    refine ⟨m.last, m.cur, load_last hmax, ?_⟩
    rw [(hz.mono hv').load (load_last hmax)]; rfl

theorem answers_of_open {m : World α} {w : Waker} {v : Nat} {r : Poll (Option α)} (hb : Base m) (hi : m.r = .idle)
    (hvl : v ≤ m.last) (hval : m.value = none) (hz : ∀ n ∈ m.old ++ [m.cur], n ≠ 0) :
    m.Answers w v r ↔ r = .pending := by
  rw [answers_iff hi hvl]
  simp only [mayAnswer, hval]
  have hmax : max (max m.rview v) m.valueView ≤ m.last :=
    Nat.max_le.2 ⟨Nat.max_le.2 ⟨hb.rview, hvl⟩, hb.vview⟩
  constructor
  · rintro ⟨k, n, hl, rfl⟩
    rw [if_neg (hz n (List.mem_of_getElem? (load_le hl).2.2))]
  · rintro rfl
    exact ⟨m.last, m.cur, load_last hmax, by rw [if_neg (hz m.cur (by simp))]⟩

theorem answers_rest {init : α} {es : List (Ev α)} {m : World α} (ha : Along init es CountOk)
    (hr : (World.init init).runs es = some m) (hrest : AtRest m) (hval : m.value = none) (w : Waker) (v : Nat)
    (hvl : v ≤ m.last) (r : Poll (Option α)) :
    ((m.closed = true ∨ m.handles = 0) → m.returned ≤ v → (m.Answers w v r ↔ r = .ready none)) ∧
    (m.closed = false → m.handles ≠ 0 → (m.Answers w v r ↔ r = .pending)) := by
  obtain ⟨hb, hc⟩ := count_runs ha hr
  refine ⟨fun hcl hvr => ?_, fun hcl hh => ?_⟩
  · have hz : m.cur = 0 := by
      cases hcc : m.closed with
      | true => exact hc.zero hcc
      | false =>
        have := (hc.open_ hcc).1
        rw [hrest.1, counted_nil] at this
        rcases hcl with k | k
        · rw [hcc] at k; cases k
        · omega
    refine answers_of_zero hb hrest.2 hvl hval ?_
    rcases zk_runs ha hr hz with k | ⟨c, k, -⟩
    · exact k.mono hvr
    · rw [hrest.1] at k; cases k
  · refine answers_of_open hb hrest.2 hvl hval ?_
    have := hc.open_ hcl
    intro n hn
    rcases List.mem_append.1 hn with hn | hn
    · exact this.2 n hn
    · rw [List.mem_singleton.1 hn, this.1]; omega

/-- **C82**, without `close`.  In every release/acquire execution in which `close` is not called,
however stale the loads are: the end is answered only after all `Sender`s were dropped; while a
`Sender` is left, a poll that finds no value answers `Pending`; and when none is left, a poll whose
thread knows what the calls knew that have returned answers the end. -/
theorem C82_without_close (init : α) (es : List (Ev α)) (hn : ∀ v, .callClose v ∉ es) (m : World α)
    (hr : (World.init init).runs es = some m) :
    (∀ w, (w, Poll.ready none) ∈ m.answers → m.handles = 0) ∧
    (AtRest m → m.value = none → ∀ w v r, v ≤ m.last →
      (m.handles ≠ 0 → (m.Answers w v r ↔ r = .pending)) ∧
      (m.handles = 0 → m.returned ≤ v → (m.Answers w v r ↔ r = .ready none))) := by
  have ha := noClose_along (init := init) hn
  have hcl := (noClose_runs hn hr).1
  refine ⟨fun w hw => ?_, fun hrest hval w v r hvl => ?_⟩
  · exact (early_runs ha hr w hw).resolve_left (by simp [hcl])
  · have := answers_rest ha hr hrest hval w v hvl r
    exact ⟨this.2 hcl, fun k => this.1 (.inr k)⟩

/-! ## What holds for synchronised calls -/

/-- **C82 (partial)**, closing.  If every `clone` and `drop` knows what the calls knew that returned
before it started, and no `clone` or `drop` runs at the same time as a `close`: the end is answered
only after the channel was closed or all `Sender`s were dropped; and at rest, without a waiting value,
a poll whose thread knows what the calls knew that have returned answers the end iff that is so, and
`Pending` otherwise (the latter whatever its thread knows).  Missing: the overlaps, for which this is
false (C40), and polls that are not synchronised, for which it is false (`C82_stale_end`). -/
theorem C82_closed_partial (init : α) (es : List (Ev α)) (h1 : SyncedCalls init es)
    (h2 : NoCloseOverlap init es) (m : World α) (hr : (World.init init).runs es = some m) :
    (∀ w, (w, Poll.ready none) ∈ m.answers → m.closed = true ∨ m.handles = 0) ∧
    (AtRest m → m.value = none → ∀ w v r, v ≤ m.last →
      ((m.closed = true ∨ m.handles = 0) → m.returned ≤ v → (m.Answers w v r ↔ r = .ready none)) ∧
      (m.closed = false → m.handles ≠ 0 → (m.Answers w v r ↔ r = .pending))) :=
  ⟨fun w hw => early_runs (count_along h1 h2) hr w hw,
    fun hrest hval w v r hvl => answers_rest (count_along h1 h2) hr hrest hval w v hvl r⟩

/-- **C82 (partial)**, a stored value is not lost.  In every release/acquire execution, however stale the
loads are, in which no `notify` takes the waker while the poll is between taking the value and storing
its waker: at rest, if the last poll answered `Pending` with waker `w`, then no value waits or `w` was
woken after it was registered.  Missing: the window, for which this is false (C41). -/
theorem C82_send_not_lost_partial (init : α) (es : List (Ev α)) (h : NoWindow init es) (m : World α)
    (hr : (World.init init).runs es = some m) (hrest : AtRest m) (w : Waker)
    (hl : m.answers.getLast? = some (w, .pending)) : m.value = none ∨ w ∈ m.woken.drop m.regAt := by
  have hw := wk_send_runs h hr
  rcases hw.last (.inl hrest.2) w hl with ⟨-, k⟩ | ⟨c, k, -⟩ | k
  · refine .inl (Classical.byContradiction fun hn => ?_)
    obtain ⟨c, hc, -⟩ := k (.inl hn)
    rw [hrest.1] at hc; cases hc
  · rw [hrest.1] at k; cases k
  · exact .inr k

/-- **C82 (partial)**, nothing is lost.  If moreover the calls and polls are synchronised and do not
overlap as described (`SyncedCalls`, `NoCloseOverlap`, `SyncedPolls`, `NoPollOverlap`): at rest, if the
last poll answered `Pending` with waker `w`, then no value waits and the channel has not ended, or `w`
was woken after it was registered.  Missing: executions in which polls are not synchronised
(`C82_stale_end`) or overlap with a call that ends the channel (`C82_wider_window`), for which this is
false. -/
theorem C82_not_lost_partial (init : α) (es : List (Ev α)) (h1 : SyncedCalls init es)
    (h2 : NoCloseOverlap init es) (h3 : SyncedPolls init es) (h4 : NoPollOverlap init es) (m : World α)
    (hr : (World.init init).runs es = some m) (hrest : AtRest m) (w : Waker)
    (hl : m.answers.getLast? = some (w, .pending)) :
    (m.value = none ∧ m.closed = false ∧ m.handles ≠ 0) ∨ w ∈ m.woken.drop m.regAt := by
  have hw := wk_runs (count_along h1 h2) h3 h4 hr
  obtain ⟨-, hc⟩ := count_runs (count_along h1 h2) hr
  rcases hw.last (.inl hrest.2) w hl with ⟨-, k⟩ | ⟨c, k, -⟩ | k
  · have hno : ¬ News true m := by
      intro hn
      obtain ⟨c, hc, -⟩ := k hn
      rw [hrest.1] at hc; cases hc
    have hcur : m.cur ≠ 0 := fun h => hno (.inr ⟨rfl, h⟩)
    have hcl : m.closed = false := by
      cases hcc : m.closed with
      | false => rfl
      | true => exact absurd (hc.zero hcc) hcur
    refine .inl ⟨Classical.byContradiction fun h => hno (.inl h), hcl, fun hh => hcur ?_⟩
    rw [(hc.open_ hcl).1, hrest.1, counted_nil, hh]; rfl
  · rw [hrest.1] at k; cases k
  · exact .inr k

/-! ## Sequential consistency -/

/-- **C82**, the model of C39-C41 is the case in which every load reads the latest value: such an
execution is a schedule of that model, with the same states. -/
theorem C82_sequential (init : α) (es : List (Ev α)) (h : Fresh init es) (m : World α)
    (hr : (World.init init).runs es = some m) :
    (ChanConc.World.init init).runs (es.map Ev.erase) = some m.erase := by
  obtain ⟨os, hr⟩ := runs_runE hr
  have := runE_inv (step := World.step) (Inv := fun es os m =>
    runE World.step (World.init init) es = some (os, m) ∧
      (Fresh init es → runE ChanConc.World.step (ChanConc.World.init init) (es.map Ev.erase) = some (os, m.erase)))
    ⟨rfl, fun _ => rfl⟩
    (by
      rintro es os m e ⟨⟩ m' ⟨hr, hi⟩ hs
      refine ⟨runE_snoc_of hr hs, fun hf => ?_⟩
      rw [List.map_append]
      exact runE_snoc_of (hi (Along.prefix hf))
        (step_erase (base_runs (runs_of_runE hr)) (Along.last hf (runs_of_runE hr)) hs)) hr
  simp [ChanConc.World.runs, this.2 h]

/-- **C82**, and every schedule of that model is such an execution. -/
theorem C82_of_sequential (init : α) (es' : List (ChanConc.Ev α)) (M : ChanConc.World α)
    (hr : (ChanConc.World.init init).runs es' = some M) :
    ∃ es m, es.map Ev.erase = es' ∧ Fresh init es ∧ (World.init init).runs es = some m ∧ m.erase = M := by
  simp only [ChanConc.World.runs, Option.map_eq_some_iff] at hr
  obtain ⟨⟨os, M1⟩, hr, rfl⟩ := hr
  refine runE_inv (step := ChanConc.World.step) (Inv := fun es' os M =>
    ∃ es m, es.map Ev.erase = es' ∧ Fresh init es ∧ (World.init init).runs es = some m ∧ m.erase = M)
    ⟨[], World.init init, rfl, fun i e m he => by simp at he, rfl, rfl⟩ ?_ hr
  rintro es' os M e' ⟨⟩ M' ⟨es, m, rfl, hf, hr, rfl⟩ hs
  obtain ⟨e, m', rfl, rfl, hs, hfe⟩ := step_lift (base_runs hr) hs
  obtain ⟨os, hr'⟩ := runs_runE hr
  refine ⟨es ++ [e], m', by simp, ?_, runs_of_runE (runE_snoc_of hr' hs), rfl⟩
  intro i e1 m1 he1 hr1
  by_cases hi : i < es.length
  · rw [List.getElem?_append_left hi] at he1
    rw [List.take_append_of_le_length (by omega)] at hr1
    exact hf i e1 m1 he1 hr1
  · rw [List.getElem?_append_right (by omega), List.getElem?_singleton] at he1
    split at he1
    · have hi : i = es.length := by omega
      subst hi
      cases he1
      simp only [List.take_left] at hr1
      rw [hr] at hr1; cases hr1
      exact hfe
    · cases he1

/-! ## What is false -/

/-- Checks a condition along an execution. -/
def check (p : World α → Ev α → Bool) (m : World α) : List (Ev α) → Bool
  | [] => true
  | e :: es => p m e && match m.step e with
    | none => true
    | some (_, m') => check p m' es

theorem along_of_check {init : α} {es : List (Ev α)} {P : World α → Ev α → Prop} (p : World α → Ev α → Bool)
    (hp : ∀ m e, p m e = true → P m e) (h : check p (World.init init) es = true) : Along init es P := by
  have key : ∀ (es : List (Ev α)) (m0 : World α), check p m0 es = true →
      ∀ i e m, es[i]? = some e → m0.runs (es.take i) = some m → P m e := by
    intro es
    induction es with
    | nil => intro m0 _ i e m he; simp at he
    | cons x es ih =>
      intro m0 hc i e m he hr
      simp only [check, Bool.and_eq_true] at hc
      cases i with
      | zero =>
        simp only [List.getElem?_cons_zero, Option.some.injEq] at he
        cases hr
        subst he
        exact hp _ _ hc.1
      | succ i =>
        simp only [List.getElem?_cons_succ] at he
        rw [List.take_succ_cons] at hr
        cases hs : m0.step x with
        | none => rw [runs_cons_none hs] at hr; cases hr
        | some q =>
          obtain ⟨⟨⟩, m1⟩ := q
          rw [runs_cons hs] at hr
          exact ih m1 (by simpa [hs] using hc.2) i e m he hr
  exact key es _ h

def syncedCallsB (m : World Nat) : Ev Nat → Bool
  | .callClone v => m.returned ≤ v
  | .callDrop v => m.returned ≤ v
  | _ => true

def syncedPollsB (m : World Nat) : Ev Nat → Bool
  | .callPoll _ v => m.returned ≤ v
  | _ => true

def noCloseOverlapB (m : World Nat) : Ev Nat → Bool
  | .step j _ => m.calls[j]?.map (·.pc) ≠ some .closeStore || m.calls.all fun c => !c.pc.counting
  | .callClone _ => m.calls.all fun c => !c.pc.closing
  | .callDrop _ => m.calls.all fun c => !c.pc.closing
  | _ => true

def Pc.isNotify : Pc α → Bool
  | .notify _ => true
  | _ => false

def Pc.isWake : Pc α → Bool
  | .wake _ _ => true
  | _ => false

def noPollOverlapB (m : World Nat) : Ev Nat → Bool
  | .step j _ => (m.calls[j]?.all fun c => !c.pc.isNotify) || m.r = .idle
  | .callPoll _ _ => m.calls.all fun c => !c.pc.isWake
  | _ => true

def noWindowB (m : World Nat) : Ev Nat → Bool
  | .step j _ => (m.calls[j]?.all fun c => !c.pc.isNotify) ||
    match m.r with
    | .has _ => false
    | .store _ => false
    | _ => true
  | _ => true

theorem syncedCalls_of {es : List (Ev Nat)} {n : Nat} (h : check syncedCallsB (World.init n) es = true) :
    SyncedCalls n es := by
  refine along_of_check _ (fun m e he v hv => ?_) h
  rcases hv with rfl | rfl <;> simpa [syncedCallsB] using he

theorem syncedPolls_of {es : List (Ev Nat)} {n : Nat} (h : check syncedPollsB (World.init n) es = true) :
    SyncedPolls n es := by
  refine along_of_check _ (fun m e he w v hv => ?_) h
  subst hv; simpa [syncedPollsB] using he

theorem noCloseOverlap_of {es : List (Ev Nat)} {n : Nat} (h : check noCloseOverlapB (World.init n) es = true) :
    NoCloseOverlap n es := by
  refine along_of_check _ (fun m e he => ⟨fun j k c hv hc hp => ?_, fun v hv => ?_⟩) h
  · subst hv; simpa [noCloseOverlapB, hc, hp] using he
  · rcases hv with rfl | rfl <;> simpa [noCloseOverlapB] using he

theorem noPollOverlap_of {es : List (Ev Nat)} {n : Nat} (h : check noPollOverlapB (World.init n) es = true) :
    NoPollOverlap n es := by
  refine along_of_check _ (fun m e he => ⟨fun j k c op hv hc hp => ?_, fun w v hv c hc op w' hp => ?_⟩) h
  · subst hv; simpa [noPollOverlapB, hc, hp, Pc.isNotify] using he
  · subst hv
    simp only [noPollOverlapB, List.all_eq_true] at he
    have := he c hc
    simp [hp, Pc.isWake] at this

theorem noWindow_of {es : List (Ev Nat)} {n : Nat} (h : check noWindowB (World.init n) es = true) :
    NoWindow n es := by
  refine along_of_check _ (fun m e he j k c op hv hc hp w => ?_) h
  subst hv
  have hn : c.pc.isNotify = true := by rw [hp]; rfl
  simp only [noWindowB, hc] at he
  constructor <;> intro k <;> simp [k, hn] at he

/-- The receiver takes the initial value.  The only `Sender` is dropped: that call sets the counter to
0, finds no waker, and returns.  Then the receiver polls: its thread has not heard of the drop, and
reads 1. -/
def staleEnd : List (Ev Nat) :=
  [.callPoll 9 0, .rstep 0, .callDrop 0, .step 0 0, .step 0 0, .step 0 0,
   .callPoll 1 0, .rstep 0, .rstep 0, .rstep 0]

/-- **C82, what is false.**  No two calls overlap, and yet the end is lost: the last `Sender` was
dropped, the receiver sleeps, and nobody is left to wake it.  Under sequential consistency this cannot
happen (C41). -/
theorem C82_stale_end :
    (SyncedCalls 0 staleEnd ∧ NoCloseOverlap 0 staleEnd ∧ NoPollOverlap 0 staleEnd) ∧
    ∃ m, (World.init 0).runs staleEnd = some m ∧ AtRest m ∧ m.answers.getLast? = some (1, .pending) ∧
      m.handles = 0 ∧ m.value = none ∧ m.woken = [] :=
  ⟨⟨syncedCalls_of rfl, noCloseOverlap_of rfl, noPollOverlap_of rfl⟩, _, rfl, ⟨rfl, rfl⟩, rfl, rfl, rfl, rfl⟩

/-- The poll starts; the only `Sender` is dropped, finds no waker, and returns; then the poll goes on,
and reads 1. -/
def widerWindow : List (Ev Nat) :=
  [.callPoll 9 0, .rstep 0, .callDrop 0, .step 0 0, .step 0 0, .callPoll 1 0, .step 0 0,
   .rstep 0, .rstep 0, .rstep 0]

/-- **C82, what is false.**  All calls and polls are synchronised, and the conditions of C40 and C41 are
met: the waker is taken before the poll takes the value.  Yet the end is lost: the window in which
it can be lost is the whole poll. -/
theorem C82_wider_window :
    (SyncedCalls 0 widerWindow ∧ SyncedPolls 0 widerWindow ∧ NoCloseOverlap 0 widerWindow ∧
      NoWindow 0 widerWindow) ∧
    ∃ m, (World.init 0).runs widerWindow = some m ∧ AtRest m ∧ m.answers.getLast? = some (1, .pending) ∧
      m.handles = 0 ∧ m.value = none ∧ m.woken = [] :=
  ⟨⟨syncedCalls_of rfl, syncedPolls_of rfl, noCloseOverlap_of rfl, noWindow_of rfl⟩,
    _, rfl, ⟨rfl, rfl⟩, rfl, rfl, rfl, rfl⟩

/-- The channel is closed, and `close` returns.  Then the `Sender` is cloned by a thread that has not
heard of that, and reads 1. -/
def unsyncedClone : List (Ev Nat) :=
  [.callPoll 9 0, .rstep 0, .callClose 0, .step 0 0, .step 0 0, .step 0 0,
   .callClone 0, .step 0 0, .step 0 0, .step 0 0]

/-- **C82, what would be false** if calls were not synchronised (they are, by the counter of the `Arc`:
see the comment at `SyncedCalls`): no two calls overlap, and yet the channel is open again. -/
theorem C82_unsynced_clone :
    (NoCloseOverlap 0 unsyncedClone ∧ SyncedPolls 0 unsyncedClone ∧ NoPollOverlap 0 unsyncedClone) ∧
    ∃ m, (World.init 0).runs unsyncedClone = some m ∧ AtRest m ∧ m.closed = true ∧
      m.Answers 1 m.last .pending := by
  refine ⟨⟨noCloseOverlap_of rfl, syncedPolls_of rfl, noPollOverlap_of rfl⟩, _, rfl, ⟨rfl, rfl⟩, rfl, ?_⟩
  exact ⟨[0, 2, 0], _, rfl, rfl, rfl⟩

/-! ## The hypotheses can be met -/

/-- A `clone`; meanwhile a poll answers `Pending` and a `send` stores a value, both reading an old value
of the counter; the receiver is woken.  The channel is closed, and the receiver woken.  Another `send`
reads an old value of the counter and stores its value, although the channel is closed.  Both handles
are dropped; the receiver takes the value and learns of the end. -/
def goodRun : List (Ev Nat) :=
  [.callPoll 9 0, .rstep 0, .callClone 0, .step 0 0, .step 0 0,
   .callPoll 1 0, .rstep 0, .callSend 5 0, .step 1 0, .step 1 0, .rstep 0, .rstep 0,
   .step 0 0, .step 0 0, .step 0 0, .callPoll 1 1, .rstep 0, .callPoll 2 1, .rstep 0, .rstep 1, .rstep 0,
   .callClose 1, .step 0 1, .step 0 0, .step 0 0, .step 0 0,
   .callSend 7 0, .step 0 1, .step 0 0, .step 0 0, .callDrop 2, .step 0 2, .callDrop 2, .step 0 2,
   .callPoll 2 2, .rstep 0, .callPoll 2 2, .rstep 0, .rstep 2]

example : ((World.init 0).runs goodRun).map (fun m => (m.answers, m.woken, m.stored, m.handles, m.closed)) =
    some ([(9, .ready (some 0)), (1, .pending), (1, .ready (some 5)), (2, .pending), (2, .ready (some 7)),
      (2, .ready none)], [1, 2], [0, 5, 7], 0, true) := by rfl

/-- All conditions are met, by the whole execution and by its beginnings that end in `Pending` and in a
rest without value. -/
example : SyncedCalls 0 goodRun ∧ NoCloseOverlap 0 goodRun ∧ SyncedPolls 0 goodRun ∧ NoPollOverlap 0 goodRun ∧
    NoWindow 0 goodRun :=
  ⟨syncedCalls_of rfl, noCloseOverlap_of rfl, syncedPolls_of rfl, noPollOverlap_of rfl, noWindow_of rfl⟩

/-- The waker of the last poll was woken; a value waits. -/
example : ∃ m, (World.init 0).runs (goodRun.take 15) = some m ∧ AtRest m ∧
    m.answers.getLast? = some (1, .pending) ∧ m.value = some 5 ∧ m.woken.drop m.regAt = [1] :=
  ⟨_, rfl, ⟨rfl, rfl⟩, rfl, rfl, rfl⟩

/-- The waker of the last poll was woken; the channel is closed; a poll answers the end. -/
example : ∃ m, (World.init 0).runs (goodRun.take 26) = some m ∧ AtRest m ∧
    m.answers.getLast? = some (2, .pending) ∧ m.value = none ∧ m.closed = true ∧ m.woken.drop m.regAt = [2] ∧
    m.returned = 2 ∧ m.last = 2 ∧ m.Answers 3 2 (.ready none) :=
  ⟨_, rfl, ⟨rfl, rfl⟩, rfl, rfl, rfl, rfl, rfl, rfl, [0, 2], _, rfl, rfl, rfl⟩

/-- Without `close`: both handles dropped; the receiver may not have heard of it, or may. -/
def dropRun : List (Ev Nat) :=
  [.callPoll 9 0, .rstep 0, .callClone 0, .step 0 0, .step 0 0, .step 0 0, .callDrop 0, .callDrop 1, .step 0 0,
   .step 1 1, .step 1 0, .step 0 0, .step 0 0]

example : (∀ v, Ev.callClose v ∉ dropRun) ∧ ∃ m, (World.init 0).runs dropRun = some m ∧ AtRest m ∧ m.value = none ∧
    m.handles = 0 ∧ m.returned = 3 ∧ m.last = 3 ∧ m.Answers 1 3 (.ready none) ∧ m.Answers 1 0 .pending :=
  ⟨by simp [dropRun], _, rfl, ⟨rfl, rfl⟩, rfl, rfl, rfl, rfl, ⟨[0, 3], _, rfl, rfl, rfl⟩,
    ⟨[0, 1, 0], _, rfl, rfl, rfl⟩⟩

/-- A schedule whose loads read the latest value: the same as under sequential consistency. -/
example : ∃ (es : List (Ev Nat)) (m : World Nat), es.length = 6 ∧ Fresh 0 es ∧ (World.init 0).runs es = some m ∧
    m.cur = 2 := by
  refine ⟨[.callPoll 9 0, .rstep 0, .callClone 0, .step 0 0, .step 0 0, .step 0 1], _, rfl, ?_, rfl, rfl⟩
  refine along_of_check (fun m e => match e with
    | .step _ k => k = m.last
    | .rstep k => k = m.last
    | _ => true) (fun m e he => ⟨fun j k h => ?_, fun k h => ?_⟩) rfl
  · subst h; simpa using he
  · subst h; simpa using he

end Verif.ChanRA
