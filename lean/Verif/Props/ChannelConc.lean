import Verif.ChannelConcProofs

/-!
# C40, C41: `channel`, every interleaving
-/

namespace Verif.ChanConc

variable {α : Type}

/-- The claim of C40 for a schedule: at rest, if the channel was closed and no value is waiting, a
poll answers the end. -/
def StaysClosed (init : α) (es : List (Ev α)) : Prop :=
  ∀ m w, (World.init init).runs es = some m → AtRest m → m.closed = true → m.value = none →
    m.pollNow w = some (.ready none)

/-- The receiver takes the initial value.  A `clone` checks `has_senders`; a `close` runs from
beginning to end; the `clone` increments the counter. -/
def reopen : List (Ev Nat) :=
  [.callPoll 9, .rstep, .callClone, .step 0, .callClose, .step 1, .step 1, .step 1, .step 0, .step 0]

/-- **C40 is false.**  The channel is open again. -/
theorem C40_reopened : ¬ StaysClosed 0 reopen := by
  intro h
  have := h _ 1 rfl ⟨rfl, rfl⟩ rfl rfl
  cases this

/-- Two handles; one is being dropped while the other closes the channel, then is dropped too. -/
def neverEnds : List (Ev Nat) :=
  [.callPoll 9, .rstep, .callClone, .step 0, .step 0, .step 0,
   .callDrop, .step 0, .callClose, .step 1, .step 1, .step 1, .step 0,
   .callDrop, .step 0, .step 0]

/-- **C40 is false**, worse: the counter went below zero, no `Sender` is left, the channel was closed,
and yet the receiver waits, and will for ever: nobody is left to wake it. -/
theorem C40_never_ends :
    ∃ m, (World.init 0).runs neverEnds = some m ∧ AtRest m ∧ m.closed = true ∧ m.handles = 0 ∧
      m.value = none ∧ m.pollNow 1 = some .pending :=
  ⟨_, rfl, ⟨rfl, rfl⟩, rfl, rfl, rfl, rfl⟩

theorem pollNow_eq (m : World α) (w : Waker) (hr : AtRest m) :
    m.pollNow w = some (match m.value with
      | some a => .ready (some a)
      | none => if m.senders = 0 then .ready none else .pending) := by
  obtain ⟨value, waker, senders, calls, r, handles, closed, answers, woken, regAt⟩ := m
  obtain ⟨rfl, rfl⟩ := hr
  cases value with
  | some a => simp [World.pollNow, World.runs, runE, World.step]
  | none =>
    by_cases hz : senders = 0
    · simp [World.pollNow, World.runs, runE, World.step, hz]
    · simp [World.pollNow, World.runs, runE, World.step, hz]

/-- **C40 (partial).**  In every schedule in which no `close` stores while a `clone` or `drop` is
between its check and its change of the counter, with any number of handles and of calls running at
the same time: at rest a poll produces the waiting value; without one it answers the end iff the
channel was closed or no `Sender` is left, and otherwise `Pending`.  In particular the channel stays
closed.  Missing: the overlaps, for which this is false. -/
theorem C40_no_overlap_partial (init : α) (es : List (Ev α)) (h : NoOverlap init es) (m : World α)
    (hr : (World.init init).runs es = some m) (hrest : AtRest m) (w : Waker) :
    (∀ a, m.value = some a → m.pollNow w = some (.ready (some a))) ∧
    (m.value = none → (m.closed = true ∨ m.handles = 0) → m.pollNow w = some (.ready none)) ∧
    (m.value = none → m.closed = false → m.handles ≠ 0 → m.pollNow w = some .pending) := by
  obtain ⟨os, hr⟩ := runs_runE hr
  obtain ⟨-, hc⟩ := count_runs h hr
  rw [pollNow_eq m w hrest]
  refine ⟨fun a ha => by simp [ha], fun hv hcl => ?_, fun hv hcl hh => ?_⟩
  · have : m.senders = 0 := by
      cases hcc : m.closed with
      | true => exact (hc.closed hcc).1
      | false =>
        rw [hc.open_ hcc, hrest.1]
        rcases hcl with k | k
        · rw [hcc] at k; cases k
        · simp [k, counted_nil]
    simp [hv, this]
  · have : m.senders ≠ 0 := by
      rw [hc.open_ hcl, hrest.1, counted_nil]; omega
    simp [hv, this]

theorem C40_stays_closed_partial (init : α) (es : List (Ev α)) (h : NoOverlap init es) :
    StaysClosed init es := by
  intro m w hr hrest hcl hv
  exact (C40_no_overlap_partial init es h m hr hrest w).2.1 hv (.inl hcl)

/-- **C40 (partial).**  If `close` is never called then every interleaving counts the handles
correctly: the receiver ends iff all `Sender`s were dropped. -/
theorem C40_without_close_partial (init : α) (es : List (Ev α)) (h : .callClose ∉ es) (m : World α)
    (hr : (World.init init).runs es = some m) (hrest : AtRest m) (w : Waker) (hv : m.value = none) :
    (m.handles = 0 → m.pollNow w = some (.ready none)) ∧ (m.handles ≠ 0 → m.pollNow w = some .pending) := by
  have key : ∀ es (m : World α) os, .callClose ∉ es → runE World.step (World.init init) es = some (os, m) →
      .closeHas ∉ m.calls ∧ .closeStore ∉ m.calls ∧ m.closed = false := by
    intro es m os hn hr
    refine runE_inv (step := World.step) (Inv := fun es _ (m : World α) => .callClose ∉ es →
      .closeHas ∉ m.calls ∧ .closeStore ∉ m.calls ∧ m.closed = false) (by simp [World.init]) ?_ hr hn
    rintro es os m e ⟨⟩ m' ih hs hn
    obtain ⟨i1, i2, i3⟩ := ih fun k => hn (by simp [k])
    cases e with
    | callClose => simp at hn
    | callSend a => simp only [World.step] at hs; split at hs <;> cases hs; simpa [i3] using ⟨i1, i2⟩
    | callClone => simp only [World.step] at hs; split at hs <;> cases hs; simpa [i3] using ⟨i1, i2⟩
    | callDrop => simp only [World.step] at hs; split at hs <;> cases hs; simpa [i3] using ⟨i1, i2⟩
    | callPoll w => simp only [World.step] at hs; split at hs <;> cases hs; exact ⟨i1, i2, i3⟩
    | rstep =>
      simp only [World.step] at hs
      split at hs <;> (try split at hs) <;> cases hs <;> exact ⟨i1, i2, i3⟩
    | step i =>
      obtain ⟨l1, pc, l2, m1, o, hl, -, he, rfl⟩ := step_split hs
      rw [hl] at i1 i2
      simp only [List.mem_append, List.mem_cons, not_or] at i1 i2 ⊢
      have ho : (Pc.closeHas ∉ o.toList ∧ Pc.closeStore ∉ o.toList) ∧ m1.closed = m.closed := by
        cases pc <;> simp only [World.exec] at he
        case closeHas => exact absurd rfl i1.2.1
        case closeStore => exact absurd rfl i2.2.1
        all_goals first
          | (cases he; exact ⟨by simp, rfl⟩)
          | (split at he <;> cases he <;> exact ⟨by simp, rfl⟩)
      exact ⟨⟨⟨i1.1, ho.1.1⟩, i1.2.2⟩, ⟨⟨i2.1, ho.1.2⟩, i2.2.2⟩, by rw [ho.2]; exact i3⟩
  have hno : NoOverlap init es := by
    intro i j m1 he hr1 hc
    obtain ⟨os1, hr1⟩ := runs_runE hr1
    have := (key (es.take i) m1 os1 (fun k => h (List.mem_of_mem_take k)) hr1).2.1
    exact absurd (List.mem_of_getElem? hc) this
  have := C40_no_overlap_partial init es hno m hr hrest w
  obtain ⟨os, hr⟩ := runs_runE hr
  have hcl := (key es m os h hr).2.2
  exact ⟨fun k => this.2.1 hv (.inr k), fun k => this.2.2 hv hcl k⟩

/-- The claim of C41 for a schedule: at rest, if the last poll answered `Pending`, either there is
nothing to see, or its waker was woken after it was registered. -/
def NotLost (init : α) (es : List (Ev α)) : Prop :=
  ∀ m w, (World.init init).runs es = some m → AtRest m → m.answers.getLast? = some (w, .pending) →
    (m.value = none ∧ m.senders ≠ 0) ∨ w ∈ m.woken.drop m.regAt

/-- The receiver finds no value and sees that there is a sender; a `send` stores its value and finds
no waker to wake; the receiver stores its waker and answers `Pending`. -/
def lostSend : List (Ev Nat) :=
  [.callPoll 9, .rstep, .callPoll 1, .rstep, .rstep, .callSend 5, .step 0, .step 0, .step 0, .rstep]

/-- **C41 is false.**  The value 5 waits, the receiver sleeps, nobody is going to wake it. -/
theorem C41_lost_wakeup : ¬ NotLost 0 lostSend := by
  intro h
  have := h _ 1 rfl ⟨rfl, rfl⟩ rfl
  simp at this

/-- The same with the end: the last `Sender` is dropped in the window. -/
def lostEnd : List (Ev Nat) :=
  [.callPoll 9, .rstep, .callPoll 1, .rstep, .rstep, .callDrop, .step 0, .step 0, .step 0, .rstep]

theorem C41_lost_end : ¬ NotLost 0 lostEnd := by
  intro h
  have := h _ 1 rfl ⟨rfl, rfl⟩ rfl
  simp at this

/-- **C41 (partial).**  In every schedule in which no `notify` takes the waker while the poll is
between taking the value and storing its waker (and no `close` overlaps as in C40): the wake-up is
not lost.  Missing: these overlaps, for which the claim is false. -/
theorem C41_no_window_partial (init : α) (es : List (Ev α)) (h1 : NoOverlap init es) (h2 : NoWindow init es) :
    NotLost init es := by
  intro m w hr hrest hl
  obtain ⟨os, hr⟩ := runs_runE hr
  have hw := wk_runs h1 h2 hr
  rcases hw.last (.inl hrest.2) w hl with ⟨_, k⟩ | ⟨b, k⟩ | k
  · left
    refine Classical.byContradiction fun hn => ?_
    have : News m := by
      by_cases hv : m.value = none
      · exact .inr (Classical.byContradiction fun hz => hn ⟨hv, hz⟩)
      · exact .inl hv
    obtain ⟨b, hb⟩ := k this
    rw [hrest.1] at hb; simp at hb
  · rw [hrest.1] at k; simp at k
  · exact .inr k

/-- A schedule with much overlap that meets both conditions: while a poll registers its waker a `send`
is in progress (its `notify` comes afterwards), and a `clone` and a `drop` overlap each other. -/
def busy : List (Ev Nat) :=
  [.callPoll 9, .rstep, .callPoll 1, .callSend 5, .step 0, .rstep, .callClone, .step 0, .step 1, .rstep, .step 1, .rstep,
   .step 1, .callDrop, .step 0, .step 1, .step 0, .step 0]

example : ((World.init 0).runs busy).map (fun m => (m.answers, m.woken, m.value, m.handles, m.senders, m.calls)) =
    some ([(9, .ready (some 0)), (1, .pending)], [1], some 5, 1, 1, []) := rfl

example : NoOverlap 0 busy := by
  intro i j m1 he hr hc
  match i, he with
  | 4, he | 7, he | 8, he | 10, he | 12, he | 14, he | 15, he | 16, he | 17, he =>
    cases he; cases hr; cases hc
  | 0, he | 1, he | 2, he | 3, he | 5, he | 6, he | 9, he | 11, he | 13, he => cases he
  | n + 18, he => cases he

example : NoWindow 0 busy := by
  intro i j m1 b he hr hc w
  match i, he with
  | 4, he | 7, he | 8, he | 10, he | 12, he | 14, he | 15, he | 16, he | 17, he =>
    cases he; cases hr
    first
      | (cases hc; done)
      | exact ⟨by simp, by simp⟩
  | 0, he | 1, he | 2, he | 3, he | 5, he | 6, he | 9, he | 11, he | 13, he => cases he
  | n + 18, he => cases he

/-! ## No wake-up too many -/

/-- How many polls with waker `w` answered `Pending`. -/
def pendings (w : Waker) : List (Waker × Poll (Option α)) → Nat
  | [] => 0
  | (v, .pending) :: l => (if v = w then 1 else 0) + pendings w l
  | (_, .ready _) :: l => pendings w l

theorem pendings_append (w : Waker) (l l' : List (Waker × Poll (Option α))) :
    pendings w (l ++ l') = pendings w l + pendings w l' := by
  induction l with
  | nil => simp [pendings]
  | cons x l ih =>
    obtain ⟨v, r⟩ := x
    cases r <;> simp only [List.cons_append, pendings, ih] <;> omega

/-- The call is about to wake `w`. -/
def Pc.wakes (w : Waker) : Pc α → Bool
  | .wake _ v => v == w
  | _ => false

/-- **C41**, nobody is woken without a reason: in every interleaving, a waker has been woken at most as
often as polls with it answered `Pending`. -/
theorem C41_wakes_bounded (init : α) (es : List (Ev α)) (m : World α)
    (hr : (World.init init).runs es = some m) (w : Waker) : m.woken.count w ≤ pendings w m.answers := by
  obtain ⟨os, hr⟩ := runs_runE hr
  have key := runE_inv (step := World.step) (Inv := fun _ _ (m : World α) =>
      m.woken.count w + m.calls.countP (Pc.wakes w) + (if m.waker = some w then 1 else 0) ≤
        pendings w m.answers)
    (by simp [World.init]) (fun es os m e o m' ih hs => by
      obtain ⟨⟩ := o
      cases e with
      | callClose => simp only [World.step] at hs; split at hs <;> cases hs; simpa [Pc.wakes] using ih
      | callSend a => simp only [World.step] at hs; split at hs <;> cases hs; simpa [Pc.wakes] using ih
      | callClone => simp only [World.step] at hs; split at hs <;> cases hs; simpa [Pc.wakes] using ih
      | callDrop => simp only [World.step] at hs; split at hs <;> cases hs; simpa [Pc.wakes] using ih
      | callPoll v => simp only [World.step] at hs; split at hs <;> cases hs; exact ih
      | rstep =>
        simp only [World.step] at hs
        split at hs
        · cases hs
        · split at hs <;> cases hs <;> simp only [pendings_append, pendings] <;> omega
        · split at hs <;> cases hs <;> simp only [pendings_append, pendings] <;> omega
        · cases hs
          rename_i v _
          simp only [pendings_append, pendings, Option.some.injEq]
          split at ih <;> omega
      | step i =>
        obtain ⟨l1, pc, l2, m1, o, hl, -, he, rfl⟩ := step_split hs
        rw [hl] at ih
        simp only [List.countP_append, List.countP_cons] at ih ⊢
        have : m1.answers = m.answers ∧
            m1.woken.count w + o.toList.countP (Pc.wakes w) + (if m1.waker = some w then 1 else 0) ≤
            m.woken.count w + (if Pc.wakes w pc = true then 1 else 0) + (if m.waker = some w then 1 else 0) := by
          cases pc <;> simp only [World.exec] at he
          case notify b =>
            split at he <;> cases he
            · rename_i v hv
              simp only [hv, Option.toList, List.countP_cons, List.countP_nil, Pc.wakes, beq_iff_eq,
                Option.some.injEq, true_and]
              simp
            · simp [Pc.wakes]
          case wake b v =>
            cases he
            simp only [Option.toList, List.countP_nil, Pc.wakes, beq_iff_eq, List.count_append,
              List.count_singleton, true_and]
            simp
          all_goals first
            | (cases he; simp [Pc.wakes])
            | (split at he <;> cases he <;> simp [Pc.wakes])
        rw [this.1]
        have := this.2
        omega) hr
  have := key
  omega

/-- The bound is met: in the schedule above one poll answered `Pending` and its waker was woken once. -/
example : ((World.init 0).runs busy).map (fun m => (m.woken.count 1, pendings 1 m.answers)) =
    some (1, 1) := rfl

end Verif.ChanConc
