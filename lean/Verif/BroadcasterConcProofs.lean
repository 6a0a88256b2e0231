import Verif.BroadcasterConcSpec

/-!
# `Broadcaster`, interleaving model: proofs
-/

namespace Verif.BcConc

variable {α : Type}

theorem runs_runE {m m' : World α} {es : List Ev} (h : m.runs es = some m') :
    ∃ os, runE World.step m es = some (os, m') := by
  simp only [World.runs, Option.map_eq_some_iff] at h
  obtain ⟨⟨os, m1⟩, h, rfl⟩ := h
  exact ⟨os, h⟩

theorem runs_of_runE {m m' : World α} {es : List Ev} {os : List Unit}
    (h : runE World.step m es = some (os, m')) : m.runs es = some m' := by simp [World.runs, h]

/-- `new` has returned the subscriber. -/
def Pc.live : Pc → Bool
  | .unborn => false
  | .make => false
  | _ => true

/-- Every schedule. -/
structure Inv (m : World α) : Prop where
  epoch : m.epoch = 0 ↔ m.values = []
  value : m.value = m.values.getLast?
  reg : ∀ i, (m.subs i).pc.live = true → i ∈ m.wakers
  fresh : ∀ i, (m.subs i).pc.live = false → (m.subs i).answers = []
  rlen : ∀ i, (m.subs i).regAt ≤ (m.subs i).woken.length
  sub : ∀ i, (m.subs i).epoch ≤ m.epoch ∧ (m.subs i).got ≤ m.values.length ∧
    ((m.subs i).epoch = m.epoch ↔ (m.subs i).got = m.values.length)
  val : ∀ i w a, (w, Poll.ready (some a)) ∈ (m.subs i).answers → a ∈ m.values

/-- The part of the invariant about one subscriber. -/
structure SubOk (m : World α) (i : Nat) (s : Sub α) : Prop where
  reg : s.pc.live = true → i ∈ m.wakers
  fresh : s.pc.live = false → s.answers = []
  rlen : s.regAt ≤ s.woken.length
  sub : s.epoch ≤ m.epoch ∧ s.got ≤ m.values.length ∧ (s.epoch = m.epoch ↔ s.got = m.values.length)
  val : ∀ w a, (w, Poll.ready (some a)) ∈ s.answers → a ∈ m.values

theorem Inv.ok {m : World α} (h : Inv m) (i : Nat) : SubOk m i (m.subs i) :=
  ⟨h.reg i, h.fresh i, h.rlen i, h.sub i, h.val i⟩

theorem Inv.upd {m : World α} (h : Inv m) {i : Nat} {s : Sub α} (hs : SubOk m i s) : Inv (m.upd i s) := by
  have key : ∀ j, SubOk m j (if j = i then s else m.subs j) := by
    intro j
    split
    · rename_i k; subst k; exact hs
    · exact h.ok j
  exact ⟨h.epoch, h.value, fun j => (key j).reg, fun j => (key j).fresh, fun j => (key j).rlen,
    fun j => (key j).sub, fun j => (key j).val⟩

theorem inv_pollSignal {m : World α} (h : Inv m) : Inv m.pollSignal := by
  unfold World.pollSignal
  split
  · generalize burst m.todo = b
    obtain ⟨vs, alive, rest⟩ := b
    refine ⟨?_, ?_, h.reg, h.fresh, h.rlen, fun i => ?_, fun i w a ha => ?_⟩
    · cases vs with
      | nil => simpa using h.epoch
      | cons x l => simp
    · show _ = (m.values ++ vs).getLast?
      rw [List.getLast?_append, h.value]
    · obtain ⟨h1, h2, h3⟩ := h.sub i
      cases vs with
      | nil => simpa using ⟨h1, h2, h3⟩
      | cons x l =>
        simp only [List.isEmpty_cons, List.length_append, List.length_cons]
        refine ⟨by simp; omega, by omega, ?_⟩
        simp only [Bool.false_eq_true, if_false]
        constructor <;> intro k <;> omega
    · exact List.mem_append_left _ (h.val i w a ha)
  · exact h

theorem decideSub_ok {m : World α} (h : Inv m) {i : Nat} {w : Waker} (hl : (m.subs i).pc.live = true) :
    SubOk m i (m.decideSub i w) := by
  unfold World.decideSub
  have hi := h.ok i
  simp only
  split
  · split
    · refine ⟨fun _ => hi.reg hl, fun k => (by cases k), hi.rlen, hi.sub, fun w' a ha => ?_⟩
      simp at ha
      exact hi.val w' a ha
    · refine ⟨fun _ => hi.reg hl, fun k => (by cases k), Nat.le_refl _, hi.sub, fun w' a ha => ?_⟩
      simp at ha
      exact hi.val w' a ha
  · refine ⟨fun _ => hi.reg hl, fun k => (by cases k), hi.rlen, ⟨Nat.le_refl _, Nat.le_refl _, by simp⟩,
      fun w' a ha => ?_⟩
    simp at ha
    rcases ha with ha | ⟨-, ha⟩
    · exact hi.val w' a ha
    · rw [h.value] at ha
      exact List.mem_of_getLast? ha.symm

/-- Only fields that do not matter change. -/
theorem Inv.congr {m m' : World α} (h : Inv m) (h1 : m'.epoch = m.epoch) (h2 : m'.values = m.values)
    (h3 : m'.value = m.value) (h4 : m'.wakers = m.wakers) (h5 : m'.subs = m.subs) : Inv m' := by
  constructor
  all_goals simp only [h1, h2, h3, h4, h5]
  · exact h.epoch
  · exact h.value
  · exact h.reg
  · exact h.fresh
  · exact h.rlen
  · exact h.sub
  · exact h.val

theorem inv_step {m m' : World α} {e : Ev} (h : Inv m) (hs : m.step e = some ((), m')) : Inv m' := by
  cases e with
  | wake =>
    simp only [World.step] at hs
    split at hs <;> cases hs
    exact h.congr rfl rfl rfl rfl rfl
  | nstep =>
    simp only [World.step] at hs
    split at hs <;> cases hs
    rename_i n _
    unfold World.nstep
    split
    · rename_i i w _
      have hi := h.ok i
      have : SubOk m i { m.subs i with woken := (m.subs i).woken ++ [w] } :=
        ⟨hi.reg, hi.fresh, by have := hi.rlen; simp; omega, hi.sub, hi.val⟩
      exact (h.upd this).congr rfl rfl rfl rfl rfl
    · split
      · exact h.congr rfl rfl rfl rfl rfl
      · rename_i i rest _
        split
        · exact h.congr rfl rfl rfl rfl rfl
        · have hi := h.ok i
          have : SubOk m i { m.subs i with waker := none } :=
            ⟨hi.reg, hi.fresh, hi.rlen, hi.sub, hi.val⟩
          exact (h.upd this).congr rfl rfl rfl rfl rfl
  | subscribe =>
    simp only [World.step] at hs
    cases hs
    have : SubOk m m.made (⟨0, none, .make, 0, [], [], 0⟩ : Sub α) := by
      refine ⟨fun k => (by cases k), fun _ => rfl, Nat.le_refl _, ⟨Nat.zero_le _, Nat.zero_le _, ?_⟩,
        fun w a k => (by cases k)⟩
      constructor
      · intro k
        have := h.epoch.1 k.symm
        simp [this]
      · intro k
        have : m.values = [] := List.length_eq_zero_iff.1 k.symm
        exact (h.epoch.2 this).symm
    exact (h.upd this).congr rfl rfl rfl rfl rfl
  | poll i w =>
    simp only [World.step] at hs
    split at hs <;> cases hs
    rename_i hpc
    have hi := h.ok i
    exact h.upd ⟨fun _ => hi.reg (by simp [hpc, Pc.live]), fun k => (by cases k), hi.rlen, hi.sub, hi.val⟩
  | sstep i =>
    simp only [World.step] at hs
    split at hs <;> cases hs
    rename_i hk
    have hi := h.ok i
    simp only [World.sstep] at hk
    split at hk
    · cases hk
    · cases hk
    · -- make
      rename_i hpc
      split at hk <;> cases hk
      have h1 : Inv { m with wakers := m.wakers ++ [i] } :=
        ⟨h.epoch, h.value, fun j hj => List.mem_append_left _ (h.reg j hj), h.fresh, h.rlen, h.sub, h.val⟩
      refine h1.upd (i := i) (s := { m.subs i with pc := .idle }) ?_
      exact ⟨fun _ => by simp, fun k => (by cases k), hi.rlen, hi.sub, hi.val⟩
    · -- swap
      rename_i w hpc
      have hr := hi.reg (by simp [hpc, Pc.live])
      split at hk
      · cases hk
        have : SubOk m i { m.subs i with pc := .wantWrite w } :=
          ⟨fun _ => hr, fun k => (by cases k), hi.rlen, hi.sub, hi.val⟩
        exact (h.upd this).congr rfl rfl rfl rfl rfl
      · cases hk
        exact h.upd ⟨fun _ => hr, fun k => (by cases k), hi.rlen, hi.sub, hi.val⟩
    · -- wantWrite
      rename_i w hpc
      split at hk <;> cases hk
      have h1 := inv_pollSignal h
      have hs1 : m.pollSignal.subs = m.subs := by
        unfold World.pollSignal; split <;> rfl
      have hi1 := h1.ok i
      rw [hs1] at hi1
      have : SubOk m.pollSignal i { m.subs i with pc := .decide w } :=
        ⟨fun _ => hi1.reg (by simp [hpc, Pc.live]), fun k => (by cases k), hi1.rlen, hi1.sub, hi1.val⟩
      exact (h1.upd this).congr rfl rfl rfl rfl rfl
    · -- decide
      rename_i w hpc
      cases hk
      exact (h.upd (decideSub_ok h (by simp [hpc, Pc.live]))).congr rfl rfl rfl rfl rfl
    · -- wantRead
      rename_i w hpc
      split at hk <;> cases hk
      exact h.upd (decideSub_ok h (by simp [hpc, Pc.live]))

theorem inv_init (script : List (Poll (Option α))) : Inv (World.init script) := by
  refine ⟨by simp [World.init], rfl, fun i k => (by cases k), fun i _ => rfl, fun i => Nat.le_refl _,
    fun i => ⟨Nat.le_refl _, Nat.le_refl _, ?_⟩, fun i w a k => (by cases k)⟩
  simp [World.init, Sub.unborn]

theorem inv_runs {script : List (Poll (Option α))} {m : World α} {es : List Ev}
    (h : (World.init script).runs es = some m) : Inv m := by
  obtain ⟨os, h⟩ := runs_runE h
  exact runE_inv (Inv := fun _ _ m => Inv m) (inv_init script)
    (fun _ _ _ _ _ _ hi hs => inv_step hi hs) h

/-! ## Wakeups -/

def World.nt (m : World α) (i : Nat) : Prop := ∃ n, m.notifier = some n ∧ i ∈ n.todo
def World.wk (m : World α) (i : Nat) (w : Waker) : Prop := ∃ n, m.notifier = some n ∧ n.wake = some (i, w)
def World.bad (m : World α) (i : Nat) : Prop := m.isChanged = true ∨ ∃ j, j ≠ i ∧ (m.subs j).pc.busy = true

/-- What is known of subscriber `i`.  `bad`: there may be news; `old`: there is news. -/
structure WkSub (nt bad old : Prop) (wk : Waker → Prop) (s : Sub α) : Prop where
  inside : s.pc.inside = true → bad → nt
  pend : ∀ w, s.pc = .idle → s.answers.getLast? = some (w, .pending) →
    (s.waker = some w ∧ (bad ∨ old → nt)) ∨ wk w ∨ w ∈ s.woken.drop s.regAt

theorem WkSub.mono {nt bad old nt' bad' old' : Prop} {wk wk' : Waker → Prop} {s : Sub α}
    (h : WkSub nt bad old wk s) (hnt : nt → nt') (hbad : bad' → bad ∨ nt') (hold : old' → bad ∨ old ∨ nt')
    (hwk : ∀ w, wk w → wk' w) : WkSub nt' bad' old' wk' s := by
  refine ⟨fun hi hb => ?_, fun w hpc hl => ?_⟩
  · rcases hbad hb with k | k
    · exact hnt (h.inside hi k)
    · exact k
  · rcases h.pend w hpc hl with ⟨h1, h2⟩ | k | k
    · refine .inl ⟨h1, ?_⟩
      rintro (k | k)
      · rcases hbad k with k | k
        · exact hnt (h2 (.inl k))
        · exact k
      · rcases hold k with k | k | k
        · exact hnt (h2 (.inl k))
        · exact hnt (h2 (.inr k))
        · exact k
    · exact .inr (.inl (hwk _ k))
    · exact .inr (.inr k)

def World.old (m : World α) (s : Sub α) : Prop := s.epoch ≠ m.epoch ∨ m.alive = false

def Wk (m : World α) : Prop := ∀ i, WkSub (m.nt i) (m.bad i) (m.old (m.subs i)) (m.wk i) (m.subs i)

theorem bad_upd {m : World α} {i j : Nat} {s : Sub α} (hb : s.pc.busy = true → (m.subs i).pc.busy = true)
    (h : (m.upd i s).bad j) : m.bad j := by
  rcases h with k | ⟨l, hl, hbu⟩
  · exact .inl k
  · refine .inr ⟨l, hl, ?_⟩
    simp only [World.upd] at hbu
    by_cases hli : l = i
    · subst hli
      simp only [if_true] at hbu
      exact hb hbu
    · simpa [hli] using hbu

theorem pollSignal_fields (m : World α) : m.pollSignal.subs = m.subs ∧ m.pollSignal.notifier = m.notifier ∧
    m.pollSignal.isChanged = m.isChanged := by
  unfold World.pollSignal
  split <;> exact ⟨rfl, rfl, rfl⟩

theorem wk_decide {m : World α} (h : Wk m) {i : Nat} {w : Waker} (hin : (m.subs i).pc.inside = true) :
    Wk (m.upd i (m.decideSub i w)) := by
  have hpc : (m.decideSub i w).pc = .idle := by
    unfold World.decideSub
    simp only
    split
    · split <;> rfl
    · rfl
  have hbad : ∀ j, (m.upd i (m.decideSub i w)).bad j → m.bad j :=
    fun j => bad_upd (by rw [hpc]; intro k; cases k)
  intro j
  by_cases hji : j = i
  · subst hji
    simp only [World.upd, if_true]
    refine ⟨fun k => ?_, fun w' _ hl => ?_⟩
    · rw [hpc] at k; cases k
    · have hi := h j
      by_cases hep : m.epoch = (m.subs j).epoch
      · by_cases hal : m.alive = false
        · simp [World.decideSub, hep, hal] at hl
        · have he : m.decideSub j w = { m.subs j with
              pc := .idle
              waker := some w
              regAt := (m.subs j).woken.length
              answers := (m.subs j).answers ++ [(w, .pending)] } := by
            simp only [World.decideSub]
            rw [if_pos hep, if_neg hal]
          have hl' := hl
          rw [he] at hl'
          simp at hl'
          subst hl'
          refine .inl ⟨by rw [he], ?_⟩
          rintro (k | k | k)
          · exact hi.inside hin (hbad j k)
          · rw [he] at k
            exact absurd hep.symm k
          · exact absurd k hal
      · simp [World.decideSub, hep] at hl
  · have := (h j).mono (nt' := m.nt j) (bad' := (m.upd i (m.decideSub i w)).bad j)
      (old' := m.old (m.subs j)) (wk' := m.wk j) id (fun k => .inl (hbad j k)) (fun k => .inr (.inl k))
      (fun _ k => k)
    show WkSub _ _ (World.old _ (if j = i then _ else m.subs j)) _ (if j = i then _ else m.subs j)
    rw [if_neg hji]
    exact this

theorem wk_nstep {m : World α} {n : Notifier} (h : Wk m) (hn : m.notifier = some n)
    (hinv : Inv m)
    (hno : ∀ i rest, n = ⟨i :: rest, none⟩ → (m.subs i).pc.inside = false) : Wk (m.nstep n) := by
  obtain ⟨todo, wake⟩ := n
  have hnt : ∀ j, m.nt j ↔ j ∈ todo := by
    intro j
    constructor
    · rintro ⟨n, k, k'⟩; rw [hn] at k; cases k; exact k'
    · intro k; exact ⟨_, hn, k⟩
  have hwk : ∀ j w, m.wk j w ↔ wake = some (j, w) := by
    intro j w
    constructor
    · rintro ⟨n, k, k'⟩; rw [hn] at k; cases k; exact k'
    · intro k; exact ⟨_, hn, k⟩
  cases wake with
  | some p =>
    obtain ⟨i, w⟩ := p
    simp only [World.nstep]
    have hbad : ∀ j, (m.upd i { m.subs i with woken := (m.subs i).woken ++ [w] }).bad j → m.bad j :=
      fun j => bad_upd (fun k => k)
    intro j
    have hj := h j
    by_cases hji : j = i
    · subst hji
      simp only [World.upd, if_true]
      refine ⟨fun k kb => ⟨_, rfl, (hnt j).1 (hj.inside k (hbad j kb))⟩, fun w' hpc hl => ?_⟩
      rcases hj.pend w' hpc hl with ⟨h1, h2⟩ | k | k
      · refine .inl ⟨h1, fun k => ⟨_, rfl, (hnt j).1 (h2 ?_)⟩⟩
        rcases k with k | k
        · exact .inl (hbad j k)
        · exact .inr k
      · rw [hwk] at k
        cases k
        refine .inr (.inr ?_)
        rw [List.drop_append_of_le_length (hinv.rlen j)]
        simp
      · refine .inr (.inr ?_)
        rw [List.drop_append_of_le_length (hinv.rlen j)]
        exact List.mem_append_left _ k
    · simp only [World.upd, if_neg hji]
      refine hj.mono (fun k => ⟨_, rfl, (hnt j).1 k⟩) (fun k => .inl (hbad j k)) (fun k => .inr (.inl ?_)) ?_
      · simpa [World.old, hji] using k
      · intro w' k
        rw [hwk] at k
        cases k; exact absurd rfl hji
  | none =>
    have hnwk : ∀ j w, ¬ m.wk j w := by
      intro j w k; rw [hwk] at k; cases k
    simp only [World.nstep]
    cases todo with
    | nil =>
      intro j
      exact (h j).mono (fun k => (by rw [hnt] at k; cases k)) (fun k => .inl k) (fun k => .inr (.inl k))
        (fun w k => absurd k (hnwk j w))
    | cons i rest =>
      have hno := hno i rest rfl
      have hnt' : ∀ j, j ≠ i → m.nt j → j ∈ rest := by
        intro j hji k
        rw [hnt] at k
        simpa [hji] using k
      have hi := h i
      simp only
      cases hw : (m.subs i).waker with
      | none =>
        intro j
        by_cases hji : j = i
        · subst hji
          refine ⟨fun k => ?_, fun w' hpc hl => ?_⟩
          · exact absurd k (by simp [hno])
          · rcases hi.pend w' hpc hl with ⟨h1, -⟩ | k | k
            · rw [hw] at h1; cases h1
            · exact absurd k (hnwk _ _)
            · exact .inr (.inr k)
        · exact (h j).mono (fun k => ⟨_, rfl, hnt' j hji k⟩) (fun k => .inl k) (fun k => .inr (.inl k))
            (fun w k => absurd k (hnwk j w))
      | some w =>
        have hbad : ∀ j, (m.upd i { m.subs i with waker := none }).bad j → m.bad j :=
          fun j => bad_upd (fun k => k)
        intro j
        by_cases hji : j = i
        · subst hji
          simp only [World.upd, if_true]
          refine ⟨fun k => ?_, fun w' hpc hl => ?_⟩
          · exact absurd k (by simp [hno])
          · rcases hi.pend w' hpc hl with ⟨h1, -⟩ | k | k
            · rw [hw] at h1; cases h1
              exact .inr (.inl ⟨_, rfl, rfl⟩)
            · exact absurd k (hnwk _ _)
            · exact .inr (.inr k)
        · simp only [World.upd, if_neg hji]
          refine (h j).mono (fun k => ⟨_, rfl, hnt' j hji k⟩) (fun k => .inl (hbad j k))
            (fun k => .inr (.inl ?_)) (fun w k => absurd k (hnwk j w))
          simpa [World.old, hji] using k

/-- The pc of one subscriber changes. -/
theorem wk_pc {m : World α} (h : Wk m) {i : Nat} {pc : Pc} (hpc : pc ≠ .idle)
    (hb : pc.busy = true → (m.subs i).pc.busy = true)
    (hin : pc.inside = true → m.bad i → m.nt i) : Wk (m.upd i { m.subs i with pc := pc }) := by
  have hbad : ∀ j, (m.upd i { m.subs i with pc := pc }).bad j → m.bad j := fun j => bad_upd hb
  intro j
  by_cases hji : j = i
  · subst hji
    simp only [World.upd, if_true]
    exact ⟨fun k kb => hin k (hbad j kb), fun w k => absurd k hpc⟩
  · simp only [World.upd, if_neg hji]
    refine (h j).mono id (fun k => .inl (hbad j k)) (fun k => .inr (.inl ?_)) (fun _ k => k)
    simpa [World.old, hji] using k

theorem wk_step {m m' : World α} {e : Ev} (hinv : Inv m) (h : Wk m)
    (hover : ∀ i w, e = .sstep i → (m.subs i).pc = .swap w → ∀ j, (m.subs j).pc.busy = false)
    (hno : ∀ i rest, e = .nstep → m.notifier = some ⟨i :: rest, none⟩ → (m.subs i).pc.inside = false)
    (hs : m.step e = some ((), m')) : Wk m' := by
  cases e with
  | wake =>
    simp only [World.step] at hs
    split at hs <;> cases hs
    rename_i hn
    intro j
    by_cases hl : (m.subs j).pc.live = true
    · have : j ∈ m.wakers := hinv.reg j hl
      refine (h j).mono (fun _ => ⟨_, rfl, this⟩) (fun _ => .inr ⟨_, rfl, this⟩) (fun _ => .inr (.inr ⟨_, rfl, this⟩)) ?_
      rintro w ⟨n, k, -⟩
      rw [hn] at k; cases k
    · refine ⟨fun k => ?_, fun w hpc => ?_⟩
      · exact absurd (by cases hpc : (m.subs j).pc <;> simp_all [Pc.inside, Pc.live]) hl
      · exact absurd (by simp only at hpc; rw [hpc]; rfl) hl
  | nstep =>
    simp only [World.step] at hs
    split at hs <;> cases hs
    rename_i n hn
    exact wk_nstep h hn hinv (fun i rest k => hno i rest rfl (by rw [hn, k]))
  | subscribe =>
    simp only [World.step] at hs
    cases hs
    intro j
    have hbad : (m.upd m.made ⟨0, none, .make, 0, [], [], 0⟩).bad j → m.bad j :=
      bad_upd (fun k => (by cases k))
    by_cases hji : j = m.made
    · subst hji
      simp only [World.upd, if_true]
      exact ⟨fun k => (by cases k), fun w k => (by cases k)⟩
    · simp only [World.upd, if_neg hji]
      refine (h j).mono id (fun k => .inl (hbad k)) (fun k => .inr (.inl ?_)) (fun _ k => k)
      simpa [World.old, hji] using k
  | poll i w =>
    simp only [World.step] at hs
    split at hs <;> cases hs
    exact wk_pc h (by simp) (fun k => (by cases k)) (fun k => (by cases k))
  | sstep i =>
    simp only [World.step] at hs
    split at hs <;> cases hs
    rename_i hk
    have hi := h i
    simp only [World.sstep] at hk
    split at hk
    · cases hk
    · cases hk
    · -- make
      rename_i hpc
      split at hk <;> cases hk
      have hbad : ∀ j, (m.upd i { m.subs i with pc := .idle }).bad j → m.bad j :=
        fun j => bad_upd (fun k => (by cases k))
      have hans := hinv.fresh i (by simp [hpc, Pc.live])
      intro j
      by_cases hji : j = i
      · subst hji
        simp only [World.upd, if_true]
        refine ⟨fun k => (by cases k), fun w _ k => ?_⟩
        simp [hans] at k
      · simp only [World.upd, if_neg hji]
        refine (h j).mono id (fun k => .inl (hbad j k)) (fun k => .inr (.inl ?_)) (fun _ k => k)
        simpa [World.old, hji] using k
    · -- swap
      rename_i w hpc
      have hq := hover i w rfl hpc
      split at hk
      · rename_i hc
        cases hk
        intro j
        by_cases hji : j = i
        · subst hji
          simp only [World.upd, if_true]
          refine ⟨fun _ kb => ?_, fun w k => (by cases k)⟩
          rcases kb with k | ⟨l, hl, hb⟩
          · cases k
          · simp only [if_neg hl] at hb
            rw [hq l] at hb; cases hb
        · simp only [World.upd, if_neg hji]
          refine (h j).mono id (fun _ => .inl (.inl hc)) (fun k => .inr (.inl ?_)) (fun _ k => k)
          simpa [World.old, hji] using k
      · rename_i hc
        cases hk
        refine wk_pc h (by simp) (fun k => (by cases k)) (fun _ kb => ?_)
        rcases kb with k | ⟨l, hl, hb⟩
        · exact absurd k hc
        · rw [hq l] at hb; cases hb
    · -- wantWrite
      rename_i w hpc
      split at hk <;> cases hk
      obtain ⟨f1, f2, f3⟩ := pollSignal_fields m
      have hbad : ∀ j, (∃ l, l ≠ j ∧ ((m.pollSignal.upd i { m.subs i with pc := .decide w }).subs l).pc.busy = true) →
          m.bad j := by
        rintro j ⟨l, hl, hb⟩
        refine .inr ⟨l, hl, ?_⟩
        simp only [World.upd, f1] at hb
        by_cases hli : l = i
        · subst hli; simp [hpc, Pc.busy]
        · simpa [hli] using hb
      intro j
      by_cases hji : j = i
      · subst hji
        simp only [World.upd, if_true]
        refine ⟨fun _ kb => ?_, fun w k => (by cases k)⟩
        have : m.nt j := by
          refine hi.inside (by simp [hpc, Pc.inside]) ?_
          rcases kb with k | k
          · rw [show (_ : World α).isChanged = m.isChanged from f3] at k
            exact .inl k
          · exact hbad j k
        obtain ⟨n, k1, k2⟩ := this
        exact ⟨n, f2.trans k1, k2⟩
      · simp only [World.upd, if_neg hji, f1]
        have hbj : m.bad j := .inr ⟨i, Ne.symm hji, by simp [hpc, Pc.busy]⟩
        refine (h j).mono ?_ (fun _ => .inl hbj) (fun _ => .inl hbj) ?_
        · rintro ⟨n, k1, k2⟩; exact ⟨n, f2.trans k1, k2⟩
        · rintro w ⟨n, k1, k2⟩; exact ⟨n, f2.trans k1, k2⟩
    · -- decide
      rename_i w hpc
      cases hk
      exact wk_decide h (by simp [hpc, Pc.inside])
    · -- wantRead
      rename_i w hpc
      split at hk <;> cases hk
      exact wk_decide h (by simp [hpc, Pc.inside])

theorem wk_init (script : List (Poll (Option α))) : Wk (World.init script) :=
  fun _ => ⟨fun k => (by cases k), fun _ k => (by cases k)⟩

theorem getElem?_take_prefix {γ : Type} {es : List γ} {e x : γ} {k : Nat} (h : es[k]? = some x) :
    (es ++ [e])[k]? = some x ∧ (es ++ [e]).take k = es.take k := by
  have hk : k < es.length := (List.getElem?_eq_some_iff.1 h).1
  exact ⟨by rw [List.getElem?_append_left hk]; exact h, List.take_append_of_le_length (by omega)⟩

theorem NoOverlap.prefix {script : List (Poll (Option α))} {es : List Ev} {e : Ev}
    (h : NoOverlap script (es ++ [e])) : NoOverlap script es := by
  intro k m i w he hr
  obtain ⟨h1, h2⟩ := getElem?_take_prefix (e := e) he
  exact h k m i w h1 (by rw [h2]; exact hr)

theorem NoWindow.prefix {script : List (Poll (Option α))} {es : List Ev} {e : Ev}
    (h : NoWindow script (es ++ [e])) : NoWindow script es := by
  intro k m i w he hr
  obtain ⟨h1, h2⟩ := getElem?_take_prefix (e := e) he
  exact h k m i w h1 (by rw [h2]; exact hr)

theorem wk_runs {script : List (Poll (Option α))} {m : World α} {es : List Ev}
    (ho : NoOverlap script es) (hw : NoWindow script es)
    (h : (World.init script).runs es = some m) : Wk m := by
  obtain ⟨os, h⟩ := runs_runE h
  have := runE_inv (Inv := fun es _ m => (World.init script).runs es = some m ∧
      (NoOverlap script es → NoWindow script es → Wk m)) ⟨rfl, fun _ _ => wk_init script⟩ ?_ h
  · exact this.2 ho hw
  · intro es os s e o s' ⟨h1, h2⟩ hs
    obtain ⟨os1, h1'⟩ := runs_runE h1
    refine ⟨runs_of_runE (runE_snoc_of h1' hs), fun ho hw => ?_⟩
    refine wk_step (inv_runs h1) (h2 ho.prefix hw.prefix) ?_ ?_ hs
    · rintro i w rfl
      exact ho es.length s i w (by simp) (by simpa using h1)
    · rintro i rest rfl
      exact hw es.length s i rest (by simp) (by simpa using h1)

end Verif.BcConc
