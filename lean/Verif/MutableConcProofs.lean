import Verif.MutableConcSpec

/-!
# `Mutable`, interleaving model: proofs
-/

namespace Verif.MutConc

variable {α : Type}

theorem runs_runE {m m' : World α} {es : List (Ev α)} (h : m.runs es = some m') :
    ∃ os, runE World.step m es = some (os, m') := by
  simp only [World.runs, Option.map_eq_some_iff] at h
  obtain ⟨⟨os, m1⟩, h, rfl⟩ := h
  exact ⟨os, h⟩

theorem runs_of_runE {m m' : World α} {es : List (Ev α)} {os : List Unit}
    (h : runE World.step m es = some (os, m')) : m.runs es = some m' := by simp [World.runs, h]

/-- The start of the running poll. -/
def SPc.started : SPc → Option Nat
  | .swap _ c => some c
  | .read _ c => some c
  | .load _ c => some c
  | .setWaker _ c => some c
  | _ => none

/-- The poll has seen `changed = false`. -/
def SPc.checked : SPc → Option Nat
  | .load _ c => some c
  | .setWaker _ c => some c
  | _ => none

/-- `signal_state` has returned the signal. -/
def SPc.live : SPc → Bool
  | .unborn => false
  | .make => false
  | .push => false
  | _ => true

/-- The poll is about to read. -/
def SPc.reading : SPc → Bool
  | .read _ _ => true
  | _ => false

/-- The invariant of one signal. -/
structure SigOk (log : List α) (comp req : Nat) (regd : Prop) (s : Sig α) : Prop where
  fresh : s.pc.live = false → s.pc = .unborn ∨ s.changed = true
  reg : s.pc.live = true → regd
  main : s.pc ≠ .unborn → s.changed = true ∨ s.pc.reading = true ∨ req ≤ s.delivered
  start : ∀ c, s.pc.started = some c → 1 ≤ c ∧ c ≤ comp
  checked : ∀ c, s.pc.checked = some c → c ≤ s.delivered
  del : s.delivered ≠ 0 → ∃ a ∈ s.answers, a.isValue ∧ a.version = s.delivered
  ans : ∀ pre a post, s.answers = pre ++ a :: post →
    ∃ a' ∈ pre ++ [a], a'.isValue ∧ a.started ≤ a'.version
  val : ∀ a ∈ s.answers, ∀ x, a.answer = .ready (some x) →
    1 ≤ a.version ∧ a.started ≤ a.version ∧ a.version ≤ comp ∧ log[a.version - 1]? = some x

theorem SigOk.mono {log log' : List α} {comp comp' req req' : Nat} {regd regd' : Prop} {s : Sig α}
    (h : SigOk log comp req regd s) (hlog : ∃ l, log' = log ++ l) (hcomp : comp ≤ comp')
    (hreq : req' ≤ req ∨ s.changed = true ∨ s.pc = .unborn)
    (hreg : s.pc.live = true → regd → regd') : SigOk log' comp' req' regd' s := by
  obtain ⟨l, rfl⟩ := hlog
  refine ⟨h.fresh, fun k => hreg k (h.reg k), fun hb => ?_, fun c hc => ?_, h.checked, h.del, h.ans,
    fun a ha x hx => ?_⟩
  · rcases h.main hb with k | k | k
    · exact .inl k
    · exact .inr (.inl k)
    · rcases hreq with k' | k' | k'
      · exact .inr (.inr (by omega))
      · exact .inl k'
      · exact absurd k' hb
  · obtain ⟨h1, h2⟩ := h.start c hc
    exact ⟨h1, by omega⟩
  · obtain ⟨h1, h2, h3, h4⟩ := h.val a ha x hx
    refine ⟨h1, h2, by omega, ?_⟩
    rw [List.getElem?_append_left]
    · exact h4
    · exact (List.getElem?_eq_some_iff.1 h4).1

/-- What a signal has to have delivered, if `changed` is not set. -/
def World.req (m : World α) (i : Nat) : Nat :=
  match m.writer with
  | some ⟨todo, true, _⟩ => if i ∈ todo then m.log.length - 1 else m.log.length
  | _ => m.log.length

/-- Every schedule. -/
structure Inv (m : World α) : Prop where
  log : m.log.getLast? = some m.value
  wr : m.writing = true → m.senders ≠ 0 ∧ 2 ≤ m.log.length
  ed : (∃ wr, m.writer = some wr ∧ wr.changed = false) ∨ m.ending = true → m.senders = 0
  sig : ∀ i, SigOk m.log m.completed (m.req i) (i ∈ m.signals ∨ m.senders = 0) (m.sigs i)

theorem Inv.log_pos {m : World α} (h : Inv m) : 1 ≤ m.log.length := by
  have := h.log
  cases hl : m.log with
  | nil => rw [hl] at this; cases this
  | cons => simp

theorem completed_le_req (m : World α) (i : Nat) : m.completed ≤ m.req i := by
  unfold World.completed World.req
  cases m.writer with
  | none => exact Nat.le_refl _
  | some wr =>
    obtain ⟨todo, ch, ph⟩ := wr
    cases ch
    · exact Nat.le_refl _
    · by_cases hi : i ∈ todo
      · simp [hi]
      · simp [hi]

theorem Inv.completed_pos {m : World α} (h : Inv m) : 1 ≤ m.completed := by
  have h1 := h.log_pos
  unfold World.completed
  split
  · rename_i hw
    have := (h.wr (by simp [World.writing, hw])).2
    omega
  · exact h1

theorem World.writer_none {m : World α} (h : m.writer = none) (i : Nat) :
    m.completed = m.log.length ∧ m.req i = m.log.length := by
  simp [World.completed, World.req, h]

theorem SigOk.snoc_ans {s : Sig α} {a : Answer α} 
    (hans : ∀ pre a post, s.answers = pre ++ a :: post →
      ∃ a' ∈ pre ++ [a], a'.isValue ∧ a.started ≤ a'.version)
    (ha : ∃ a' ∈ s.answers ++ [a], a'.isValue ∧ a.started ≤ a'.version) :
    ∀ pre b post, s.answers ++ [a] = pre ++ b :: post →
      ∃ a' ∈ pre ++ [b], a'.isValue ∧ b.started ≤ a'.version := by
  intro pre b post he
  rcases snoc_split.1 he with ⟨rfl, rfl, rfl⟩ | ⟨post', rfl, he'⟩
  · exact ha
  · exact hans pre b post' he'

theorem Inv.upd {m : World α} (h : Inv m) {i : Nat} {s : Sig α}
    (hs : SigOk m.log m.completed (m.req i) (i ∈ m.signals ∨ m.senders = 0) s) : Inv (m.upd i s) := by
  refine ⟨h.log, h.wr, h.ed, fun j => ?_⟩
  show SigOk m.log m.completed (m.req j) (j ∈ m.signals ∨ m.senders = 0) (if j = i then s else m.sigs j)
  split
  · rename_i k; subst k; exact hs
  · exact h.sig j

/-- Nothing but the given parts of a signal matter. -/
theorem SigOk.congr {log : List α} {comp req : Nat} {regd : Prop} {s s' : Sig α}
    (h : SigOk log comp req regd s) (h1 : s'.changed = s.changed) (h2 : s'.pc = s.pc)
    (h3 : s'.delivered = s.delivered) (h4 : s'.answers = s.answers) : SigOk log comp req regd s' := by
  constructor
  all_goals (simp only [h1, h2, h3, h4])
  · exact h.fresh
  · exact h.reg
  · exact h.main
  · exact h.start
  · exact h.checked
  · exact h.del
  · exact h.ans
  · exact h.val

/-- Only the phase of the writer changes. -/
theorem Inv.phase {m : World α} (h : Inv m) {todo : List Nat} {ch : Bool} {ph ph' : Phase}
    (hw : m.writer = some ⟨todo, ch, ph⟩) : Inv { m with writer := some ⟨todo, ch, ph'⟩ } := by
  refine ⟨h.log, fun k => ?_, ?_, fun j => ?_⟩
  · exact h.wr (by simpa [World.writing, hw] using k)
  · rintro (⟨wr, k, k'⟩ | k)
    · cases k
      exact h.ed (.inl ⟨_, hw, k'⟩)
    · exact h.ed (.inr k)
  · refine (h.sig j).mono ⟨[], by simp⟩ ?_ (.inl ?_) (fun _ k => k)
    · simp only [World.completed, hw]
      cases ch <;> simp
    · simp only [World.req, hw]
      cases ch <;> simp

/-- A poll ends without a value. -/
theorem SigOk.answered {log : List α} {comp req : Nat} {regd : Prop} {s : Sig α} {a : Answer α}
    (h : SigOk log comp req regd s) (hreg : regd) (hm : s.changed = true ∨ req ≤ s.delivered)
    (h1 : 1 ≤ a.started) (hck : a.started ≤ s.delivered) (hv : ∀ x, a.answer ≠ .ready (some x)) :
    SigOk log comp req regd { s with pc := .idle, answers := s.answers ++ [a] } := by
  refine ⟨fun k => (by cases k), fun _ => hreg, fun _ => ?_, ?_, ?_, ?_, ?_, ?_⟩
  · rcases hm with k | k
    · exact .inl k
    · exact .inr (.inr k)
  · intro c k; cases k
  · intro c k; cases k
  · intro k
    obtain ⟨a', ha', hx⟩ := h.del k
    exact ⟨a', List.mem_append_left _ ha', hx⟩
  · obtain ⟨a', ha', hx, hd⟩ := h.del (by omega)
    exact SigOk.snoc_ans h.ans ⟨a', List.mem_append_left _ ha', hx, by omega⟩
  · intro a' ha x hx
    rcases List.mem_append.1 ha with ha | ha
    · exact h.val a' ha x hx
    · rw [List.mem_singleton] at ha
      subst ha
      exact absurd hx (hv x)

theorem inv_wstep {m : World α} {wr : Writer} (h : Inv m) (hw : m.writer = some wr) : Inv (m.wstep wr) := by
  obtain ⟨todo, ch, ph⟩ := wr
  cases ph with
  | next =>
    cases todo with
    | nil =>
      simp only [World.wstep]
      refine ⟨h.log, fun k => (by cases k), ?_, fun j => ?_⟩
      · rintro (⟨wr, k, -⟩ | k)
        · cases k
        · exact h.ed (.inr k)
      · refine (h.sig j).mono ⟨[], by simp⟩ ?_ (.inl ?_) ?_
        · simp only [World.completed, hw]
          cases ch <;> simp
        · simp only [World.req, hw]
          cases ch <;> simp
        · intro _ k
          cases ch with
          | true => exact k
          | false => exact .inr (h.ed (.inl ⟨_, hw, rfl⟩))
    | cons i rest =>
      simp only [World.wstep]
      refine ⟨h.log, fun k => ?_, ?_, fun j => ?_⟩
      · exact h.wr (by simpa [World.writing, hw] using k)
      · rintro (⟨wr, k, k'⟩ | k)
        · cases k
          exact h.ed (.inl ⟨_, hw, k'⟩)
        · exact h.ed (.inr k)
      · have hj := h.sig j
        by_cases hji : j = i
        · subst hji
          simp only [World.upd, if_true, ite_true]
          cases ch with
          | false =>
            refine SigOk.congr (s := m.sigs j) ?_ (by simp) rfl rfl rfl
            refine hj.mono ⟨[], by simp⟩ ?_ (.inl ?_) (fun _ k => k)
            · simp [World.completed, hw]
            · simp [World.req, hw]
          | true =>
            refine ⟨fun _ => .inr rfl, hj.reg, fun _ => .inl rfl, ?_, hj.checked, hj.del, hj.ans, ?_⟩
            · have := hj.start
              simpa [World.completed, hw] using this
            · have := hj.val
              simpa [World.completed, hw] using this
        · simp only [World.upd, if_neg hji]
          refine hj.mono ⟨[], by simp⟩ ?_ (.inl ?_) (fun _ k => k)
          · simp only [World.completed, hw]
            cases ch <;> simp
          · simp only [World.req, hw]
            cases ch
            · simp
            · simp [hji]
  | take i =>
    simp only [World.wstep]
    split
    · exact (h.upd (s := { m.sigs i with waker := none }) ((h.sig i).congr rfl rfl rfl rfl)).phase hw
    · exact h.phase hw
  | wake i w =>
    simp only [World.wstep]
    exact (h.upd (s := { m.sigs i with woken := (m.sigs i).woken ++ [w] })
      ((h.sig i).congr rfl rfl rfl rfl)).phase hw

theorem inv_sstep {m m' : World α} {i : Nat} (h : Inv m) (hs : m.sstep i = some m') : Inv m' := by
  have hi := h.sig i
  simp only [World.sstep] at hs
  split at hs
  · cases hs
  · cases hs
  · -- make
    rename_i hpc
    cases hs
    refine h.upd ?_
    have hc : (m.sigs i).changed = true := by
      rcases hi.fresh (by simp [hpc, SPc.live]) with k | k
      · rw [hpc] at k; cases k
      · exact k
    refine ⟨fun _ => .inr hc, ?_, fun _ => .inl hc, ?_, ?_, hi.del, hi.ans, hi.val⟩
    · intro k
      by_cases hz : m.senders = 0
      · exact .inr hz
      · simp [hz, SPc.live] at k
    · intro c k; by_cases hz : m.senders = 0 <;> simp [hz, SPc.started] at k
    · intro c k; by_cases hz : m.senders = 0 <;> simp [hz, SPc.checked] at k
  · -- push
    rename_i hpc
    split at hs
    · cases hs
    · rename_i hw
      cases hs
      have hc : (m.sigs i).changed = true := by
        rcases hi.fresh (by simp [hpc, SPc.live]) with k | k
        · rw [hpc] at k; cases k
        · exact k
      have h1 : Inv { m with signals := m.signals ++ [i] } := by
        refine ⟨h.log, h.wr, h.ed, fun j => ?_⟩
        refine (h.sig j).mono ⟨[], by simp⟩ (Nat.le_refl _) (.inl (Nat.le_refl _)) ?_
        intro _ k
        rcases k with k | k
        · exact .inl (by simp [k])
        · exact .inr k
      refine h1.upd (i := i) (s := { m.sigs i with pc := .idle }) ?_
      refine ⟨fun _ => .inr hc, fun _ => .inl (by simp), fun _ => .inl hc, ?_, ?_, hi.del, hi.ans, hi.val⟩
      · intro c k; cases k
      · intro c k; cases k
  · -- swap
    rename_i w c hpc
    have hst := hi.start c (by simp [hpc, SPc.started])
    have hrg := hi.reg (by simp [hpc, SPc.live])
    split at hs
    · cases hs
      refine h.upd ⟨fun k => (by cases k), fun _ => hrg, fun _ => .inr (.inl rfl), ?_, ?_, hi.del, hi.ans, hi.val⟩
      · intro c' k; cases k; exact hst
      · intro c' k; cases k
    · rename_i hc
      cases hs
      have hm : m.req i ≤ (m.sigs i).delivered := by
        rcases hi.main (by simp [hpc]) with k | k | k
        · exact absurd k hc
        · simp [hpc, SPc.reading] at k
        · exact k
      refine h.upd ⟨fun k => (by cases k), fun _ => hrg, fun _ => .inr (.inr hm), ?_, ?_, hi.del, hi.ans, hi.val⟩
      · intro c' k; cases k; exact hst
      · intro c' k
        cases k
        have := completed_le_req m i
        show c ≤ (m.sigs i).delivered
        omega
  · -- read
    rename_i w c hpc
    have hst := hi.start c (by simp [hpc, SPc.started])
    have hrg := hi.reg (by simp [hpc, SPc.live])
    have hlp := h.log_pos
    split at hs
    · cases hs
    · rename_i hw
      obtain ⟨h1, h2⟩ := World.writer_none hw i
      cases hs
      refine h.upd ⟨fun k => (by cases k), fun _ => hrg, fun _ => .inr (.inr ?_), ?_, ?_, ?_, ?_, ?_⟩
      · rw [h2]; exact Nat.le_refl _
      · intro c' k; cases k
      · intro c' k; cases k
      · intro _
        exact ⟨_, List.mem_append_right _ (List.mem_singleton.2 rfl), ⟨_, rfl⟩, rfl⟩
      · refine SigOk.snoc_ans hi.ans ⟨_, List.mem_append_right _ (List.mem_singleton.2 rfl), ⟨_, rfl⟩, ?_⟩
        show c ≤ m.log.length
        omega
      · intro a ha x hx
        rcases List.mem_append.1 ha with ha | ha
        · exact hi.val a ha x hx
        · rw [List.mem_singleton] at ha
          subst ha
          cases hx
          refine ⟨hlp, ?_, ?_, ?_⟩
          · show c ≤ m.log.length; omega
          · show m.log.length ≤ m.completed; omega
          · have := h.log
            rw [List.getLast?_eq_getElem?] at this
            exact this
  · -- load
    rename_i w c hpc
    have hst := hi.start c (by simp [hpc, SPc.started])
    have hrg := hi.reg (by simp [hpc, SPc.live])
    have hck := hi.checked c (by simp [hpc, SPc.checked])
    have hmain : (m.sigs i).changed = true ∨ m.req i ≤ (m.sigs i).delivered := by
      rcases hi.main (by simp [hpc]) with k | k | k
      · exact .inl k
      · simp [hpc, SPc.reading] at k
      · exact .inr k
    split at hs
    · cases hs
      exact h.upd (hi.answered (a := ⟨w, c, .ready none, 0⟩) hrg hmain hst.1 hck (by rintro x ⟨⟩))
    · cases hs
      refine h.upd ⟨fun k => (by cases k), fun _ => hrg, fun _ => ?_, ?_, ?_, hi.del, hi.ans, hi.val⟩
      · rcases hmain with k | k
        · exact .inl k
        · exact .inr (.inr k)
      · intro c' k; cases k; exact hst
      · intro c' k; cases k; exact hck
  · -- setWaker
    rename_i w c hpc
    have hst := hi.start c (by simp [hpc, SPc.started])
    have hrg := hi.reg (by simp [hpc, SPc.live])
    have hck := hi.checked c (by simp [hpc, SPc.checked])
    have hmain : (m.sigs i).changed = true ∨ m.req i ≤ (m.sigs i).delivered := by
      rcases hi.main (by simp [hpc]) with k | k | k
      · exact .inl k
      · simp [hpc, SPc.reading] at k
      · exact .inr k
    split at hs
    · cases hs
    · cases hs
      exact h.upd ((hi.answered (a := ⟨w, c, .pending, 0⟩) hrg hmain hst.1 hck
        (by rintro x ⟨⟩)).congr rfl rfl rfl rfl)

theorem inv_step {m m' : World α} {e : Ev α} (h : Inv m) (hs : m.step e = some ((), m')) : Inv m' := by
  cases e with
  | write a =>
    simp only [World.step] at hs
    split at hs
    · cases hs
    · rename_i hw
      obtain ⟨-, -⟩ := World.writer_none hw 0
      split at hs <;> cases hs
      rename_i hz
      have hlp := h.log_pos
      refine ⟨by simp, fun _ => ⟨hz, by simp; omega⟩, ?_, fun j => ?_⟩
      · rintro (⟨wr, k, k'⟩ | k)
        · cases k; cases k'
        · exact h.ed (.inr k)
      · have hj := h.sig j
        obtain ⟨h1, h2⟩ := World.writer_none hw j
        refine hj.mono ⟨[a], rfl⟩ ?_ ?_ (fun _ k => k)
        · rw [h1]; simp [World.completed]
        · by_cases hl : (m.sigs j).pc.live = true
          · have : j ∈ m.signals := by
              rcases hj.reg hl with k | k
              · exact k
              · exact absurd k hz
            left
            rw [h2]; simp [World.req, this]
          · rcases hj.fresh (by simpa using hl) with k | k
            · exact .inr (.inr k)
            · exact .inr (.inl k)
  | wstep =>
    simp only [World.step] at hs
    split at hs
    · cases hs
    · rename_i hw
      cases hs
      exact inv_wstep h hw
  | clone =>
    simp only [World.step] at hs
    split at hs <;> cases hs
    rename_i hz
    refine ⟨h.log, fun k => ⟨by simp, (h.wr k).2⟩, fun k => absurd (h.ed k) hz, fun j => ?_⟩
    refine (h.sig j).mono ⟨[], by simp⟩ (Nat.le_refl _) (.inl (Nat.le_refl _)) ?_
    intro _ k
    exact k.imp id (fun k => absurd k hz)
  | drop =>
    simp only [World.step] at hs
    split at hs
    · rename_i hz
      cases hs
      refine ⟨h.log, fun k => ⟨by simp; omega, (h.wr k).2⟩, fun k => ?_, fun j => ?_⟩
      · have := h.ed k; omega
      · refine (h.sig j).mono ⟨[], by simp⟩ (Nat.le_refl _) (.inl (Nat.le_refl _)) ?_
        intro _ k
        exact k.imp id (fun k => by omega)
    · split at hs <;> cases hs
      rename_i hz
      refine ⟨h.log, fun k => ?_, fun k => rfl, fun j => ?_⟩
      · have := hz.2.symm.trans k
        cases this
      · exact (h.sig j).mono ⟨[], by simp⟩ (Nat.le_refl _) (.inl (Nat.le_refl _)) (fun _ _ => .inr rfl)
  | endLock =>
    simp only [World.step] at hs
    split at hs
    · cases hs
    · rename_i hw
      split at hs <;> cases hs
      rename_i he
      refine ⟨h.log, fun k => (by cases k), fun _ => h.ed (.inr he), fun j => ?_⟩
      obtain ⟨h1, h2⟩ := World.writer_none hw j
      refine (h.sig j).mono ⟨[], by simp⟩ ?_ (.inl ?_) (fun _ k => k)
      · rw [h1]; simp [World.completed]
      · rw [h2]; simp [World.req]
  | subscribe =>
    simp only [World.step] at hs
    cases hs
    have : Inv (m.upd m.made ⟨true, none, .make, 0, [], [], 0⟩) := by
      refine h.upd ⟨fun _ => .inr rfl, fun k => (by cases k), fun _ => .inl rfl, ?_, ?_, ?_, ?_, ?_⟩
      · intro c k; cases k
      · intro c k; cases k
      · intro k; exact absurd rfl k
      · intro pre a post k; simp at k
      · intro a k; simp at k
    exact ⟨this.log, this.wr, this.ed, this.sig⟩
  | poll i w =>
    simp only [World.step] at hs
    split at hs <;> cases hs
    rename_i hpc
    have hi := h.sig i
    refine h.upd ⟨fun k => (by cases k), fun _ => hi.reg (by simp [hpc, SPc.live]), fun _ => ?_, ?_, ?_,
      hi.del, hi.ans, hi.val⟩
    · rcases hi.main (by simp [hpc]) with k | k | k
      · exact .inl k
      · simp [hpc, SPc.reading] at k
      · exact .inr (.inr k)
    · intro c k; cases k
      exact ⟨h.completed_pos, Nat.le_refl _⟩
    · intro c k; cases k
  | sstep i =>
    simp only [World.step] at hs
    split at hs <;> cases hs
    rename_i hk
    exact inv_sstep h hk

theorem inv_init (a : α) : Inv (World.init a) := by
  refine ⟨rfl, fun k => (by cases k), ?_, fun j => ⟨fun _ => .inl rfl, fun k => (by cases k),
    fun k => absurd rfl k, ?_, ?_, fun k => absurd rfl k, ?_, ?_⟩⟩
  · rintro (⟨wr, k, -⟩ | k) <;> cases k
  · intro c k; cases k
  · intro c k; cases k
  · intro pre a post k; simp [World.init, Sig.unborn] at k
  · intro a k; simp [World.init, Sig.unborn] at k

theorem inv_runs {a : α} {m : World α} {es : List (Ev α)} (h : (World.init a).runs es = some m) :
    Inv m := by
  obtain ⟨os, h⟩ := runs_runE h
  exact runE_inv (Inv := fun _ _ m => Inv m) (inv_init a)
    (fun _ _ _ _ _ _ hi hs => inv_step hi hs) h

/-! ## Wakeups -/

/-- The invariant of one signal.  `tk`: `changed` was stored and the waker is about to be taken; `nt`:
the waker will still be taken by some thread; `wk w`: `w` is about to be woken; `z`: no handle is
left. -/
structure WkSig (tk nt : Prop) (wk : Waker → Prop) (z : Prop) (s : Sig α) : Prop where
  fresh : s.pc.live = false → s.answers = []
  reg : s.regAt ≤ s.woken.length
  chk : s.pc.checked ≠ none → s.changed = true → tk
  stored : ∀ w c, s.pc = .setWaker w c → z → nt
  pend : ∀ a, s.pc = .idle → s.answers.getLast? = some a → a.answer = .pending →
    (s.waker = some a.waker ∧ (s.changed = true → nt) ∧ (z → nt)) ∨ wk a.waker ∨
      a.waker ∈ s.woken.drop s.regAt

theorem WkSig.mono {tk nt tk' nt' : Prop} {wk wk' : Waker → Prop} {z z' : Prop} {s : Sig α}
    (h : WkSig tk nt wk z s) (htk : s.pc.checked ≠ none → s.changed = true → tk → tk')
    (hnt : nt → nt') (hwk : ∀ w, wk w → wk' w) (hz : s.pc.live = true → z' → z ∨ nt') :
    WkSig tk' nt' wk' z' s := by
  refine ⟨h.fresh, h.reg, fun k k' => htk k k' (h.chk k k'), fun w c hpc k => ?_, fun a hpc hl ha => ?_⟩
  · rcases hz (by simp [hpc, SPc.live]) k with k | k
    · exact hnt (h.stored w c hpc k)
    · exact k
  · rcases h.pend a hpc hl ha with ⟨h1, h2, h3⟩ | k | k
    · refine .inl ⟨h1, fun k => hnt (h2 k), fun k => ?_⟩
      rcases hz (by simp [hpc, SPc.live]) k with k | k
      · exact hnt (h3 k)
      · exact k
    · exact .inr (.inl (hwk _ k))
    · exact .inr (.inr k)

def World.tk (m : World α) (i : Nat) : Prop := ∃ wr, m.writer = some wr ∧ wr.phase = .take i

def World.nt (m : World α) (i : Nat) : Prop :=
  (∃ wr, m.writer = some wr ∧ (i ∈ wr.todo ∨ wr.phase = .take i)) ∨ (m.ending = true ∧ i ∈ m.signals)

def World.wk (m : World α) (i : Nat) (w : Waker) : Prop := ∃ wr, m.writer = some wr ∧ wr.phase = .wake i w

structure Wk (m : World α) : Prop where
  once : (∃ wr, m.writer = some wr ∧ wr.changed = false) → m.ending = false
  sig : ∀ i, WkSig (m.tk i) (m.nt i) (m.wk i) (m.senders = 0) (m.sigs i)

theorem Wk.upd {m : World α} (h : Wk m) {i : Nat} {s : Sig α}
    (hs : WkSig (m.tk i) (m.nt i) (m.wk i) (m.senders = 0) s) : Wk (m.upd i s) := by
  refine ⟨h.once, fun j => ?_⟩
  show WkSig (m.tk j) (m.nt j) (m.wk j) (m.senders = 0) (if j = i then s else m.sigs j)
  split
  · rename_i k; subst k; exact hs
  · exact h.sig j

theorem wk_wstep {m : World α} {wr : Writer} (h : Wk m) (hw : m.writer = some wr)
    (hno : ∀ i, wr.phase = .take i → (m.sigs i).pc.checked = none) : Wk (m.wstep wr) := by
  obtain ⟨todo, ch, ph⟩ := wr
  cases ph with
  | next =>
    cases todo with
    | nil =>
      simp only [World.wstep]
      refine ⟨?_, fun j => ?_⟩
      · rintro ⟨wr, k, -⟩; cases k
      · refine (h.sig j).mono ?_ ?_ ?_ (fun _ k => .inl k)
        · rintro - - ⟨wr, k, k'⟩
          rw [hw] at k; cases k; cases k'
        · rintro (⟨wr, k, k'⟩ | ⟨k, k'⟩)
          · rw [hw] at k; cases k
            rcases k' with k' | k'
            · cases k'
            · cases k'
          · cases ch with
            | true => exact .inr ⟨k, k'⟩
            | false =>
              have := h.once ⟨_, hw, rfl⟩
              rw [k] at this; cases this
        · rintro w ⟨wr, k, k'⟩
          rw [hw] at k; cases k; cases k'
    | cons i rest =>
      simp only [World.wstep]
      refine ⟨?_, fun j => ?_⟩
      · rintro ⟨wr, k, k'⟩
        cases k
        exact h.once ⟨_, hw, k'⟩
      · have hj := h.sig j
        have htk : ¬ m.tk j := by
          rintro ⟨wr, k, k'⟩
          rw [hw] at k; cases k; cases k'
        have hwk : ∀ w, ¬ m.wk j w := by
          rintro w ⟨wr, k, k'⟩
          rw [hw] at k; cases k; cases k'
        by_cases hji : j = i
        · subst hji
          simp only [World.upd, ite_true]
          refine ⟨hj.fresh, hj.reg, fun _ _ => ⟨_, rfl, rfl⟩, fun _ _ _ _ => .inl ⟨_, rfl, .inr rfl⟩, ?_⟩
          intro a hpc hl ha
          rcases hj.pend a hpc hl ha with ⟨h1, -, -⟩ | k | k
          · exact .inl ⟨h1, fun _ => .inl ⟨_, rfl, .inr rfl⟩, fun _ => .inl ⟨_, rfl, .inr rfl⟩⟩
          · exact absurd k (hwk _)
          · exact .inr (.inr k)
        · simp only [World.upd, if_neg hji]
          refine hj.mono (fun _ _ k => absurd k htk) ?_ (fun w k => absurd k (hwk w)) (fun _ k => .inl k)
          rintro (⟨wr, k, k'⟩ | k)
          · rw [hw] at k; cases k
            rcases k' with k' | k'
            · simp [hji] at k'
              exact .inl ⟨_, rfl, .inl k'⟩
            · cases k'
          · exact .inr k
  | take i =>
    have hno := hno i rfl
    have hwk : ∀ j w, ¬ m.wk j w := by
      rintro j w ⟨wr, k, k'⟩
      rw [hw] at k; cases k; cases k'
    have htk : ∀ j, m.tk j → j = i := by
      rintro j ⟨wr, k, k'⟩
      rw [hw] at k; cases k; cases k'; rfl
    have hnt : ∀ ph j, j ≠ i → m.nt j →
        ((∃ wr, some (⟨todo, ch, ph⟩ : Writer) = some wr ∧ (j ∈ wr.todo ∨ wr.phase = .take j)) ∨
          (m.ending = true ∧ j ∈ m.signals)) := by
      rintro ph j hji (⟨wr, k, k'⟩ | k)
      · rw [hw] at k; cases k
        rcases k' with k' | k'
        · exact .inl ⟨_, rfl, .inl k'⟩
        · cases k'; exact absurd rfl hji
      · exact .inr k
    have hi := h.sig i
    simp only [World.wstep]
    split
    · rename_i w hwk'
      refine ⟨?_, fun j => ?_⟩
      · rintro ⟨wr, k, k'⟩
        cases k
        exact h.once ⟨_, hw, k'⟩
      · by_cases hji : j = i
        · subst hji
          simp only [World.upd, ite_true]
          refine ⟨hi.fresh, hi.reg, fun k => absurd hno k, ?_, ?_⟩
          · intro w c hpc
            replace hpc : (m.sigs j).pc = .setWaker w c := hpc
            rw [hpc] at hno; cases hno
          · intro a hpc hl ha
            rcases hi.pend a hpc hl ha with ⟨h1, -, -⟩ | k | k
            · rw [hwk'] at h1; cases h1
              exact .inr (.inl ⟨_, rfl, rfl⟩)
            · exact absurd k (hwk _ _)
            · exact .inr (.inr k)
        · simp only [World.upd, if_neg hji]
          exact (h.sig j).mono (fun _ _ k => absurd (htk j k) hji) (hnt _ j hji)
            (fun w k => absurd k (hwk _ w)) (fun _ k => .inl k)
    · rename_i hwk'
      refine ⟨?_, fun j => ?_⟩
      · rintro ⟨wr, k, k'⟩
        cases k
        exact h.once ⟨_, hw, k'⟩
      · by_cases hji : j = i
        · subst hji
          refine ⟨hi.fresh, hi.reg, fun k => absurd hno k, ?_, ?_⟩
          · intro w c hpc
            replace hpc : (m.sigs j).pc = .setWaker w c := hpc
            rw [hpc] at hno; cases hno
          · intro a hpc hl ha
            rcases hi.pend a hpc hl ha with ⟨h1, -, -⟩ | k | k
            · rw [hwk'] at h1; cases h1
            · exact absurd k (hwk _ _)
            · exact .inr (.inr k)
        · exact (h.sig j).mono (fun _ _ k => absurd (htk j k) hji) (hnt _ j hji)
            (fun w k => absurd k (hwk _ w)) (fun _ k => .inl k)
  | wake i w =>
    have htk : ∀ j, ¬ m.tk j := by
      rintro j ⟨wr, k, k'⟩
      rw [hw] at k; cases k; cases k'
    have hnt : ∀ j, m.nt j →
        ((∃ wr, some (⟨todo, ch, .next⟩ : Writer) = some wr ∧ (j ∈ wr.todo ∨ wr.phase = .take j)) ∨
          (m.ending = true ∧ j ∈ m.signals)) := by
      rintro j (⟨wr, k, k'⟩ | k)
      · rw [hw] at k; cases k
        rcases k' with k' | k'
        · exact .inl ⟨_, rfl, .inl k'⟩
        · cases k'
      · exact .inr k
    have hi := h.sig i
    simp only [World.wstep]
    refine ⟨?_, fun j => ?_⟩
    · rintro ⟨wr, k, k'⟩
      cases k
      exact h.once ⟨_, hw, k'⟩
    · by_cases hji : j = i
      · subst hji
        simp only [World.upd, ite_true]
        refine ⟨hi.fresh, ?_, fun k k' => absurd (hi.chk k k') (htk j), fun w' c hpc k =>
          hnt j (hi.stored w' c hpc k), ?_⟩
        · have := hi.reg
          simp; omega
        · intro a hpc hl ha
          rcases hi.pend a hpc hl ha with ⟨h1, h2, h3⟩ | k | k
          · exact .inl ⟨h1, fun k => hnt j (h2 k), fun k => hnt j (h3 k)⟩
          · obtain ⟨wr, k, k'⟩ := k
            rw [hw] at k; cases k; cases k'
            refine .inr (.inr ?_)
            rw [List.drop_append_of_le_length hi.reg]
            simp
          · refine .inr (.inr ?_)
            rw [List.drop_append_of_le_length hi.reg]
            exact List.mem_append_left _ k
      · simp only [World.upd, if_neg hji]
        refine (h.sig j).mono (fun _ _ k => absurd k (htk j)) (hnt j) ?_ (fun _ k => .inl k)
        rintro w' ⟨wr, k, k'⟩
        rw [hw] at k; cases k; cases k'; exact absurd rfl hji

theorem wk_sstep {m m' : World α} {i : Nat} (h : Wk m) (hs : m.sstep i = some m') : Wk m' := by
  have hi := h.sig i
  simp only [World.sstep] at hs
  split at hs
  · cases hs
  · cases hs
  · -- make
    rename_i hpc
    cases hs
    have ha := hi.fresh (by simp [hpc, SPc.live])
    refine h.upd ⟨fun _ => ha, hi.reg, ?_, ?_, ?_⟩
    · intro k; by_cases hz : m.senders = 0 <;> simp [hz, SPc.checked] at k
    · intro w c k; by_cases hz : m.senders = 0 <;> simp [hz] at k
    · intro a _ k
      simp [ha] at k
  · -- push
    rename_i hpc
    have ha := hi.fresh (by simp [hpc, SPc.live])
    split at hs
    · cases hs
    · rename_i hw
      cases hs
      have h1 : Wk { m with signals := m.signals ++ [i] } := by
        refine ⟨h.once, fun j => ?_⟩
        refine (h.sig j).mono (fun _ _ k => k) ?_ (fun _ k => k) (fun _ k => .inl k)
        rintro (k | ⟨k, k'⟩)
        · exact .inl k
        · exact .inr ⟨k, by simp [k']⟩
      refine h1.upd (i := i) (s := { m.sigs i with pc := .idle }) ?_
      refine ⟨fun _ => ha, hi.reg, fun k => absurd rfl k, fun w c k => (by cases k), ?_⟩
      intro a _ k
      simp [ha] at k
  · -- swap
    rename_i w c hpc
    split at hs
    · cases hs
      exact h.upd ⟨fun k => (by cases k), hi.reg, fun k => absurd rfl k, fun w c k => (by cases k),
        fun a k => (by cases k)⟩
    · rename_i hc
      cases hs
      exact h.upd ⟨fun k => (by cases k), hi.reg, fun k k' => absurd k' hc, fun w c k => (by cases k),
        fun a k => (by cases k)⟩
  · -- read
    split at hs
    · cases hs
    · cases hs
      refine h.upd ⟨fun k => (by cases k), hi.reg, fun k => absurd rfl k, fun w c k => (by cases k), ?_⟩
      intro a _ k k'
      simp at k
      subst k; cases k'
  · -- load
    rename_i w c hpc
    split at hs
    · cases hs
      refine h.upd ⟨fun k => (by cases k), hi.reg, fun k => absurd rfl k, fun w c k => (by cases k), ?_⟩
      intro a _ k k'
      simp at k
      subst k; cases k'
    · rename_i hz
      cases hs
      exact h.upd ⟨fun k => (by cases k), hi.reg, fun _ k => hi.chk (by simp [hpc, SPc.checked]) k,
        fun w c k k' => absurd k' hz, fun a k => (by cases k)⟩
  · -- setWaker
    rename_i w c hpc
    split at hs
    · cases hs
    · rename_i hm
      cases hs
      have hch : (m.sigs i).changed ≠ true := by
        intro k
        obtain ⟨wr, h1, h2⟩ := hi.chk (by simp [hpc, SPc.checked]) k
        apply hm
        simp [World.mutexHeld, h1, h2]
      refine h.upd ⟨fun k => (by cases k), Nat.le_refl _, fun k => absurd rfl k, fun w c k => (by cases k), ?_⟩
      intro a _ k _
      simp at k
      subst k
      exact .inl ⟨rfl, fun k => absurd k hch, fun k => hi.stored w c hpc k⟩

theorem wk_step {m m' : World α} {e : Ev α} (hinv : Inv m) (h : Wk m)
    (hno : e = .wstep → ∀ wr i, m.writer = some wr → wr.phase = .take i → (m.sigs i).pc.checked = none)
    (hs : m.step e = some ((), m')) : Wk m' := by
  cases e with
  | write a =>
    simp only [World.step] at hs
    split at hs
    · cases hs
    · rename_i hw
      split at hs <;> cases hs
      refine ⟨?_, fun j => (h.sig j).mono ?_ ?_ ?_ (fun _ k => .inl k)⟩
      · rintro ⟨wr, k, k'⟩; cases k; cases k'
      · rintro - - ⟨wr, k, -⟩; rw [hw] at k; cases k
      · rintro (⟨wr, k, -⟩ | k)
        · rw [hw] at k; cases k
        · exact .inr k
      · rintro w ⟨wr, k, -⟩; rw [hw] at k; cases k
  | wstep =>
    simp only [World.step] at hs
    split at hs
    · cases hs
    · rename_i hw
      cases hs
      exact wk_wstep h hw (fun i => hno rfl _ i hw)
  | clone =>
    simp only [World.step] at hs
    split at hs <;> cases hs
    refine ⟨h.once, fun j => (h.sig j).mono (fun _ _ k => k) id (fun _ k => k) ?_⟩
    intro _ k
    simp at k
  | drop =>
    simp only [World.step] at hs
    split at hs
    · cases hs
      refine ⟨h.once, fun j => (h.sig j).mono (fun _ _ k => k) id (fun _ k => k) ?_⟩
      intro _ k
      simp at k
      omega
    · split at hs <;> cases hs
      rename_i hz
      refine ⟨?_, fun j => (h.sig j).mono (fun _ _ k => k) ?_ (fun _ k => k) ?_⟩
      · intro k
        have := hinv.ed (.inl k)
        omega
      · rintro (k | ⟨-, k⟩)
        · exact .inl k
        · exact .inr ⟨rfl, k⟩
      · intro hl _
        rcases (hinv.sig j).reg hl with k | k
        · exact .inr (.inr ⟨rfl, k⟩)
        · exact .inl k
  | endLock =>
    simp only [World.step] at hs
    split at hs
    · cases hs
    · rename_i hw
      split at hs <;> cases hs
      refine ⟨fun _ => rfl, fun j => (h.sig j).mono ?_ ?_ ?_ (fun _ k => .inl k)⟩
      · rintro - - ⟨wr, k, -⟩; rw [hw] at k; cases k
      · rintro (⟨wr, k, -⟩ | ⟨-, k⟩)
        · rw [hw] at k; cases k
        · exact .inl ⟨_, rfl, .inl k⟩
      · rintro w ⟨wr, k, -⟩; rw [hw] at k; cases k
  | subscribe =>
    simp only [World.step] at hs
    cases hs
    have : Wk (m.upd m.made ⟨true, none, .make, 0, [], [], 0⟩) := by
      refine h.upd ⟨fun _ => rfl, Nat.le_refl _, fun k => absurd rfl k, ?_, ?_⟩
      · intro w c k; cases k
      · intro a k; cases k
    exact ⟨this.once, this.sig⟩
  | poll i w =>
    simp only [World.step] at hs
    split at hs <;> cases hs
    have hi := h.sig i
    exact h.upd ⟨fun k => (by cases k), hi.reg, fun k => absurd rfl k, fun w c k => (by cases k),
      fun a k => (by cases k)⟩
  | sstep i =>
    simp only [World.step] at hs
    split at hs <;> cases hs
    rename_i hk
    exact wk_sstep h hk

theorem wk_init (a : α) : Wk (World.init a) := by
  refine ⟨?_, fun j => ⟨fun _ => rfl, Nat.le_refl _, fun k => absurd rfl k, fun w c k => (by cases k),
    fun a k => (by cases k)⟩⟩
  rintro ⟨wr, k, -⟩; cases k

theorem NoWindow.prefix {a : α} {es : List (Ev α)} {e : Ev α} (h : NoWindow a (es ++ [e])) :
    NoWindow a es := by
  intro k m wr i he hr
  have hk : k < es.length := (List.getElem?_eq_some_iff.1 he).1
  refine h k m wr i ?_ ?_
  · rw [List.getElem?_append_left hk]; exact he
  · rw [List.take_append_of_le_length (by omega)]; exact hr

theorem NoWindow.last {a : α} {es : List (Ev α)} {m : World α} (h : NoWindow a (es ++ [.wstep]))
    (hr : (World.init a).runs es = some m) (wr : Writer) (i : Nat) (hw : m.writer = some wr)
    (hp : wr.phase = .take i) : (m.sigs i).pc.checked = none := by
  have := h es.length m wr i (by simp) (by simpa using hr) hw hp
  cases hpc : (m.sigs i).pc with
  | load w c => exact absurd hpc (this w c).1
  | setWaker w c => exact absurd hpc (this w c).2
  | _ => rfl

theorem wk_runs {a : α} {m : World α} {es : List (Ev α)} (hno : NoWindow a es)
    (h : (World.init a).runs es = some m) : Wk m := by
  obtain ⟨os, h⟩ := runs_runE h
  have := runE_inv (Inv := fun es _ m => (World.init a).runs es = some m ∧ (NoWindow a es → Wk m))
    ⟨rfl, fun _ => wk_init a⟩ ?_ h
  · exact this.2 hno
  · intro es os s e o s' ⟨h1, h2⟩ hs
    obtain ⟨os1, h1'⟩ := runs_runE h1
    refine ⟨runs_of_runE (runE_snoc_of h1' hs), fun hno => ?_⟩
    refine wk_step (inv_runs h1) (h2 hno.prefix) ?_ hs
    rintro rfl
    exact hno.last h1

end Verif.MutConc
