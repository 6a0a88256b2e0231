import Verif.MutableConcCount

/-!
# C35, C36, C62: `Mutable`, every interleaving
-/

namespace Verif.MutConc

variable {α : Type}

/-- The values written by a schedule. -/
def writes : List (Ev α) → List α
  | [] => []
  | .write a :: es => a :: writes es
  | _ :: es => writes es

theorem writes_append (es es' : List (Ev α)) : writes (es ++ es') = writes es ++ writes es' := by
  induction es with
  | nil => rfl
  | cons e es ih => cases e <;> simp [writes, ih]

theorem sstep_log {m m' : World α} {i : Nat} (h : m.sstep i = some m') : m'.log = m.log := by
  simp only [World.sstep] at h
  split at h <;> (try split at h) <;> cases h <;> rfl

theorem wstep_log (m : World α) (wr : Writer) : (m.wstep wr).log = m.log := by
  unfold World.wstep
  split <;> (try split) <;> rfl

/-- Version `k` of the value, counting from 1, is the `k`th of the initial value and the values
written, in the order in which the writes took the lock. -/
theorem log_runs (a : α) (es : List (Ev α)) (m : World α) (hr : (World.init a).runs es = some m) :
    m.log = a :: writes es := by
  obtain ⟨os, hr⟩ := runs_runE hr
  refine runE_inv (Inv := fun es _ (m : World α) => m.log = a :: writes es) rfl ?_ hr
  intro es os s e o s' h hs
  rw [writes_append, ← List.cons_append, ← h]
  cases e with
  | write b =>
    simp only [World.step] at hs
    split at hs <;> (try split at hs) <;> cases hs
    rfl
  | wstep =>
    simp only [World.step] at hs
    split at hs <;> cases hs
    simp [wstep_log, writes]
  | clone =>
    simp only [World.step] at hs
    split at hs <;> cases hs
    simp [writes]
  | drop =>
    simp only [World.step] at hs
    split at hs <;> (try split at hs) <;> cases hs <;> simp [writes]
  | endLock =>
    simp only [World.step] at hs
    split at hs <;> (try split at hs) <;> cases hs
    simp [writes]
  | subscribe =>
    simp only [World.step] at hs
    cases hs
    simp [writes, World.upd]
  | poll i w =>
    simp only [World.step] at hs
    split at hs <;> cases hs
    simp [writes, World.upd]
  | sstep i =>
    simp only [World.step] at hs
    split at hs <;> cases hs
    rename_i hk
    simp [writes, sstep_log hk]

/-- **C35.**  In every schedule, with any number of handles, writing threads and signals: whenever a
poll of a signal ends, this poll or an earlier one of the same signal has produced a version of the
value at least as new as every write completed before the poll started.  (`started` counts the initial
value and the writes that had released the lock.) -/
theorem C35_no_lost_value (a : α) (es : List (Ev α)) (m : World α)
    (hr : (World.init a).runs es = some m) (i : Nat) (pre post : List (Answer α)) (b : Answer α)
    (hb : (m.sigs i).answers = pre ++ b :: post) :
    ∃ b' ∈ pre ++ [b], b'.isValue ∧ b.started ≤ b'.version :=
  ((inv_runs hr).sig i).ans pre b post hb

/-- **C35.**  A produced value was current after the poll started: it is the initial value or one of
the values written, its write had completed when the poll ended, and no later write had completed when
the poll started. -/
theorem C35_value (a : α) (es : List (Ev α)) (m : World α) (hr : (World.init a).runs es = some m)
    (i : Nat) (b : Answer α) (hb : b ∈ (m.sigs i).answers) (x : α) (hx : b.answer = .ready (some x)) :
    1 ≤ b.version ∧ b.started ≤ b.version ∧ b.version ≤ m.completed ∧
      (a :: writes es)[b.version - 1]? = some x := by
  rw [← log_runs a es m hr]
  exact ((inv_runs hr).sig i).val b hb x hx

/-- A signal is made; while it is polled another thread writes twice; the poll sees the second value.
A second poll waits and is woken by a third write; a third poll produces its value. -/
def lively : List (Ev Nat) :=
  [.subscribe, .sstep 0, .sstep 0, .poll 0 5, .write 10, .wstep, .sstep 0, .wstep, .wstep,
   .write 20, .wstep, .wstep, .wstep, .sstep 0,
   .poll 0 6, .sstep 0, .sstep 0, .poll 0 6, .sstep 0, .sstep 0, .sstep 0,
   .write 30, .wstep, .wstep, .wstep, .wstep, .poll 0 7, .sstep 0, .sstep 0]

example : ∃ m, (World.init 0).runs lively = some m ∧ AtRest m ∧
    (m.sigs 0).answers.map (fun b => (b.waker, b.started, b.answer, b.version)) =
      [(5, 1, .ready (some 20), 3), (6, 3, .ready (some 20), 3), (6, 3, .pending, 0),
       (7, 4, .ready (some 30), 4)] ∧ (m.sigs 0).woken = [6] := by
  refine ⟨_, rfl, ⟨rfl, rfl, fun i => ?_⟩, rfl, rfl⟩
  match i with
  | 0 => exact .inl rfl
  | i + 1 => exact .inr rfl

/-- **C35.**  A signal never goes back to an older version, and it does not run on its own: it produces
at most one value for the initial value and one for every write. -/
theorem C35_monotone (a : α) (es : List (Ev α)) (m : World α) (hr : (World.init a).runs es = some m)
    (i : Nat) :
    (produced (m.sigs i).answers).Pairwise (fun p q => p.1 ≤ q.1) ∧
      (produced (m.sigs i).answers).length ≤ 1 + (writes es).length := by
  have h := cinv_runs hr
  refine ⟨h.mono i, ?_⟩
  have h1 := h.cnt i
  rw [log_runs a es m hr] at h1
  simp only [Sig.due, List.length_cons] at h1
  omega

/-- Four polls of `lively` with three values, two of them of version 3. -/
example : ∃ m, (World.init 0).runs lively = some m ∧
    produced (m.sigs 0).answers = [(3, 20), (3, 20), (4, 30)] ∧ writes lively = [10, 20, 30] :=
  ⟨_, rfl, rfl, rfl⟩

/-- The claim of C36 for a schedule: at rest, a signal whose last poll answered `Pending` has been woken
since, or it has produced the current value and a handle is left. -/
def NoLostWakeup (a : α) (es : List (Ev α)) : Prop :=
  ∀ m i b, (World.init a).runs es = some m → AtRest m → (m.sigs i).answers.getLast? = some b →
    b.answer = .pending →
    b.waker ∈ (m.sigs i).woken.drop (m.sigs i).regAt ∨
      (m.senders ≠ 0 ∧ ∃ b' ∈ (m.sigs i).answers, b'.isValue ∧ b'.version = m.log.length)

/-- A signal has produced the initial value.  A second poll finds no change; another thread writes and
finds no waker; the poll stores its waker. -/
def lostWakeup : List (Ev Nat) :=
  [.subscribe, .sstep 0, .sstep 0, .poll 0 5, .sstep 0, .sstep 0,
   .poll 0 6, .sstep 0, .sstep 0, .write 10, .wstep, .wstep, .wstep, .sstep 0]

theorem atRest_zero {m : World Nat} (h1 : m.writer = none) (h2 : m.ending = false)
    (h3 : (m.sigs 0).pc = .idle) (h4 : ∀ i, (m.sigs (i + 1)).pc = .unborn) : AtRest m := by
  refine ⟨h1, h2, fun i => ?_⟩
  cases i with
  | zero => exact .inl h3
  | succ i => exact .inr (h4 i)

/-- **C36 is false.**  The signal waits, was never woken, and has not produced the value written. -/
theorem C36_lost_wakeup : ¬ NoLostWakeup 0 lostWakeup := by
  intro h
  rcases h _ 0 _ rfl (atRest_zero rfl rfl rfl fun _ => rfl) rfl rfl with k | ⟨-, b, hb, hv, hver⟩
  · cases k
  · rcases List.mem_cons.1 hb with rfl | hb
    · cases hver
    · rcases List.mem_cons.1 hb with rfl | hb
      · cases hver
      · cases hb

/-- The same with the drop of the last handle instead of a write. -/
def lostEnd : List (Ev Nat) :=
  [.subscribe, .sstep 0, .sstep 0, .poll 0 5, .sstep 0, .sstep 0,
   .poll 0 6, .sstep 0, .sstep 0, .drop, .endLock, .wstep, .wstep, .wstep, .sstep 0]

/-- **C36 is false**, worse: no handle is left and the signal waits for ever. -/
theorem C36_lost_end : ¬ NoLostWakeup 0 lostEnd := by
  intro h
  rcases h _ 0 _ rfl (atRest_zero rfl rfl rfl fun _ => rfl) rfl rfl with k | ⟨hz, -⟩
  · cases k
  · exact hz rfl

/-- **C36 (partial).**  In every schedule in which no thread takes the waker of a signal while a poll of
that signal is between its check of `changed` and its storing of its waker, with any number of handles,
threads and signals: at rest, a signal whose last poll answered `Pending` has been woken since, or it
has produced the current value and a handle is left.  Missing: the other schedules, for which this is
false. -/
theorem C36_no_window_partial (a : α) (es : List (Ev α)) (h : NoWindow a es) : NoLostWakeup a es := by
  intro m i b hr hrest hl hb
  have hinv := inv_runs hr
  have hi := hinv.sig i
  obtain ⟨hw, he, hpc⟩ := hrest
  obtain ⟨h1, h2⟩ := World.writer_none hw i
  have hnt : ¬ m.nt i := by
    rintro (⟨wr, k, -⟩ | ⟨k, -⟩)
    · rw [hw] at k; cases k
    · rw [he] at k; cases k
  have hwk := (wk_runs h hr).sig i
  have hidle : (m.sigs i).pc = .idle := by
    rcases hpc i with k | k
    · exact k
    · have := hwk.fresh (by simp [k, SPc.live])
      rw [this] at hl; cases hl
  rcases hwk.pend b hidle hl hb with ⟨-, k1, k2⟩ | ⟨wr, k, -⟩ | k
  · refine .inr ⟨fun k => hnt (k2 k), ?_⟩
    have hreq : m.log.length ≤ (m.sigs i).delivered := by
      rcases hi.main (by simp [hidle]) with k | k | k
      · exact absurd (k1 k) hnt
      · simp [hidle, SPc.reading] at k
      · rw [h2] at k; exact k
    have := hinv.log_pos
    obtain ⟨b', hb', ⟨x, hx⟩, hd⟩ := hi.del (by omega)
    refine ⟨b', hb', ⟨x, hx⟩, ?_⟩
    have := (hi.val b' hb' x hx).2.2.1
    omega
  · rw [hw] at k; cases k
  · exact .inl k

/-- A check of `NoWindow` for concrete schedules. -/
def noWindowCheck (a : α) (es : List (Ev α)) : Bool :=
  (List.range es.length).all fun k =>
    match es[k]? with
    | some .wstep =>
      ((World.init a).runs (es.take k)).all fun m =>
        match m.writer with
        | some ⟨_, _, .take i⟩ => (m.sigs i).pc.checked.isNone
        | _ => true
    | _ => true

theorem noWindow_of_check {es : List (Ev α)} {a : α} (h : noWindowCheck a es = true) :
    NoWindow a es := by
  intro k m wr i he hr hw hp w c
  have hk : k < es.length := (List.getElem?_eq_some_iff.1 he).1
  have := List.all_eq_true.1 h k (List.mem_range.2 hk)
  obtain ⟨todo, ch, ph⟩ := wr
  cases hp
  simp only [he, hr, Option.all_some, hw] at this
  constructor <;> intro hpc <;> simp [hpc, SPc.checked] at this

/-- The schedule above up to its third write: the last poll answered `Pending` and was woken. -/
example : NoWindow 0 (lively.take 26) ∧ ∃ m b, (World.init 0).runs (lively.take 26) = some m ∧
    AtRest m ∧ (m.sigs 0).answers.getLast? = some b ∧ b.answer = .pending ∧
    b.waker ∈ (m.sigs 0).woken.drop (m.sigs 0).regAt :=
  ⟨noWindow_of_check rfl, _, _, rfl, atRest_zero rfl rfl rfl (fun _ => rfl), rfl, rfl, .head _⟩

/-- The claim of C62 for a schedule: a signal that has answered the end has produced the last value. -/
def LastBeforeEnd (a : α) (es : List (Ev α)) : Prop :=
  ∀ m i b, (World.init a).runs es = some m → b ∈ (m.sigs i).answers → b.answer = .ready none →
    ∃ b' ∈ (m.sigs i).answers, b'.isValue ∧ b'.version = m.log.length

/-- A poll finds no change; another thread writes and then drops the last handle; the poll finds no
handle. -/
def lostLast : List (Ev Nat) :=
  [.subscribe, .sstep 0, .sstep 0, .poll 0 5, .sstep 0, .sstep 0,
   .poll 0 6, .sstep 0, .write 10, .wstep, .wstep, .wstep, .drop, .sstep 0]

/-- **C62 is false.**  The signal ends and the value 10 was never produced. -/
theorem C62_last_value_lost : ¬ LastBeforeEnd 0 lostLast := by
  intro h
  obtain ⟨b, hb, -, hver⟩ := h _ 0 _ rfl (List.mem_cons_of_mem _ (List.mem_cons_self)) rfl
  rcases List.mem_cons.1 hb with rfl | hb
  · cases hver
  · rcases List.mem_cons.1 hb with rfl | hb
    · cases hver
    · cases hb

/-- **C62 (partial).**  In every schedule: if all writes had completed when the poll that answers the
end started, the last value was produced before.  Missing: writes during that poll, for which this is
false. -/
theorem C62_quiet_partial (a : α) (es : List (Ev α)) (m : World α)
    (hr : (World.init a).runs es = some m) (i : Nat) (pre post : List (Answer α)) (b : Answer α)
    (hb : (m.sigs i).answers = pre ++ b :: post) (hn : b.answer = .ready none)
    (hq : b.started = (a :: writes es).length) :
    ∃ b' ∈ pre, ∃ x, b'.answer = .ready (some x) ∧ (a :: writes es).getLast? = some x := by
  have hinv := inv_runs hr
  obtain ⟨b', hb', ⟨x, hx⟩, hver⟩ := C35_no_lost_value a es m hr i pre post b hb
  rcases List.mem_append.1 hb' with hb' | hb'
  · have hv := C35_value a es m hr i b' (by rw [hb]; exact List.mem_append_left _ hb') x hx
    have hc : m.completed ≤ (a :: writes es).length := by
      rw [← log_runs a es m hr]
      unfold World.completed
      split <;> omega
    refine ⟨b', hb', x, hx, ?_⟩
    rw [List.getLast?_eq_getElem?, ← hv.2.2.2]
    congr 1
    omega
  · rw [List.mem_singleton] at hb'
    subst hb'
    rw [hn] at hx; cases hx

/-- A signal produces the last value and then the end. -/
def quiet : List (Ev Nat) :=
  [.subscribe, .sstep 0, .sstep 0, .write 10, .wstep, .wstep, .wstep, .poll 0 5, .sstep 0, .sstep 0,
   .drop, .endLock, .poll 0 6, .sstep 0, .sstep 0]

example : ∃ m b1 b2, (World.init 0).runs quiet = some m ∧ (m.sigs 0).answers = [b1] ++ b2 :: [] ∧
    b2.answer = .ready none ∧ b2.started = (0 :: writes quiet).length ∧ b1.answer = .ready (some 10) :=
  ⟨_, _, _, rfl, rfl, rfl, rfl, rfl⟩

end Verif.MutConc
