import Verif.Props.MutableConc
import Verif.Sink

/-!
# The signals of a `Mutable` that other threads write to, as sources of expressions

For C80: the polls of one signal in an interleaved history (`Verif/MutableConc.lean`), and what is
known about its last poll.
-/

namespace Verif.MutConc

variable {α : Type}

/-! ## Specification -/

/-- The polls of signal `i`, with their answers. -/
def polled (m : World α) (i : Nat) : SigTrace α :=
  (m.sigs i).answers.map fun b => (b.waker, b.answer)

/-- The waker of the last poll that stored one has been woken since. -/
def WokenSince (m : World α) (i : Nat) (x : Waker) : Prop :=
  x ∈ (m.sigs i).woken.drop (m.sigs i).regAt

/-- No thread is writing or dropping the last handle, and none polls one of these signals. -/
def Quiet (m : World α) (mine : Nat → Prop) : Prop :=
  m.writer = none ∧ m.ending = false ∧ ∀ i, mine i → (m.sigs i).pc = .idle ∨ (m.sigs i).pc = .unborn

/-- If one of these signals has ended, then no write was running when the poll began that told so,
and none came later. -/
def QuietEnd (a : α) (es : List (Ev α)) (m : World α) (mine : Nat → Prop) : Prop :=
  ∀ i, mine i → ∀ b ∈ (m.sigs i).answers, b.answer = .ready none →
    b.started = (a :: writes es).length

/-! ## Lemmas -/

theorem items_produced (l : List (Answer α)) :
    items (l.map (·.answer)) = (produced l).map (·.2) := by
  induction l with
  | nil => rfl
  | cons b l ih =>
    obtain ⟨w, st, (_ | x) | _, v⟩ := b <;> simp [items, produced, ih]

theorem produced_mem {l : List (Answer α)} {b : Answer α} {x : α} (hb : b ∈ l)
    (hx : b.answer = .ready (some x)) : (b.version, x) ∈ produced l := by
  induction l with
  | nil => cases hb
  | cons c l ih =>
    rcases List.mem_cons.1 hb with rfl | hb'
    · obtain ⟨w, st, an, v⟩ := b
      cases hx
      simp [produced]
    · obtain ⟨w, st, (_ | y) | _, v⟩ := c <;> simp [produced, ih hb']

theorem polled_items (m : World α) (i : Nat) :
    items ((polled m i).map (·.2)) = (produced (m.sigs i).answers).map (·.2) := by
  rw [← items_produced]
  simp [polled, Function.comp_def]

/-- A signal that has produced the newest version has produced it last. -/
theorem last_current {a : α} {es : List (Ev α)} {m : World α} (hr : (World.init a).runs es = some m)
    {i : Nat} (h : ∃ b ∈ (m.sigs i).answers, b.isValue ∧ m.log.length ≤ b.version) :
    SigTrace.last (polled m i) = some m.value := by
  obtain ⟨b, hb, ⟨x, hx⟩, hv⟩ := h
  have hmem := produced_mem hb hx
  have hmono := (C35_monotone a es m hr i).1
  unfold SigTrace.last
  rw [polled_items, List.getLast?_map]
  cases hp : (produced (m.sigs i).answers).getLast? with
  | none =>
    rw [List.getLast?_eq_none_iff] at hp
    rw [hp] at hmem; cases hmem
  | some q =>
    obtain ⟨l, hl⟩ := List.getLast?_eq_some_iff.1 hp
    have hq : q ∈ produced (m.sigs i).answers := by rw [hl]; simp
    have hle : b.version ≤ q.1 := by
      rw [hl] at hmem hmono
      rcases List.mem_append.1 hmem with h1 | h1
      · exact (List.pairwise_append.1 hmono).2.2 _ h1 q (by simp)
      · rw [← List.mem_singleton.1 h1]
        exact Nat.le_refl _
    obtain ⟨b2, g1, g2, g3⟩ := mem_produced hq
    obtain ⟨v1, v2, v3, v4⟩ := C35_value a es m hr i b2 g1 q.2 g2
    have hc : m.completed ≤ m.log.length := by
      unfold World.completed
      split <;> omega
    have hlog := (inv_runs hr).log
    rw [← log_runs a es m hr] at v4
    have : b2.version - 1 = m.log.length - 1 := by omega
    rw [this, ← List.getLast?_eq_getElem?, hlog] at v4
    simpa using v4.symm

/-- The first answer is a value. -/
theorem polled_first {a : α} {es : List (Ev α)} {m : World α} (hr : (World.init a).runs es = some m)
    (i : Nat) : polled m i = [] ∨ ∃ b, (polled m i).head?.map (·.2) = some (.ready (some b)) := by
  unfold polled
  cases hb : (m.sigs i).answers with
  | nil => exact .inl rfl
  | cons b l =>
    right
    obtain ⟨b', h1, ⟨x, hx⟩, -⟩ := C35_no_lost_value a es m hr i [] l b hb
    simp only [List.nil_append, List.mem_singleton] at h1
    subst h1
    exact ⟨x, by simp [hx]⟩

/-- C36 for one signal. -/
theorem pending_current {a : α} {es : List (Ev α)} {m : World α} (hr : (World.init a).runs es = some m)
    (h : NoWindow a es) (hw : m.writer = none) (he : m.ending = false) {i : Nat}
    (hpc : (m.sigs i).pc = .idle ∨ (m.sigs i).pc = .unborn) {b : Answer α}
    (hl : (m.sigs i).answers.getLast? = some b) (hb : b.answer = .pending) :
    b.waker ∈ (m.sigs i).woken.drop (m.sigs i).regAt ∨
    ∃ b' ∈ (m.sigs i).answers, b'.isValue ∧ m.log.length ≤ b'.version := by
  have hinv := inv_runs hr
  have hi := hinv.sig i
  obtain ⟨h1, h2⟩ := World.writer_none hw i
  have hnt : ¬ m.nt i := by
    rintro (⟨wr, k, -⟩ | ⟨k, -⟩)
    · rw [hw] at k; cases k
    · rw [he] at k; cases k
  have hwk := (wk_runs h hr).sig i
  have hidle : (m.sigs i).pc = .idle := by
    rcases hpc with k | k
    · exact k
    · have := hwk.fresh (by simp [k, SPc.live])
      rw [this] at hl; cases hl
  rcases hwk.pend b hidle hl hb with ⟨-, k1, k2⟩ | ⟨wr, k, -⟩ | k
  · right
    have hreq : m.log.length ≤ (m.sigs i).delivered := by
      rcases hi.main (by simp [hidle]) with k | k | k
      · exact absurd (k1 k) hnt
      · simp [hidle, SPc.reading] at k
      · rw [h2] at k; exact k
    have := hinv.log_pos
    obtain ⟨b', hb', ⟨x, hx⟩, hd⟩ := hi.del (by omega)
    exact ⟨b', hb', ⟨x, hx⟩, by omega⟩
  · rw [hw] at k; cases k
  · exact .inl k

theorem polled_rest {a : α} {es : List (Ev α)} {m : World α} (hr : (World.init a).runs es = some m)
    {mine : Nat → Prop} (hn : NoWindow a es) (hq : Quiet m mine) (he : QuietEnd a es m mine) {i : Nat}
    (hi : mine i) {o : Option Waker} (ho : Rest o (polled m i)) :
    SigTrace.last (polled m i) = some m.value ∨ ∃ x, o = some x ∧ WokenSince m i x := by
  have key : ∀ x r, (polled m i).getLast? = some (x, r) →
      ∃ b, (m.sigs i).answers.getLast? = some b ∧ b.waker = x ∧ b.answer = r := by
    intro x r h
    unfold polled at h
    rw [List.getLast?_map, Option.map_eq_some_iff] at h
    obtain ⟨b, h1, h2⟩ := h
    cases h2
    exact ⟨b, h1, rfl, rfl⟩
  rcases ho with ⟨x, rfl, hx⟩ | ⟨y, hy⟩
  · obtain ⟨b, h1, rfl, h3⟩ := key _ _ hx
    rcases pending_current hr hn hq.1 hq.2.1 (hq.2.2 i hi) h1 h3 with h | h
    · exact .inr ⟨_, rfl, h⟩
    · exact .inl (last_current hr h)
  · obtain ⟨b, h1, -, h3⟩ := key _ _ hy
    obtain ⟨l, hl⟩ := List.getLast?_eq_some_iff.1 h1
    have hb : b ∈ (m.sigs i).answers := by rw [hl]; simp
    obtain ⟨b', g1, g2, g3⟩ := C35_no_lost_value a es m hr i l [] b hl
    refine .inl (last_current hr ⟨b', ?_, g2, ?_⟩)
    · rw [hl]; exact g1
    · rw [he i hi b hb h3] at g3
      rw [log_runs a es m hr]
      exact g3

end Verif.MutConc
