import Verif.SignalVec5
import Verif.FlattenProofs

/-!
# Proofs for `delay_remove`
-/

namespace Verif

variable {α : Type}

/-- The elements whose removal is not being delayed. -/
def live (fs : List (DState α)) : List α := (fs.filter (!·.isRemoving)).map (·.tag)

@[simp] theorem live_nil : live ([] : List (DState α)) = [] := rfl
theorem live_append (p q : List (DState α)) : live (p ++ q) = live p ++ live q := by simp [live]
theorem live_on {s : DState α} (h : s.isRemoving = false) (fs : List (DState α)) :
    live (s :: fs) = s.tag :: live fs := by simp [live, h]
theorem live_off {s : DState α} (h : s.isRemoving = true) (fs : List (DState α)) :
    live (s :: fs) = live fs := by simp [live, h]

theorem live_split {fs : List (DState α)} {p q : List α} {b : α} (h : live fs = p ++ b :: q) :
    ∃ f1 s f2, fs = f1 ++ s :: f2 ∧ s.isRemoving = false ∧ s.tag = b ∧ live f1 = p ∧ live f2 = q ∧
      findLive fs p.length = some f1.length := by
  induction fs generalizing p with
  | nil => simp at h
  | cons s fs ih =>
    cases hs : s.isRemoving with
    | true =>
      rw [live_off hs] at h
      obtain ⟨f1, t, f2, rfl, h1, h2, h3, h4, h5⟩ := ih h
      exact ⟨s :: f1, t, f2, rfl, h1, h2, by rw [live_off hs, h3], h4, by simp [findLive, hs, h5]⟩
    | false =>
      rw [live_on hs] at h
      cases p with
      | nil =>
        simp only [List.nil_append, List.cons.injEq] at h
        exact ⟨[], s, fs, rfl, hs, h.1, rfl, h.2, by simp [findLive, hs]⟩
      | cons a p =>
        simp only [List.cons_append, List.cons.injEq] at h
        obtain ⟨f1, t, f2, rfl, h1, h2, h3, h4, h5⟩ := ih h.2
        exact ⟨s :: f1, t, f2, rfl, h1, h2, by rw [live_on hs, h3, h.1], h4,
          by simp [findLive, hs, h5]⟩

theorem findLive_none {fs : List (DState α)} {n : Nat} (h : (live fs).length ≤ n) :
    findLive fs n = none := by
  induction fs generalizing n with
  | nil => rfl
  | cons s fs ih =>
    cases hs : s.isRemoving with
    | true => rw [live_off hs] at h; simp [findLive, hs, ih h]
    | false =>
      rw [live_on hs] at h
      cases n with
      | zero => simp at h
      | succ n => simp at h; simp [findLive, hs, ih h]

/-- Where an insertion in the input goes. -/
theorem live_gap {fs : List (DState α)} {p q : List α} (h : live fs = p ++ q) :
    ∃ f1 f2, fs = f1 ++ f2 ∧ live f1 = p ∧ live f2 = q ∧
      (findLive fs p.length).getD fs.length = f1.length := by
  cases q with
  | nil =>
    refine ⟨fs, [], by simp, by simpa using h, rfl, ?_⟩
    rw [findLive_none (by simp [h])]
    rfl
  | cons b q =>
    obtain ⟨f1, s, f2, rfl, h1, h2, h3, h4, h5⟩ := live_split h
    exact ⟨f1, s :: f2, rfl, h3, by rw [live_on h1, h2, h4], by simp [h5]⟩

theorem findLastLive_none {fs : List (DState α)} (h : live fs = []) : findLastLive fs = none := by
  induction fs with
  | nil => rfl
  | cons s fs ih =>
    cases hs : s.isRemoving with
    | true => rw [live_off hs] at h; simp [findLastLive, hs, ih h]
    | false => rw [live_on hs] at h; simp at h

theorem live_last {fs : List (DState α)} {p : List α} {b : α} (h : live fs = p ++ [b]) :
    ∃ f1 s f2, fs = f1 ++ s :: f2 ∧ s.isRemoving = false ∧ s.tag = b ∧ live f1 = p ∧ live f2 = [] ∧
      findLastLive fs = some f1.length := by
  obtain ⟨f1, s, f2, rfl, h1, h2, h3, h4, -⟩ := live_split (p := p) (q := []) h
  refine ⟨f1, s, f2, rfl, h1, h2, h3, h4, ?_⟩
  clear h h3
  induction f1 with
  | nil => simp [findLastLive, findLastLive_none h4, h1]
  | cons t f1 ih => simp [findLastLive, ih]

/-- What is known of a state in `futures`: its future belongs to its element and is not ready yet,
and was polled iff the element is being removed. -/
structure DOk (g : α → List (Poll Unit)) (s : DState α) : Prop where
  plays : Plays (g s.tag) s.future
  waiting : ¬ s.future.completed
  polled : s.isRemoving = true ↔ s.future.hist ≠ []

/-- What is known of a removed state: its future is ready and was not polled after that. -/
structure DGone (g : α → List (Poll Unit)) (s : DState α) : Prop where
  plays : Plays (g s.tag) s.future
  ready : ∃ pre w, s.future.hist = pre ++ [(w, .ready ())] ∧ ∀ x ∈ pre, x.2 = .pending

theorem Src.poll_hist_unit (w : Waker) (src : Src Unit) :
    ∃ r src', src.poll w = (r, src') ∧ src'.hist = src.hist ++ [(w, r)] := by
  obtain ⟨todo, hist⟩ := src
  cases todo with
  | nil => exact ⟨_, _, rfl, rfl⟩
  | cons r rs => exact ⟨_, _, rfl, rfl⟩

/-- Polling the future of a state. -/
theorem DOk.poll {g : α → List (Poll Unit)} {s : DState α} (h : DOk g s) (w : Waker) :
    ∃ r f, s.future.poll w = (r, f) ∧
      ((r = .ready () ∧ ∀ b, DGone g ⟨s.tag, f, b⟩) ∨
       (r = .pending ∧ DOk g ⟨s.tag, f, true⟩ ∧ f.armed w)) := by
  obtain ⟨r, f, hp, hh⟩ := Src.poll_hist_unit w s.future
  refine ⟨r, f, hp, ?_⟩
  have hpl := h.plays.poll hp
  have hpre : ∀ x ∈ s.future.hist, x.2 = .pending := by
    rintro ⟨w', r'⟩ hx
    cases r' with
    | pending => rfl
    | ready a => exact absurd ⟨w', a, hx⟩ h.waiting
  cases r with
  | ready a => exact .inl ⟨rfl, fun b => ⟨hpl, _, w, hh, hpre⟩⟩
  | pending =>
    refine .inr ⟨rfl, ⟨hpl, ?_, by simp [hh]⟩, by simp [Src.armed, hh]⟩
    rintro ⟨w', a, hx⟩
    simp only [hh, List.mem_append, List.mem_singleton, Prod.mk.injEq, reduceCtorEq, and_false,
      or_false] at hx
    exact absurd (hpre _ hx) (by simp)

theorem DOk.new (g : α → List (Poll Unit)) (a : α) : DOk g (DState.new g a) :=
  ⟨⟨0, by simp [DState.new, Src.mk']⟩, by rintro ⟨w, x, h⟩; simp [DState.new, Src.mk'] at h,
    by simp [DState.new, Src.mk']⟩

/-- A diff that removes an element. -/
def VecDiff.isRemoval : VecDiff α → Bool
  | .removeAt _ => true
  | .pop => true
  | _ => false

theorem removeIndex_spec (p q : List (DState α)) (s : DState α) (np : List (VecDiff α))
    (gone : List (DState α)) :
    ∃ d : VecDiff α, DVars.removeIndex ⟨p ++ s :: q, np, gone⟩ p.length =
        some ⟨p ++ q, np ++ [d], gone ++ [s]⟩ ∧ d.isRemoval = true ∧
      d.apply ((p ++ s :: q).map (·.tag)) = some ((p ++ q).map (·.tag)) := by
  unfold DVars.removeIndex
  cases q with
  | nil =>
    refine ⟨.pop, by simp [vPop], rfl, by simp [VecDiff.apply, vPop]⟩
  | cons t q =>
    refine ⟨.removeAt p.length, by simp [vRemove_append], rfl, ?_⟩
    have := vRemove_append (p.map (·.tag)) ((t :: q).map (·.tag)) s.tag
    rw [List.length_map] at this
    simp only [VecDiff.apply, List.map_append, List.map_cons] at this ⊢
    rw [this]

/-- The states that stay. -/
def stay (l : List (DState α × Bool)) : List (DState α) := (l.filter (!·.2)).map (·.1)

theorem removeAll_append (v : DVars α) (a b : List Nat) :
    v.removeAll (a ++ b) = (v.removeAll a).bind (·.removeAll b) := by
  induction a generalizing v with
  | nil => rfl
  | cons i a ih =>
    simp only [List.cons_append, DVars.removeAll]
    cases v.removeIndex i with
    | none => rfl
    | some v => exact ih v

theorem removeAll_spec (p : List (DState α)) (l : List (DState α × Bool)) (np : List (VecDiff α))
    (gone : List (DState α)) :
    ∃ (ds : List (VecDiff α)) (dead : List (DState α)),
      DVars.removeAll ⟨p ++ l.map (·.1), np, gone⟩ (indexesOf p.length l).reverse =
        some ⟨p ++ stay l, np ++ ds, gone ++ dead⟩ ∧
      replay ds ((p ++ l.map (·.1)).map (·.tag)) = some ((p ++ stay l).map (·.tag)) ∧
      ds.length = dead.length ∧ (∀ d ∈ ds, d.isRemoval = true) ∧ (∀ s ∈ dead, (s, true) ∈ l) ∧
      (ds = [] → ∀ x ∈ l, x.2 = false) := by
  induction l generalizing p with
  | nil => exact ⟨[], [], by simp [indexesOf, DVars.removeAll, stay], by simp [replay, stay], rfl,
      by simp, by simp, by simp⟩
  | cons x l ih =>
    obtain ⟨s, b⟩ := x
    obtain ⟨ds, dead, h1, h2, h3, h4, h5, h6⟩ := ih (p ++ [s])
    simp only [List.append_assoc, List.singleton_append, List.length_append, List.length_singleton]
      at h1 h2
    cases b with
    | false =>
      refine ⟨ds, dead, ?_, ?_, h3, h4, fun t ht => by simp [h5 t ht], by simpa using h6⟩
      · simpa [indexesOf, stay] using h1
      · simpa [stay] using h2
    | true =>
      obtain ⟨d, e1, e2, e3⟩ := removeIndex_spec p (stay l) s (np ++ ds) (gone ++ dead)
      refine ⟨ds ++ [d], dead ++ [s], ?_, ?_, by simp [h3], ?_, ?_, by simp⟩
      · simp only [indexesOf, List.reverse_cons, List.map_cons]
        rw [removeAll_append, h1]
        simp only [Option.bind_some, DVars.removeAll, e1]
        simp [stay]
      · simp only [List.map_cons]
        refine replay_append_some h2 ?_
        simp only [replay, e3]
        simp [stay]
      · intro d' hd'
        rcases List.mem_append.1 hd' with h | h
        · exact h4 d' h
        · simp at h; rw [h]; exact e2
      · intro t ht
        rcases List.mem_append.1 ht with h | h
        · simp [h5 t h]
        · simp at h; simp [h]

theorem markExisting_spec {g : α → List (Poll Unit)} (w : Waker) {fs : List (DState α)}
    (h : ∀ s ∈ fs, DOk g s) :
    ((markExisting w fs).map (·.1)).map (·.tag) = fs.map (·.tag) ∧
    (∀ s ∈ stay (markExisting w fs), DOk g s ∧ s.isRemoving = true) ∧
    (∀ s, (s, true) ∈ markExisting w fs → DGone g s) := by
  induction fs with
  | nil => exact ⟨rfl, by simp [markExisting, stay], by simp [markExisting]⟩
  | cons s fs ih =>
    obtain ⟨h1, h2, h3⟩ := ih fun t ht => h t (by simp [ht])
    have hs := h s (by simp)
    cases hr : s.isRemoving with
    | true =>
      have : markExisting w (s :: fs) = (s, false) :: markExisting w fs := by
        simp [markExisting, DState.shouldRemove, hr]
      rw [this]
      refine ⟨by simpa using h1, ?_, ?_⟩
      · intro t ht
        simp only [stay, List.filter_cons, Bool.not_false, if_true, List.map_cons,
          List.mem_cons] at ht
        rcases ht with rfl | ht
        · exact ⟨hs, hr⟩
        · exact h2 t ht
      · intro t ht
        simp at ht
        exact h3 t ht
    | false =>
      obtain ⟨r, f, hp, ⟨rfl, hg⟩ | ⟨rfl, hok, ha⟩⟩ := hs.poll w
      · have : markExisting w (s :: fs) = (⟨s.tag, f, false⟩, true) :: markExisting w fs := by
          simp [markExisting, DState.shouldRemove, hr, hp]
        rw [this]
        refine ⟨by simpa using h1, ?_, ?_⟩
        · intro t ht
          simp only [stay, List.filter_cons, Bool.not_true] at ht
          exact h2 t ht
        · intro t ht
          simp at ht
          rcases ht with rfl | ht
          · exact hg _
          · exact h3 t ht
      · have : markExisting w (s :: fs) = (⟨s.tag, f, true⟩, false) :: markExisting w fs := by
          simp [markExisting, DState.shouldRemove, hr, hp]
        rw [this]
        refine ⟨by simpa using h1, ?_, ?_⟩
        · intro t ht
          simp only [stay, List.filter_cons, Bool.not_false, if_true, List.map_cons,
            List.mem_cons] at ht
          rcases ht with rfl | ht
          · exact ⟨hok, rfl⟩
          · exact h2 t ht
        · intro t ht
          simp at ht
          exact h3 t ht

theorem pollRemoving_spec {g : α → List (Poll Unit)} (w : Waker) {fs : List (DState α)}
    (h : ∀ s ∈ fs, DOk g s) :
    ∃ l pr, pollRemoving w fs = (l, pr) ∧
    (l.map (·.1)).map (·.tag) = fs.map (·.tag) ∧
    live (stay l) = live fs ∧
    (∀ s ∈ stay l, DOk g s ∧ (s.isRemoving = true → s.future.armed w)) ∧
    (∀ s, (s, true) ∈ l → DGone g s) ∧
    (pr = false ↔ ∀ s ∈ stay l, s.isRemoving = false) := by
  induction fs with
  | nil => exact ⟨[], false, rfl, rfl, rfl, by simp [stay], by simp, by simp [stay]⟩
  | cons s fs ih =>
    obtain ⟨l, pr, h0, h1, h2, h3, h4, h5⟩ := ih fun t ht => h t (by simp [ht])
    have hs := h s (by simp)
    cases hr : s.isRemoving with
    | false =>
      have hst : stay ((s, false) :: l) = s :: stay l := by simp [stay]
      refine ⟨(s, false) :: l, pr, by simp [pollRemoving, h0, hr], by simpa using h1,
        by rw [hst, live_on hr, live_on hr, h2], ?_, ?_, ?_⟩
      · rw [hst]
        intro t ht
        rcases List.mem_cons.1 ht with rfl | ht
        · exact ⟨hs, by simp [hr]⟩
        · exact h3 t ht
      · intro t ht
        simp at ht
        exact h4 t ht
      · rw [hst, h5]
        simp [hr]
    | true =>
      obtain ⟨r, f, hp, ⟨rfl, hg⟩ | ⟨rfl, hok, ha⟩⟩ := hs.poll w
      · have hst : stay ((⟨s.tag, f, true⟩, true) :: l) = stay l := by simp [stay]
        refine ⟨(⟨s.tag, f, true⟩, true) :: l, pr, by simp [pollRemoving, h0, hr, hp],
          by simpa using h1, by rw [hst, live_off hr, h2], ?_, ?_, ?_⟩
        · rw [hst]; exact h3
        · intro t ht
          simp at ht
          rcases ht with rfl | ht
          · exact hg _
          · exact h4 t ht
        · rw [hst]; exact h5
      · have hst : stay ((⟨s.tag, f, true⟩, false) :: l) = ⟨s.tag, f, true⟩ :: stay l := by simp [stay]
        refine ⟨(⟨s.tag, f, true⟩, false) :: l, true, by simp [pollRemoving, h0, hr, hp],
          by simpa using h1, by rw [hst, live_off rfl, live_off hr, h2], ?_, ?_, ?_⟩
        · rw [hst]
          intro t ht
          rcases List.mem_cons.1 ht with rfl | ht
          · exact ⟨hok, fun _ => ha⟩
          · exact h3 t ht
        · intro t ht
          simp at ht
          exact h4 t ht
        · rw [hst]; simp

/-- The invariant of the local variables; `xs` is what the input describes, `zs` what the output
emitted before this poll describes, `n` the number of removals emitted before this poll. -/
structure DInv (g : α → List (Poll Unit)) (v : DVars α) (xs zs : List α) (n : Nat) : Prop where
  live : live v.futures = xs
  queue : replay v.newPending zs = some (v.futures.map (·.tag))
  ok : ∀ s ∈ v.futures, DOk g s
  gone : ∀ s ∈ v.gone, DGone g s
  count : n + v.newPending.countP VecDiff.isRemoval = v.gone.length

theorem countP_all {ds : List (VecDiff α)} (h : ∀ d ∈ ds, d.isRemoval = true) :
    ds.countP VecDiff.isRemoval = ds.length := by
  simpa [List.countP_eq_length] using h

theorem removeOne_spec {g : α → List (Poll Unit)} (w : Waker) {f1 f2 : List (DState α)} {s : DState α}
    {np : List (VecDiff α)} {gone : List (DState α)} {xs zs : List α} {n : Nat}
    (h : DInv g ⟨f1 ++ s :: f2, np, gone⟩ xs zs n) (hr : s.isRemoving = false) :
    ∃ v, DVars.removeOne w ⟨f1 ++ s :: f2, np, gone⟩ f1.length = some v ∧
      DInv g v (live f1 ++ live f2) zs n := by
  have hs := h.ok s (by simp)
  have hq := h.queue
  have hc := h.count
  simp only at hq hc
  obtain ⟨r, f, hp, ⟨rfl, hg⟩ | ⟨rfl, hok, ha⟩⟩ := hs.poll w
  · obtain ⟨d, e1, e2, e3⟩ := removeIndex_spec f1 f2 ⟨s.tag, f, false⟩ np gone
    refine ⟨⟨f1 ++ f2, np ++ [d], gone ++ [⟨s.tag, f, false⟩]⟩, ?_, ?_⟩
    · simp [DVars.removeOne, DState.shouldRemove, hr, hp, e1]
    · refine ⟨live_append _ _, ?_, fun t ht => h.ok t ?_, fun t ht => ?_, ?_⟩
      · refine replay_append_some hq ?_
        simp only [List.map_append, List.map_cons] at e3
        simp [replay, e3]
      · simp only [List.mem_append] at ht
        rcases ht with ht | ht <;> simp [ht]
      · rcases List.mem_append.1 ht with ht | ht
        · exact h.gone t ht
        · simp at ht; rw [ht]; exact hg _
      · simp [List.countP_append, e2]; omega
  · refine ⟨⟨f1 ++ ⟨s.tag, f, true⟩ :: f2, np, gone⟩, ?_, ?_⟩
    · simp [DVars.removeOne, DState.shouldRemove, hr, hp]
    · refine ⟨?_, ?_, fun t ht => ?_, h.gone, hc⟩
      · show live (f1 ++ _ :: f2) = _
        rw [live_append, live_off rfl]
      · simpa using hq
      · simp only [List.mem_append, List.mem_cons] at ht
        rcases ht with ht | rfl | ht
        · exact h.ok t (by simp [ht])
        · exact hok
        · exact h.ok t (by simp [ht])

theorem removeExisting_spec {g : α → List (Poll Unit)} (w : Waker) {v : DVars α}
    {xs zs : List α} {n : Nat} (h : DInv g v xs zs n) :
    ∃ v', v.removeExisting w = some v' ∧ DInv g v' [] zs n := by
  obtain ⟨h1, h2, h3⟩ := markExisting_spec w h.ok
  obtain ⟨ds, dead, e1, e2, e3, e4, e5, -⟩ := removeAll_spec [] (markExisting w v.futures)
    v.newPending v.gone
  simp only [List.nil_append, List.length_nil] at e1 e2
  refine ⟨_, e1, ?_, ?_, fun s hs => (h2 s hs).1, fun s hs => ?_, ?_⟩
  · show (List.filter _ _).map _ = []
    rw [List.filter_eq_nil_iff.2 fun s hs => by simp [(h2 s hs).2]]
    rfl
  · refine replay_append_some h.queue ?_
    rw [← h1]; exact e2
  · rcases List.mem_append.1 hs with hs | hs
    · exact h.gone s hs
    · exact h3 s (e5 s hs)
  · have := h.count
    simp only [List.countP_append, countP_all e4, List.length_append]
    omega

theorem live_new (g : α → List (Poll Unit)) (vs : List α) : live (vs.map (DState.new g)) = vs := by
  induction vs with
  | nil => rfl
  | cons v vs ih => simp [live_on (s := DState.new g v) rfl, ih]; rfl

theorem tag_new (g : α → List (Poll Unit)) (vs : List α) :
    (vs.map (DState.new g)).map (·.tag) = vs := by
  induction vs with
  | nil => rfl
  | cons v vs ih => simp only [List.map_cons, ih]; rfl

/-- Inserting a state and emitting the insertion. -/
theorem DInv.insert {g : α → List (Poll Unit)} {f1 f2 : List (DState α)} {np : List (VecDiff α)}
    {gone : List (DState α)} {xs zs : List α} {n : Nat} (h : DInv g ⟨f1 ++ f2, np, gone⟩ xs zs n)
    (s : DState α) (hs : DOk g s) (hr : s.isRemoving = false) (d : VecDiff α)
    (hd : d.apply ((f1 ++ f2).map (·.tag)) = some ((f1 ++ s :: f2).map (·.tag)))
    (hn : d.isRemoval = false) :
    DInv g ⟨f1 ++ s :: f2, np ++ [d], gone⟩ (Verif.live f1 ++ s.tag :: Verif.live f2) zs n := by
  have hq := h.queue
  have hc := h.count
  simp only at hq hc
  refine ⟨by simp only [live_append, live_on hr], ?_, fun t ht => ?_, h.gone, ?_⟩
  · exact replay_append_some hq (by simp only [replay, hd])
  · simp only [List.mem_append, List.mem_cons] at ht
    rcases ht with ht | rfl | ht
    · exact h.ok t (by simp [ht])
    · exact hs
    · exact h.ok t (by simp [ht])
  · simpa [List.countP_append, hn] using hc

theorem tag_insert (f1 f2 : List (DState α)) (s : DState α) :
    vInsert ((f1 ++ f2).map (·.tag)) f1.length s.tag = some ((f1 ++ s :: f2).map (·.tag)) := by
  have := vInsert_append (f1.map (·.tag)) (f2.map (·.tag)) s.tag
  simpa using this

theorem tag_remove (f1 f2 : List (DState α)) (s : DState α) :
    vRemove ((f1 ++ s :: f2).map (·.tag)) f1.length = some (s.tag, (f1 ++ f2).map (·.tag)) := by
  have := vRemove_append (f1.map (·.tag)) (f2.map (·.tag)) s.tag
  simpa using this

theorem tag_set (f1 f2 : List (DState α)) (s t : DState α) :
    vSet ((f1 ++ s :: f2).map (·.tag)) f1.length t.tag = some ((f1 ++ t :: f2).map (·.tag)) := by
  have := vSet_append (f1.map (·.tag)) (f2.map (·.tag)) t.tag s.tag
  simpa using this

theorem delayBody_move {g : α → List (Poll Unit)} (w : Waker) {fs : List (DState α)}
    {np : List (VecDiff α)} {gone : List (DState α)} {zs p q p' q' : List α} {a : α} {n : Nat}
    (h : DInv g ⟨fs, np, gone⟩ (p ++ a :: q) zs n) (hpq : p ++ q = p' ++ q') :
    ∃ v', delayBody g w ⟨fs, np, gone⟩ (.move p.length p'.length) = .cont v' ∧
      DInv g v' (p' ++ a :: q') zs n := by
  have hl := h.live
  simp only at hl
  obtain ⟨f1, s, f2, rfl, h1, rfl, h3, h4, h5⟩ := live_split hl
  have hl2 : live (f1 ++ f2) = p' ++ q' := by rw [live_append, h3, h4, hpq]
  obtain ⟨k1, k2, e, e1, e2, e3⟩ := live_gap hl2
  have hv : vInsert (f1 ++ f2) k1.length s = some (k1 ++ s :: k2) := by rw [e]; exact vInsert_append _ _ _
  refine ⟨⟨k1 ++ s :: k2, np ++ [.move f1.length k1.length], gone⟩, ?_, ?_⟩
  · simp only [delayBody, h5, vRemove_append, e3, hv]
  · have hq := h.queue
    have hc := h.count
    simp only at hq hc
    refine ⟨by simp only [live_append, live_on h1, e1, e2], ?_, fun t ht => h.ok t ?_, h.gone, ?_⟩
    · refine replay_append_some hq ?_
      simp only [replay, VecDiff.apply]
      have := tag_insert k1 k2 s
      rw [tag_remove]
      simp only
      rw [e, this]
    · simp only [List.mem_append, List.mem_cons] at ht ⊢
      have : t ∈ f1 ++ f2 ↔ t ∈ k1 ++ k2 := by rw [e]
      simp only [List.mem_append] at this
      rcases ht with ht | ht | ht
      · rcases this.2 (.inl ht) with h | h <;> simp [h]
      · simp [ht]
      · rcases this.2 (.inr ht) with h | h <;> simp [h]
    · simpa [List.countP_append, VecDiff.isRemoval] using hc

theorem delayBody_spec {g : α → List (Poll Unit)} (w : Waker) {v : DVars α} {xs ys zs : List α}
    {d : VecDiff α} {n : Nat} (h : DInv g v xs zs n) (hd : d.apply xs = some ys) :
    ∃ v', delayBody g w v d = .cont v' ∧ DInv g v' ys zs n := by
  obtain ⟨fs, np, gone⟩ := v
  have hl := h.live
  have hq := h.queue
  have hc := h.count
  simp only at hl hq hc
  cases apply_eq_some.1 hd with
  | replace vs l =>
    by_cases he : fs.length = 0
    · refine ⟨⟨ys.map (DState.new g), np ++ [.replace ys], gone⟩, by simp [delayBody, he], ?_⟩
      refine ⟨live_new g ys, ?_, ?_, h.gone, ?_⟩
      · refine replay_append_some hq ?_
        simp only [replay, VecDiff.apply, tag_new]
      · simp only [List.mem_map]
        rintro s ⟨a, -, rfl⟩
        exact DOk.new g a
      · simpa [List.countP_append, VecDiff.isRemoval] using hc
    · obtain ⟨⟨fs', np', gone'⟩, e1, e2⟩ := removeExisting_spec w h
      have hq' := e2.queue
      have hl' := e2.live
      have hc' := e2.count
      simp only at hq' hl' hc'
      refine ⟨⟨fs' ++ ys.map (DState.new g), np' ++ ys.map .push, gone'⟩, ?_, ?_⟩
      · simp only [delayBody, he, if_false, e1]
      · refine ⟨by simp only [live_append, live_new, hl', List.nil_append], ?_, ?_, e2.gone, ?_⟩
        · refine replay_append_some hq' ?_
          rw [replay_pushes, List.map_append, tag_new]
        · intro s hs
          rcases List.mem_append.1 hs with hs | hs
          · exact e2.ok s hs
          · simp only [List.mem_map] at hs
            obtain ⟨a, -, rfl⟩ := hs
            exact DOk.new g a
        · rw [List.countP_append, show (ys.map VecDiff.push).countP VecDiff.isRemoval = 0 by
            rw [List.countP_eq_zero]; simp [VecDiff.isRemoval]]
          simpa using hc'
  | insertAt p q a =>
    obtain ⟨f1, f2, rfl, rfl, rfl, h3⟩ := live_gap hl
    refine ⟨_, ?_, h.insert (DState.new g a) (DOk.new g a) rfl (.insertAt f1.length a)
      (tag_insert f1 f2 (DState.new g a)) rfl⟩
    simp only [delayBody, h3, vInsert_append]
  | push l a =>
    have h' : DInv g ⟨fs ++ [], np, gone⟩ xs zs n := by simpa using h
    have := h'.insert (DState.new g a) (DOk.new g a) rfl (.push a)
      (by simp [VecDiff.apply, DState.new]) rfl
    simp only [hl, live_nil] at this
    exact ⟨_, rfl, this⟩
  | updateAt p b q a =>
    obtain ⟨f1, s, f2, rfl, h1, rfl, rfl, rfl, h5⟩ := live_split hl
    refine ⟨⟨f1 ++ DState.new g a :: f2, np ++ [.updateAt f1.length a], gone⟩, ?_, ?_⟩
    · simp only [delayBody, h5, vSet_append]
    · refine ⟨by simp only [live_append, live_on (s := DState.new g a) rfl]; rfl, ?_, ?_, h.gone, ?_⟩
      · refine replay_append_some hq ?_
        have := tag_set f1 f2 s (DState.new g a)
        simp only [replay, VecDiff.apply]
        exact (congrArg (fun o => match o with | some ys => some ys | none => none) this)
      · intro t ht
        simp only [List.mem_append, List.mem_cons] at ht
        rcases ht with ht | rfl | ht
        · exact h.ok t (by simp [ht])
        · exact DOk.new g a
        · exact h.ok t (by simp [ht])
      · simpa [List.countP_append, VecDiff.isRemoval] using hc
  | removeAt p b q =>
    obtain ⟨f1, s, f2, rfl, h1, rfl, rfl, rfl, h5⟩ := live_split hl
    obtain ⟨v', e1, e2⟩ := removeOne_spec w h h1
    exact ⟨v', by simp only [delayBody, h5, e1, goOn], e2⟩
  | pop l b =>
    obtain ⟨f1, s, f2, rfl, h1, rfl, rfl, h4, h5⟩ := live_last hl
    obtain ⟨v', e1, e2⟩ := removeOne_spec w h h1
    rw [h4, List.append_nil] at e2
    exact ⟨v', by simp only [delayBody, h5, e1, goOn], e2⟩
  | clear l =>
    obtain ⟨v', e1, e2⟩ := removeExisting_spec w h
    exact ⟨v', by simp only [delayBody, e1, goOn], e2⟩
  | moveFwd p a m q =>
    obtain ⟨v', e1, e2⟩ := delayBody_move w (p := p) (q := m ++ q) (p' := p ++ m) (q' := q) h (by simp)
    exact ⟨v', by simpa using e1, by simpa using e2⟩
  | moveBack p m a q =>
    obtain ⟨v', e1, e2⟩ := delayBody_move w (p := p ++ m) (q := q) (p' := p) (q' := m ++ q) h (by simp)
    exact ⟨v', by simpa using e1, by simpa using e2⟩

/-- The invariant between polls. -/
structure DelayInv (ok : VecDiff α → List α → Prop) (g : α → List (Poll Unit)) (s : VDelay α) (xs zs : List α) (n : Nat) : Prop where
  inp : s.signal.Ok
  valid : Valid ok s.signal.src xs
  vars : DInv g ⟨s.futures, s.pending, s.gone⟩ xs zs n

theorem VDelay.step {ok : VecDiff α → List α → Prop} {g : α → List (Poll Unit)} (w : Waker) {s : VDelay α} {xs zs : List α} {n : Nat}
    (h : DelayInv ok g s xs zs n) :
    ∃ r s', VDelay.poll g w s = some (r, s') ∧
      match r with
      | .ready (some d) => ∃ xs' zs', d.apply zs = some zs' ∧
          DelayInv ok g s' xs' zs' (n + if d.isRemoval then 1 else 0)
      | .ready none => s'.signal.alive = false ∧ s'.pending = [] ∧
          (∀ t ∈ s'.futures, t.isRemoving = false) ∧ ∃ xs', DelayInv ok g s' xs' zs n
      | .pending => Settled w s'.signal ∧ s'.pending = [] ∧
          (∀ t ∈ s'.futures, t.isRemoving = true → t.future.armed w) ∧
          (s'.signal.alive = false → ∃ t ∈ s'.futures, t.isRemoving = true) ∧
          ∃ xs', DelayInv ok g s' xs' zs n := by
  obtain ⟨sig, fs, pend, gone⟩ := s
  have hinp := h.inp
  have hval := h.valid
  have hv := h.vars
  simp only at hinp hval hv
  cases pend with
  | cons d rest =>
    have hq := hv.queue
    have hc := hv.count
    simp only [replay, List.countP_cons] at hq hc
    cases hd : d.apply zs with
    | none => simp [hd] at hq
    | some zs' =>
      simp only [hd] at hq
      refine ⟨.ready (some d), ⟨sig, fs, rest, gone⟩, rfl, xs, zs', hd, hinp, hval, hv.live, hq, hv.ok, hv.gone, ?_⟩
      simp only
      omega
  | nil =>
    obtain ⟨st, v, i', xs', g1, g2, g3, g4⟩ := Inp.vloop_rule (w := w) (body := delayBody g w)
      (ok := ok) (fun v xs => DInv g v xs zs n) (fun (r : Empty) _ _ => r.elim)
      (by
        intro v xs d ys hv hok hd
        obtain ⟨v', e1, e2⟩ := delayBody_spec w hv hd
        rw [e1]; exact e2)
      sig ⟨fs, [], gone⟩ xs hinp hval hv
    have key : ∀ done, (done = true → i'.alive = false) → (done = false → i'.src.armed w) →
        (done = false → i'.alive = true) → DInv g v xs' zs n →
        ∃ r s', VDelay.finish w done i' v = some (r, s') ∧
          match r with
          | .ready (some d) => ∃ xs' zs', d.apply zs = some zs' ∧
              DelayInv ok g s' xs' zs' (n + if d.isRemoval then 1 else 0)
          | .ready none => s'.signal.alive = false ∧ s'.pending = [] ∧
              (∀ t ∈ s'.futures, t.isRemoving = false) ∧ ∃ xs', DelayInv ok g s' xs' zs n
          | .pending => Settled w s'.signal ∧ s'.pending = [] ∧
              (∀ t ∈ s'.futures, t.isRemoving = true → t.future.armed w) ∧
              (s'.signal.alive = false → ∃ t ∈ s'.futures, t.isRemoving = true) ∧
              ∃ xs', DelayInv ok g s' xs' zs n := by
      intro done hd1 hd2 hd3 hv
      obtain ⟨l, pr, h0, h1, h2, h3, h4, h5⟩ := pollRemoving_spec w hv.ok
      obtain ⟨ds, dead, e1, e2, e3, e4, e5, e6⟩ := removeAll_spec [] l v.newPending v.gone
      simp only [List.nil_append, List.length_nil] at e1 e2
      have hinv : DInv g ⟨stay l, v.newPending ++ ds, v.gone ++ dead⟩ xs' zs n := by
        refine ⟨h2.trans hv.live, replay_append_some hv.queue (by rw [← h1]; exact e2),
          fun s hs => (h3 s hs).1, fun s hs => ?_, ?_⟩
        · rcases List.mem_append.1 hs with hs | hs
          · exact hv.gone s hs
          · exact h4 s (e5 s hs)
        · have := hv.count
          simp only [List.countP_append, countP_all e4, List.length_append]
          omega
      unfold VDelay.finish
      simp only [h0, e1]
      cases hnp : v.newPending ++ ds with
      | cons first rest =>
        rw [hnp] at hinv
        have hq := hinv.queue
        have hc := hinv.count
        simp only [replay, List.countP_cons] at hq hc
        cases hd : first.apply zs with
        | none => simp [hd] at hq
        | some zs' =>
          simp only [hd] at hq
          refine ⟨.ready (some first), ⟨i', stay l, rest, v.gone ++ dead⟩, rfl, xs', zs', hd, g2, g3,
            hinv.live, hq, hinv.ok, hinv.gone, ?_⟩
          simp only
          omega
      | nil =>
        rw [hnp] at hinv
        have hfin : DelayInv ok g ⟨i', stay l, [], v.gone ++ dead⟩ xs' zs n := ⟨g2, g3, hinv⟩
        by_cases hdone : (done && !pr) = true
        · simp only [hdone, if_true]
          simp only [Bool.and_eq_true, Bool.not_eq_true'] at hdone
          exact ⟨.ready none, ⟨i', stay l, [], v.gone ++ dead⟩, rfl, hd1 hdone.1, rfl, h5.1 hdone.2,
            xs', hfin⟩
        · simp only [hdone]
          refine ⟨.pending, ⟨i', stay l, [], v.gone ++ dead⟩, rfl, ?_, rfl, fun t ht => (h3 t ht).2, ?_, xs', hfin⟩
          · cases done with
            | true => exact .inl (hd1 rfl)
            | false => exact .inr (hd2 rfl)
          · intro hal
            cases done with
            | false => rw [hd3 rfl] at hal; cases hal
            | true =>
              simp only [Bool.true_and, Bool.not_eq_true', Bool.not_eq_false] at hdone
              by_cases hx : ∃ t ∈ stay l, t.isRemoving = true
              · exact hx
              · have : pr = false := h5.2 fun t ht => by
                  cases hc : t.isRemoving with
                  | false => rfl
                  | true => exact absurd ⟨t, ht, hc⟩ hx
                rw [this] at hdone; cases hdone
    unfold VDelay.poll
    simp only [g1]
    match st with
    | .panic => exact g4.elim
    | .ret r => exact r.elim
    | .ended => exact key true (fun _ => g4.2) (by simp) (by simp) g4.1
    | .pending => exact key false (by simp) (fun _ => g4.2.2) (fun _ => g4.2.1) g4.1

end Verif
