import Verif.SourceAsync
import Verif.Props.Expr
import Verif.Props.Consume
import Verif.Props.SignalA2
import Verif.Props.SignalVecFold
import Verif.Props.Polite1

/-!
# C85: futures and streams inside expressions
-/

namespace Verif

variable {α : Type}

/-- Signals made by `from_future`, of futures which all have the output `r` at present (or have none at
present, if `r` is `none`); the `k`-th one is made of `f k`, and has been polled as `t k` says. -/
def Source.future (f : Nat → Fut α) (r : Option α) (t : Nat → SigTrace (Option α)) (mine : Nat → Prop) :
    Source (.sig (Option α)) :=
  ⟨t, mine, fun _ => True, r, fun k => (f k).woken⟩

/-- `signal::from_stream(s)`, polled as `t` says. -/
def Source.stream (s : Strm α) (t : SigTrace (Option α)) : Source (.sig (Option α)) :=
  ⟨fun _ => t, fun k => k = 0, fun _ => True, s.sent.getLast?, fun _ => s.woken⟩

/-- `signal_vec::from_stream(s)`, polled as `t` says. -/
def Source.vecStream (s : Strm α) (t : Trace α) : Source (.vec α) :=
  ⟨fun _ => t, fun k => k = 0, fun _ => True, s.sent, fun _ => s.woken⟩

/-- The signal `from_future(f)` has been polled as `t` says. -/
def PolledFut (f : Fut α) (t : SigTrace (Option α)) : Prop :=
  ∃ s : SFromFuture α, run SFromFuture.poll (t.map (·.1)) (SFromFuture.init (f.hist.map (·.2))) =
    some (t.map (·.2), s) ∧ s.future.hist = f.hist

theorem rest_pending {γ : Type} {t : List (Waker × Poll (Option γ))} {x : Waker}
    (h : t.getLast? = some (x, .pending)) :
    (t.map (·.1)).getLast? = some x ∧ (t.map (·.2)).getLast? = some .pending := by
  simp [List.getLast?_map, h]

theorem rest_end {γ : Type} {t : List (Waker × Poll (Option γ))} {y : Waker}
    (h : t.getLast? = some (y, .ready none)) : .ready none ∈ t.map (·.2) :=
  List.mem_map.2 ⟨_, List.mem_of_getLast? h, rfl⟩

theorem findSome_mem {f : Src α} {a : α} (h : f.output = some a) : ∃ w, (w, .ready a) ∈ f.hist := by
  obtain ⟨⟨w, r⟩, hm, hr⟩ := List.exists_of_findSome?_eq_some h
  cases r with
  | pending => cases hr
  | ready b => cases hr; exact ⟨w, hm⟩

theorem completed_output {f : Src α} (h : f.completed) : ∃ a, f.output = some a := by
  obtain ⟨w, a, hm⟩ := h
  cases ho : f.output with
  | some b => exact ⟨b, rfl⟩
  | none =>
    have := List.findSome?_eq_none_iff.1 ho _ hm
    cases this

theorem fut_shows {f : Fut α} (hf : f.Ok) {t : SigTrace (Option α)} (h : PolledFut f t) :
    (t = [] ∨ ∃ b, t.head?.map (·.2) = some (.ready (some b))) ∧
    ∀ o, Rest o t → SigTrace.last t = some f.result ∨ ∃ x, o = some x ∧ f.woken x := by
  obtain ⟨s, h, hh⟩ := h
  have hgood : t = [] ∨ ∃ b, t.head?.map (·.2) = some (.ready (some b)) := by
    cases t with
    | nil => exact .inl rfl
    | cons q t =>
      right
      obtain ⟨w, r⟩ := q
      simp only [List.map_cons, run, SFromFuture.poll, SFromFuture.init, if_true] at h
      cases hp : (Src.mk' (f.hist.map (·.2))).poll w with
      | mk p src =>
        rw [hp] at h
        cases p with
        | ready a =>
          refine ⟨some a, ?_⟩
          simp only at h
          split at h
          · cases h
          · simp only [Option.some.injEq, Prod.mk.injEq, List.cons.injEq] at h
            simp [← h.1.1]
        | pending =>
          refine ⟨none, ?_⟩
          simp only at h
          split at h
          · cases h
          · simp only [Option.some.injEq, Prod.mk.injEq, List.cons.injEq] at h
            simp [← h.1.1]
  refine ⟨hgood, fun o ho => ?_⟩
  obtain ⟨outs, s', h1, h2, h3, h4, h5⟩ := C54_from_future (f.hist.map (·.2)) (t.map (·.1))
  rw [h] at h1
  simp only [Option.some.injEq, Prod.mk.injEq] at h1
  obtain ⟨rfl, rfl⟩ := h1
  have hlast : ∀ a, s.future.output = some a → SigTrace.last t = some (some a) := by
    intro a ha
    rw [SigTrace.last, h2, ha]
    simp
  rcases ho with ⟨x, rfl, hx⟩ | ⟨y, hy⟩
  · have harm : s.future.hist.getLast? = some (x, .pending) := h5 x (rest_pending hx).1 (rest_pending hx).2
    cases hr : f.result with
    | some a => exact .inr ⟨x, rfl, hf.wakes x a (by rw [← hh]; exact harm) hr⟩
    | none =>
      left
      have hnone : s.future.output = none := by
        cases ho : s.future.output with
        | none => rfl
        | some a =>
          obtain ⟨w, hm⟩ := findSome_mem ho
          have := hf.output w a (by rw [← hh]; exact hm)
          rw [hr] at this; cases this
      rw [SigTrace.last, h2, hnone]
      cases hq : s.future.hist with
      | nil => rw [hq] at harm; cases harm
      | cons q qs =>
        obtain ⟨w, r⟩ := q
        cases r with
        | pending => rfl
        | ready a =>
          have := h3 [] w a qs (by rw [hq]; rfl)
          rw [hq, this] at harm
          simp at harm
  · left
    obtain ⟨a, ha⟩ := completed_output (h4 (rest_end hy))
    obtain ⟨w, hm⟩ := findSome_mem ha
    show SigTrace.last t = some f.result
    rw [hlast a ha, hf.output w a (by rw [← hh]; exact hm)]

/-- **C85**: `from_future` of a future that keeps its contract is a source: it shows `None`, and the output
as soon as there is one. -/
theorem C85_from_future (f : Nat → Fut α) (r : Option α) (t : Nat → SigTrace (Option α)) (mine : Nat → Prop)
    (h : ∀ k, mine k → (f k).Ok ∧ (f k).result = r ∧ PolledFut (f k) (t k)) :
    (Source.future f r t mine).Ok := by
  refine ⟨fun k hk => (fut_shows (h k hk).1 (h k hk).2.2).1, fun k hk _ o ho => ?_⟩
  have := (fut_shows (h k hk).1 (h k hk).2.2).2 o ho
  rw [(h k hk).2.1] at this
  exact this

/-- **C85**: `signal::from_stream` of a stream that keeps its contract is a source: it shows the item
produced last, or `None`. -/
theorem C85_signal_from_stream (st : Strm α) (hst : st.Ok) (t : SigTrace (Option α)) (s : SFromStream α)
    (h : run SFromStream.poll (t.map (·.1)) (SFromStream.init (st.hist.map (·.2))) = some (t.map (·.2), s))
    (hh : s.stream.src.hist = st.hist) : (Source.stream st t).Ok := by
  have hgood : t = [] ∨ ∃ b, t.head?.map (·.2) = some (.ready (some b)) := by
    cases t with
    | nil => exact .inl rfl
    | cons q t =>
      right
      obtain ⟨w, r⟩ := q
      simp only [List.map_cons, run] at h
      have key : ∀ (d : Bool) (v : Option α) (i : Inp (Option α)), ∃ b s',
          SFromStream.finish d v i true = (.ready (some b), s') := by
        intro d v i
        cases v with
        | none => exact ⟨none, _, rfl⟩
        | some v => exact ⟨some v, _, rfl⟩
      cases hp : SFromStream.poll w (SFromStream.init (st.hist.map (·.2))) with
      | none => rw [hp] at h; cases h
      | some q =>
        obtain ⟨r', s'⟩ := q
        have hr' : ∃ b, r' = .ready (some b) := by
          simp only [SFromStream.poll] at hp
          split at hp
          · obtain ⟨b, s2, hb⟩ := key true _ _
            rw [show (SFromStream.init (st.hist.map (·.2))).first = true from rfl, hb] at hp
            cases hp; exact ⟨b, rfl⟩
          · obtain ⟨b, s2, hb⟩ := key false _ _
            rw [show (SFromStream.init (st.hist.map (·.2))).first = true from rfl, hb] at hp
            cases hp; exact ⟨b, rfl⟩
          · cases hp
          · cases hp
        obtain ⟨b, rfl⟩ := hr'
        refine ⟨b, ?_⟩
        rw [hp] at h
        simp only at h
        split at h
        · cases h
        · simp only [Option.some.injEq, Prod.mk.injEq, List.cons.injEq] at h
          simp [← h.1.1]
  refine ⟨fun _ _ => hgood, fun k _ _ o ho => ?_⟩
  have hne : t ≠ [] := by
    rintro rfl
    rcases ho with ⟨x, -, hx⟩ | ⟨y, hy⟩
    · cases hx
    · cases hy
  obtain ⟨outs, s', vs, h1, h2, h3, h4⟩ := C54_from_stream (st.hist.map (·.2)) (t.map (·.1)) (by simpa using hne)
  rw [h] at h1
  simp only [Option.some.injEq, Prod.mk.injEq] at h1
  obtain ⟨rfl, rfl⟩ := h1
  obtain ⟨p1, p2, p3⟩ := C57_signal_from_stream _ _ _ _ h
  have hgot : s.stream.src.got = st.got := by rw [Src.got, hh]; rfl
  have hlast : SigTrace.last t = some st.got.getLast? := by
    rw [SigTrace.last, h2, ← hgot, ← h4]
    cases hv : vs.getLast? with
    | some a => simp [hv]
    | none =>
      have : vs = [] := by simpa using hv
      subst this
      obtain rfl | ⟨b, hb⟩ := hgood
      · exact absurd rfl hne
      · cases t with
        | nil => exact absurd rfl hne
        | cons q t =>
          obtain ⟨w, r⟩ := q
          simp only [List.head?_cons, Option.map_some, Option.some.injEq] at hb
          subst hb
          have : items ((((w, .ready (some b)) :: t : SigTrace (Option α))).map (·.2)) ≠ [] := by simp [items]
          rw [h2] at this
          revert this
          unfold leadingNone
          split <;> simp
  have done : st.got = st.sent → SigTrace.last t = some st.sent.getLast? := fun e => by rw [hlast, e]
  rcases ho with ⟨x, rfl, hx⟩ | ⟨y, hy⟩
  · have harm : s.stream.src.hist.getLast? = some (x, .pending) :=
      p3 x (rest_pending hx).1 (rest_pending hx).2
    rcases hst.wakes x (by rw [← hh]; exact harm) with e | e
    · exact .inl (done e)
    · exact .inr ⟨x, rfl, e⟩
  · obtain ⟨w, hm⟩ := p2 (rest_end hy)
    exact .inl (done (hst.all w (by rw [← hh]; exact hm)))

/-- **C85**: `signal_vec::from_stream` of a stream that keeps its contract is a source: it shows the list of
all items produced so far. -/
theorem C85_vec_from_stream (st : Strm α) (hst : st.Ok) (t : Trace α) (s : VFromStream α)
    (h : run VFromStream.poll (t.map (·.1)) ⟨Src.mk' (st.hist.map (·.2))⟩ = some (t.map (·.2), s))
    (hh : s.stream.hist = st.hist) : (Source.vecStream st t).Ok := by
  obtain ⟨outs, s', h1, h2⟩ := C23_from_stream (st.hist.map (·.2)) (t.map (·.1))
  rw [h] at h1
  simp only [Option.some.injEq, Prod.mk.injEq] at h1
  obtain ⟨rfl, rfl⟩ := h1
  obtain ⟨p1, p2, p3⟩ := C57_from_stream _ _ _ _ h
  have hgot : s.stream.got = st.got := by rw [Src.got, hh]; rfl
  rw [hgot] at h2
  refine ⟨fun _ _ => ⟨_, h2⟩, fun k _ _ o ho => ?_⟩
  have done : st.got = st.sent → replay (Trace.diffs t) [] = some st.sent := fun e => by rw [← e]; exact h2
  rcases ho with ⟨x, rfl, hx⟩ | ⟨y, hy⟩
  · have harm : s.stream.hist.getLast? = some (x, .pending) :=
      p3 x (rest_pending hx).1 (rest_pending hx).2
    rcases hst.wakes x (by rw [← hh]; exact harm) with e | e
    · exact .inl (done e)
    · exact .inr ⟨x, rfl, e⟩
  · obtain ⟨w, hm⟩ := p2 (rest_end hy)
    exact .inl (done (hst.all w (by rw [← hh]; exact hm)))

/-- **C85**: `signal_vec::from_stream` sends only `Push`, so anything may follow (`Expr.Lawful` has no
more conditions on it). -/
theorem C85_vec_from_stream_pushes (st : Strm α) (t : Trace α) (s : VFromStream α)
    (h : run VFromStream.poll (t.map (·.1)) ⟨Src.mk' (st.hist.map (·.2))⟩ = some (t.map (·.2), s)) :
    (Expr.source (Source.vecStream st t)).Forward ∧ (Expr.source (Source.vecStream st t)).Brisk ∧
      ∀ d ∈ t.diffs, AddsOnly d := by
  have key : ∀ d ∈ t.diffs, ∃ a, d = .push a := by
    obtain ⟨outs, s', h1, h2⟩ := run_rule (poll := VFromStream.poll (α := α))
      (fun outs _ => ∀ d ∈ items outs, ∃ a, d = .push a)
      (by
        intro w outs s hi _
        simp only [VFromStream.poll]
        split
        · refine ⟨_, _, rfl, fun d hd => ?_⟩
          rw [items_append, List.mem_append] at hd
          rcases hd with hd | hd
          · exact hi d hd
          · simp [items] at hd; exact ⟨_, hd⟩
        · exact ⟨_, _, rfl, fun d hd => hi d (by simpa [items_append, items] using hd)⟩
        · exact ⟨_, _, rfl, fun d hd => hi d (by simpa [items_append, items] using hd)⟩)
      (t.map (·.1)) [] ⟨Src.mk' (st.hist.map (·.2))⟩ (by simp [items]) (by simp)
    rw [h] at h1
    simp only [Option.some.injEq, Prod.mk.injEq] at h1
    obtain ⟨rfl, rfl⟩ := h1
    simp only [List.nil_append] at h2
    exact h2
  refine ⟨fun k _ d hd => ?_, fun k _ a d b hab _ => ?_, fun d hd => ?_⟩
  · obtain ⟨a, rfl⟩ := key d hd
    intro i j hij
    cases hij
  · obtain ⟨a', rfl⟩ := key d (by
      rw [show t.diffs = a ++ d :: b from hab]; simp)
    simp
  · obtain ⟨a, rfl⟩ := key d hd
    trivial

/-- What `e.map_signal(|a| from_future(fetch(a)))` shows: `fetch a` has the present outputs `r a`. -/
def Expr.fetched {β : Type} (F : β → Nat → Fut α) (r : β → Option α) (t : β → Nat → SigTrace (Option α))
    (mine : β → Nat → Prop) (e : Expr (.vec β)) : Expr (.vec (Option α)) :=
  .mapSignal (fun a => .source (Source.future (F a) (r a) (t a) (mine a))) e

/-- **C85** (partial as C71: see `Expr.Lawful` for what is not covered in `e`).  A list of things fetched:
`e.map_signal(|a| from_future(fetch(a)))` shows, for every element of the list that `e` denotes at
present, the output of its future, or `None` as long as it has none; or the waker has been woken. -/
theorem C85_fetched_partial {β : Type} (F : β → Nat → Fut α) (r : β → Option α)
    (ft : β → Nat → SigTrace (Option α)) (mine : β → Nat → Prop)
    (hF : ∀ a k, mine a k → (F a k).Ok ∧ (F a k).result = r a ∧ PolledFut (F a k) (ft a k))
    (e : Expr (.vec β)) (hl : e.Lawful) (t : Trace (Option α)) (W : Waker → Prop)
    (he : (e.fetched F r ft mine).Exec true t W) :
    (∃ ys, replay t.diffs [] = some ys) ∧
    (∀ x, t.getLast? = some (x, .pending) → (∃ v, e.Spec v ∧ replay t.diffs [] = some (v.map r)) ∨ W x) ∧
    (∀ x, t.getLast? = some (x, .ready none) → ∃ v, e.Spec v ∧ replay t.diffs [] = some (v.map r)) := by
  have hl' : (e.fetched F r ft mine).Lawful := by
    simp only [Expr.fetched, Expr.Lawful]
    exact ⟨fun a => C85_from_future _ _ _ _ (hF a), hl⟩
  have key : (∃ v, (Ty.vec (Option α)).Shows t v ∧ (e.fetched F r ft mine).Spec v) →
      ∃ v, e.Spec v ∧ replay t.diffs [] = some (v.map r) := by
    rintro ⟨ys, hs, hsp⟩
    simp only [Expr.fetched, Expr.Spec] at hsp
    obtain ⟨xs, h1, h2⟩ := hsp
    refine ⟨xs, h1, ?_⟩
    rw [show replay t.diffs [] = some ys from hs]
    congr 1
    clear hs h1
    induction h2 with
    | nil => rfl
    | cons h _ ih => rw [List.map_cons, ← ih, h]; rfl
  obtain ⟨k1, k2, k3⟩ := C71_expressions_partial _ hl' t W he
  exact ⟨k1, fun x hx => (k2 x hx).imp key id, fun x hx => key (k3 x hx)⟩

/-- `e.switch(|q| from_future(fetch(q)))`. -/
def Expr.answered {β : Type} (F : β → Nat → Fut α) (r : β → Option α) (t : β → Nat → SigTrace (Option α))
    (mine : β → Nat → Prop) (e : Expr (.sig β)) : Expr (.sig (Option α)) :=
  .switch (fun a => .source (Source.future (F a) (r a) (t a) (mine a))) e

/-- **C85** (partial as C71: see `Expr.Lawful` for what is not covered in `e`).  A query and its answer:
`e.switch(|q| from_future(fetch(q)))` shows the answer to the query that `e` denotes at present, or
`None` as long as there is none — no answer to an older query, however late it comes; or the waker has
been woken. -/
theorem C85_answered_partial {β : Type} (F : β → Nat → Fut α) (r : β → Option α)
    (ft : β → Nat → SigTrace (Option α)) (mine : β → Nat → Prop)
    (hF : ∀ a k, mine a k → (F a k).Ok ∧ (F a k).result = r a ∧ PolledFut (F a k) (ft a k))
    (e : Expr (.sig β)) (hl : e.Lawful) (t : SigTrace (Option α)) (W : Waker → Prop)
    (he : (e.answered F r ft mine).Exec true t W) :
    (t = [] ∨ ∃ b, t.head?.map (·.2) = some (.ready (some b))) ∧
    (∀ x, t.getLast? = some (x, .pending) → (∃ q, e.Spec q ∧ t.last = some (r q)) ∨ W x) ∧
    (∀ x, t.getLast? = some (x, .ready none) → ∃ q, e.Spec q ∧ t.last = some (r q)) := by
  have hl' : (e.answered F r ft mine).Lawful := by
    simp only [Expr.answered, Expr.Lawful]
    exact ⟨fun a => C85_from_future _ _ _ _ (hF a), hl⟩
  have key : (∃ v, (Ty.sig (Option α)).Shows t v ∧ (e.answered F r ft mine).Spec v) →
      ∃ q, e.Spec q ∧ t.last = some (r q) := by
    rintro ⟨y, hs, hsp⟩
    simp only [Expr.answered, Expr.Spec] at hsp
    obtain ⟨q, h1, h2⟩ := hsp
    exact ⟨q, h1, by rw [show SigTrace.last t = some y from hs, h2]; rfl⟩
  obtain ⟨k1, k2, k3⟩ := C71_expressions_partial _ hl' t W he
  exact ⟨k1, fun x hx => (k2 x hx).imp key id, fun x hx => key (k3 x hx)⟩

/-! ### Concrete cases -/

/-- The queue of `Verif/SourceAsync.lean` keeps the contract, so both kinds of `from_stream` of it are
sources.  Here 5 and 6 are sent, and all is delivered; then 7 may be sent. -/
def demoQueue (late : Bool) : Queue.World Nat :=
  Queue.World.new.runs ([.poll 9, .send 5, .send 6, .poll 9, .poll 9, .poll 9] ++ if late then [.send 7] else [])

def demoStreamSig : SigTrace (Option Nat) :=
  [(9, .ready (some none)), (9, .ready (some (some 6)))]

def demoStreamVec : Trace Nat :=
  [(9, .pending), (9, .ready (some (.push 5))), (9, .ready (some (.push 6))), (9, .pending)]

example (late : Bool) : (Source.stream (demoQueue late).strm demoStreamSig).Ok := by
  cases late
  · exact C85_signal_from_stream _ (Queue.strm_ok _) _ _ rfl rfl
  · exact C85_signal_from_stream _ (Queue.strm_ok _) _ _ rfl rfl

example (late : Bool) : (Source.vecStream (demoQueue late).strm demoStreamVec).Ok ∧
    (Source.vecStream (demoQueue late).strm demoStreamVec).cur = [5, 6] ++ (if late then [7] else []) ∧
    (late = true → (Source.vecStream (demoQueue late).strm demoStreamVec).woken 0 9) := by
  cases late
  · exact ⟨C85_vec_from_stream _ (Queue.strm_ok _) _ _ rfl rfl, rfl, nofun⟩
  · exact ⟨C85_vec_from_stream _ (Queue.strm_ok _) _ _ rfl rfl, rfl,
      fun _ => show 9 ∈ (demoQueue true).woken by decide⟩

/-- `fetch(5)` has given 50; `fetch(6)` was pending, and has 60 now if `late`. -/
def demoFetch (late : Bool) (a : Nat) (k : Nat) : Fut Nat :=
  if k ≠ 0 then ⟨[], none, fun _ => False⟩ else
  if a = 5 then ⟨[(9, .pending), (9, .ready 50)], some 50, fun _ => False⟩
  else if a = 6 then ⟨[(9, .pending), (9, .pending), (9, .pending)],
    if late then some 60 else none, fun w => late = true ∧ w = 9⟩
  else ⟨[], none, fun _ => False⟩

def demoFetched (late : Bool) (a : Nat) : Option Nat :=
  if a = 5 then some 50 else if a = 6 then (if late then some 60 else none) else none

def demoFetchSays (a k : Nat) : SigTrace (Option Nat) :=
  if k ≠ 0 then [] else
  if a = 5 then [(9, .ready (some none)), (9, .ready (some (some 50))), (9, .ready none)]
  else if a = 6 then [(9, .ready (some none)), (9, .pending), (9, .pending)]
  else []

theorem demoFetch_ok (late : Bool) (a k : Nat) (hk : k = 0) : (demoFetch late a k).Ok ∧
    (demoFetch late a k).result = demoFetched late a ∧ PolledFut (demoFetch late a k) (demoFetchSays a k) := by
  subst hk
  by_cases h5 : a = 5
  · subst h5
    refine ⟨⟨fun w b hm => ?_, fun w b hm => ?_⟩, rfl, _, rfl, rfl⟩
    · simp [demoFetch] at hm ⊢; exact hm.2.symm
    · simp [demoFetch] at hm
  · by_cases h6 : a = 6
    · subst h6
      refine ⟨⟨fun w b hm => ?_, fun w b hm hr => ?_⟩, rfl, _, rfl, rfl⟩
      · simp [demoFetch] at hm
      · cases late
        · simp [demoFetch] at hr
        · simp [demoFetch] at hm ⊢; exact hm.symm
    · refine ⟨⟨fun w b hm => ?_, fun w b hm => ?_⟩, ?_, ?_⟩
      · simp [demoFetch, h5, h6] at hm
      · simp [demoFetch, h5, h6] at hm
      · simp [demoFetch, demoFetched, h5, h6]
      · simp only [demoFetch, demoFetchSays, h5, h6, if_false]
        exact ⟨_, rfl, rfl⟩

/-- The list is `[5, 6]`. -/
def demoFetchList : List (MutVec.Ev Nat) :=
  [.subscribe, .poll 0 9, .poll 0 9, .poll 0 9]

def demoFetchWorld : MutVec.World Nat :=
  ((MutVec.World.init [5, 6]).runs demoFetchList).getD (MutVec.World.init [])

/-- `list.signal_vec()` -/
def demoFetchIn : Expr (.vec Nat) :=
  .source (.mutableVec [5, 6] demoFetchList demoFetchWorld (· = 0))

def demoFetchOut : Trace (Option Nat) :=
  [(9, .ready (some (.replace [none, none]))), (9, .ready (some (.updateAt 0 (some 50)))), (9, .pending)]

/-- The hypotheses of `C85_fetched_partial` are met: the output shows `[Some(50), None]`, which is right
until the second future has its output, and then waker 9 is woken. -/
example (late : Bool) : demoFetchIn.Lawful ∧
    (∃ W, (demoFetchIn.fetched (demoFetch late) (demoFetched late) demoFetchSays (fun _ k => k = 0)).Exec true
      demoFetchOut W ∧ (late = true → W 9)) ∧
    replay demoFetchOut.diffs [] = some [some 50, none] ∧
    ∀ v, demoFetchIn.Spec v → v.map (demoFetched late) = [some 50, if late then some 60 else none] := by
  refine ⟨C71_mutable_vec _ _ _ rfl _, ?_, rfl, ?_⟩
  · refine ⟨fun y => (Source.mutableVec [5, 6] demoFetchList demoFetchWorld (· = 0)).woken 0 y ∨
      ∃ a ∈ [5, 6], (demoFetch late a 0).woken y, ?_, ?_⟩
    · refine ⟨[(9, .ready (some (.replace [(5, 0), (6, 0)]))), (9, .pending), (9, .pending)],
        demoFetchSays, (Source.mutableVec [5, 6] demoFetchList demoFetchWorld (· = 0)).woken 0,
        fun a _ => (demoFetch late a 0).woken, ?_, ?_, _, rfl, rfl, ?_, ?_⟩
      · exact ⟨0, rfl, fun _ => .inl rfl, rfl, rfl⟩
      · intro b n
        by_cases hn : n = 0
        · subst hn
          exact .inr ⟨_, 0, rfl, nofun, rfl, rfl⟩
        · exact .inl (by simp [demoFetchSays, hn])
      · intro x hx
        simp at hx
        rcases hx with rfl | rfl
        · exact ⟨rfl, 0, rfl, fun _ => trivial, rfl, rfl⟩
        · exact ⟨rfl, 0, rfl, fun _ => trivial, rfl, rfl⟩
      · funext y
        simp
    · rintro rfl
      exact .inr ⟨6, by simp, rfl, rfl⟩
  · rintro v rfl
    rfl

/-- The query is 1, then 2.  The answer to 1 came when nobody was interested any more. -/
def demoAsk : List (Mut.Ev Nat) := [.signal, .poll 0 9, .set 2, .poll 0 9, .poll 0 9]

def demoAskRun : List (Mut.Obs Nat) × Mut.World Nat :=
  ((Mut.World.new 1).runs demoAsk).getD ([], Mut.World.new 0)

/-- `query.signal()` -/
def demoAskIn : Expr (.sig Nat) := .source (.mutable 1 demoAsk demoAskRun.1 demoAskRun.2 (· = 0))

def demoReply (a : Nat) (k : Nat) : Fut Nat :=
  if k ≠ 0 then ⟨[], none, fun _ => False⟩ else
  if a = 1 then ⟨[(9, .pending)], some 10, fun w => w = 9⟩
  else if a = 2 then ⟨[(9, .pending), (9, .pending)], none, fun _ => False⟩
  else ⟨[], none, fun _ => False⟩

def demoReplied (a : Nat) : Option Nat := if a = 1 then some 10 else none

def demoReplySays (a k : Nat) : SigTrace (Option Nat) :=
  if k ≠ 0 then [] else
  if a = 1 then [(9, .ready (some none))]
  else if a = 2 then [(9, .ready (some none)), (9, .pending)]
  else []

theorem demoReply_ok (a k : Nat) (hk : k = 0) : (demoReply a k).Ok ∧
    (demoReply a k).result = demoReplied a ∧ PolledFut (demoReply a k) (demoReplySays a k) := by
  subst hk
  by_cases h1 : a = 1
  · subst h1
    refine ⟨⟨fun w b hm => ?_, fun w b hm => ?_⟩, rfl, _, rfl, rfl⟩
    · simp [demoReply] at hm
    · simp [demoReply] at hm ⊢; exact fun _ => hm.symm
  · by_cases h2 : a = 2
    · subst h2
      refine ⟨⟨fun w b hm => ?_, fun w b hm hr => ?_⟩, rfl, _, rfl, rfl⟩
      · simp [demoReply] at hm
      · simp [demoReply] at hr
    · refine ⟨⟨fun w b hm => ?_, fun w b hm => ?_⟩, ?_, ?_⟩
      · simp [demoReply, h1, h2] at hm
      · simp [demoReply, h1, h2] at hm
      · simp [demoReply, demoReplied, h1, h2]
      · simp only [demoReply, demoReplySays, h1, h2, if_false]
        exact ⟨_, rfl, rfl⟩

def demoReplyOut : SigTrace (Option Nat) :=
  [(9, .ready (some none)), (9, .ready (some none)), (9, .pending)]

/-- The hypotheses of `C85_answered_partial` are met; the late answer 10 to the query 1 is not shown. -/
example : demoAskIn.Lawful ∧
    (∃ W, (demoAskIn.answered demoReply demoReplied demoReplySays (fun _ k => k = 0)).Exec true demoReplyOut W) ∧
    demoReplyOut.last = some none ∧ (∀ q, demoAskIn.Spec q → q = 2) ∧ demoReplied 1 = some 10 := by
  refine ⟨C71_mutable _ _ _ _ rfl _, ?_, rfl, fun q hq => hq, rfl⟩
  refine ⟨_, [(9, .ready (some (1, 0))), (9, .ready (some (2, 0))), (9, .pending)], demoReplySays,
    (Source.mutable 1 demoAsk demoAskRun.1 demoAskRun.2 (· = 0)).woken 0,
    fun a _ => (demoReply a 0).woken, ⟨0, rfl, fun _ => .inl ⟨by decide, rfl⟩, rfl, rfl⟩, ?_, _, rfl, rfl, ?_, rfl⟩
  · intro b n
    by_cases hn : n = 0
    · subst hn
      exact .inr ⟨_, 0, rfl, nofun, rfl, rfl⟩
    · exact .inl (by simp [demoReplySays, hn])
  · intro x hx
    simp at hx
    subst hx
    exact ⟨rfl, 0, rfl, fun _ => trivial, rfl, rfl⟩

end Verif
