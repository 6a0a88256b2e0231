import Verif.Props.Expr

/-!
# C87: `stop_if`, `filter_map`, `throttle`, `map_future` and `delay_remove` inside expressions
-/

namespace Verif

variable {α β : Type}

/-- **C87**, `stop_if` (partial: see `Expr.Lawful`).  If the last answer was `Pending`, to a poll with waker
`x`, or the end, then the output shows the present value of `e`, or a value that passes the test, or (not
at the end) `x` has been woken since. -/
theorem C87_stop_if_partial (p : α → Bool) (e : Expr (.sig α)) (hl : e.Lawful) (t : SigTrace α)
    (W : Waker → Prop) (he : (Expr.stopIf p e).Exec true t W) :
    (∀ x, t.getLast? = some (x, .pending) → (∃ v, t.last = some v ∧ (e.Spec v ∨ p v = true)) ∨ W x) ∧
    (∀ x, t.getLast? = some (x, .ready none) → ∃ v, t.last = some v ∧ (e.Spec v ∨ p v = true)) := by
  have h := C71_expressions_partial (Expr.stopIf p e) (by simpa only [Expr.Lawful] using hl) t W he
  simp only [Expr.Spec] at h
  exact h.2

/-- **C87**, `filter_map` of a `Signal` (partial: see `Expr.Lawful`).  If the last answer was `Pending` or
the end, then the output shows what the closure makes of the present value of `e` if it accepts it, and
otherwise `None` or what it made of some value, or the waker has been woken. -/
theorem C87_filter_map_partial (f : α → Option β) (e : Expr (.sig α)) (hl : e.Lawful)
    (t : SigTrace (Option β)) (W : Waker → Prop) (he : (Expr.filterMapS f e).Exec true t W) :
    (∀ x, t.getLast? = some (x, .pending) → (∃ v a, t.last = some v ∧ e.Spec a ∧
      (∀ b, f a = some b → v = some b) ∧ ∀ b, v = some b → ∃ a', f a' = some b) ∨ W x) ∧
    (∀ x, t.getLast? = some (x, .ready none) → ∃ v a, t.last = some v ∧ e.Spec a ∧
      (∀ b, f a = some b → v = some b) ∧ ∀ b, v = some b → ∃ a', f a' = some b) := by
  have h := C71_expressions_partial (Expr.filterMapS f e) (by simpa only [Expr.Lawful] using hl) t W he
  simp only [Expr.Spec] at h
  exact ⟨fun x hx => (h.2.1 x hx).imp (fun ⟨v, h1, a, h2⟩ => ⟨v, a, h1, h2⟩) id,
    fun x hx => let ⟨v, h1, a, h2⟩ := h.2.2 x hx; ⟨v, a, h1, h2⟩⟩

/-- **C87**, `throttle` (partial: see `Expr.Lawful`), for timers that keep the contract of `Future`.  If the
last answer was `Pending`, to a poll with waker `x`, and none of the timers is running, then the output
shows the present value of `e`, or `x` has been woken since, by a source or by a timer. -/
theorem C87_throttle_partial (futs : Nat → Nat → Fut Unit) (hf : ∀ i n, (futs i n).Ok)
    (e : Expr (.sig α)) (hl : e.Lawful) (t : SigTrace α) (W : Waker → Prop)
    (he : (Expr.throttle futs e).Exec true t W) (hn : ∀ i n, ¬ (futs i n).Running) :
    (∀ x, t.getLast? = some (x, .pending) → (∃ v, t.last = some v ∧ e.Spec v) ∨ W x) ∧
    (∀ x, t.getLast? = some (x, .ready none) → ∃ v, t.last = some v ∧ e.Spec v) := by
  have h := C71_expressions_partial (Expr.throttle futs e) (by simp only [Expr.Lawful]; exact ⟨hf, hl⟩) t W he
  simp only [Expr.Spec, hn, exists_const, or_false] at h
  exact h.2

/-- **C87**, `map_future` (partial: see `Expr.Lawful`), for futures that keep their contract.  If the last
answer was `Pending`, to a poll with waker `x`, then the future made last was made from the present value
of `e`, and its output is shown, or it is running; or `x` has been woken since. -/
theorem C87_map_future_partial (futs : α → Nat → Fut β) (held : Nat → Prop) (hf : ∀ a n, (futs a n).Ok)
    (e : Expr (.sig α)) (hl : e.Lawful) (t : SigTrace (Option β)) (W : Waker → Prop)
    (he : (Expr.mapFuture futs held e).Exec true t W) :
    (∀ x, t.getLast? = some (x, .pending) → (∃ a n, e.Spec a ∧ held n ∧
      ((futs a n).Running ∨ ∃ b, (futs a n).result = some b ∧ t.last = some (some b))) ∨ W x) ∧
    (∀ x, t.getLast? = some (x, .ready none) → ∃ a n, e.Spec a ∧ held n ∧
      ((futs a n).Running ∨ ∃ b, (futs a n).result = some b ∧ t.last = some (some b))) := by
  have h := C71_expressions_partial (Expr.mapFuture futs held e) (by simp only [Expr.Lawful]; exact ⟨hf, hl⟩) t W he
  simp only [Expr.Spec] at h
  have key : (∃ v, t.last = some v ∧ ∃ a n, e.Spec a ∧ held n ∧
      ((futs a n).Running ∨ ∃ b, (futs a n).result = some b ∧ v = some b)) → ∃ a n, e.Spec a ∧ held n ∧
      ((futs a n).Running ∨ ∃ b, (futs a n).result = some b ∧ t.last = some (some b)) := by
    rintro ⟨v, hv, a, n, h1, h0, h2⟩
    exact ⟨a, n, h1, h0, h2.imp id fun ⟨b, h3, h4⟩ => ⟨b, h3, by rw [hv, h4]⟩⟩
  exact ⟨fun x hx => (h.2.1 x hx).imp key id, fun x hx => key (h.2.2 x hx)⟩

/-- **C87**, `delay_remove` (partial: see `Expr.Lawful`), for futures that keep their contract.  If the last
answer was `Pending`, to a poll with waker `x`, then what the output shows is made of the present list of
`e`, in order, and of elements whose futures are running; or `x` has been woken since.  So if none is
running, the output shows the present list. -/
theorem C87_delay_remove_partial (futs : β → Nat → Fut Unit) (hf : ∀ a n, (futs a n).Ok)
    (e : Expr (.vec β)) (hl : e.Lawful) (t : Trace β) (W : Waker → Prop)
    (he : (Expr.delayRemove futs e).Exec true t W) :
    (∃ zs, replay t.diffs [] = some zs) ∧
    (∀ x, t.getLast? = some (x, .pending) → (∃ l : List (β × Bool),
      replay t.diffs [] = some (l.map (·.1)) ∧ e.Spec ((l.filter (!·.2)).map (·.1)) ∧
      ∀ a, (a, true) ∈ l → ∃ n, (futs a n).Running) ∨ W x) ∧
    ((∀ a n, ¬ (futs a n).Running) →
      (∀ x, t.getLast? = some (x, .pending) → (∃ zs, replay t.diffs [] = some zs ∧ e.Spec zs) ∨ W x) ∧
      ∀ x, t.getLast? = some (x, .ready none) → ∃ zs, replay t.diffs [] = some zs ∧ e.Spec zs) := by
  have h := C71_expressions_partial (Expr.delayRemove futs e) (by simp only [Expr.Lawful]; exact ⟨hf, hl⟩) t W he
  simp only [Expr.Spec, Ty.Shows] at h
  have all : ∀ l : List (β × Bool), (∀ a, (a, true) ∉ l) → l.filter (!·.2) = l := by
    intro l hl
    refine List.filter_eq_self.2 fun q hq => ?_
    obtain ⟨a, b⟩ := q
    cases b
    · rfl
    · exact absurd hq (hl a)
  have key : (∀ a n, ¬ (futs a n).Running) → (∃ v, replay t.diffs [] = some v ∧ ∃ l : List (β × Bool),
      v = l.map (·.1) ∧ e.Spec ((l.filter (!·.2)).map (·.1)) ∧
      ∀ a, (a, true) ∈ l → ∃ n, (futs a n).Running) → ∃ zs, replay t.diffs [] = some zs ∧ e.Spec zs := by
    rintro hn ⟨v, hv, l, rfl, h1, h2⟩
    rw [all l fun a ha => (h2 a ha).elim fun n => hn a n] at h1
    exact ⟨_, hv, h1⟩
  refine ⟨h.1, fun x hx => (h.2.1 x hx).imp ?_ id,
    fun hn => ⟨fun x hx => (h.2.1 x hx).imp (key hn) id, fun x hx => key hn (h.2.2 x hx)⟩⟩
  rintro ⟨v, hv, l, rfl, h1, h2⟩
  exact ⟨l, hv, h1, h2⟩

/-- **C87**: a query that is not sent too often and has an asynchronous answer,
`e.throttle(timer).map_future(fetch)` (partial: see `Expr.Lawful`).  If the last answer was `Pending`, to a
poll with waker `x`, no timer is running and the request made last is not either, then what is
shown is the answer for the present value of `e`, or `x` has been woken since. -/
theorem C87_throttled_fetch_partial (timers : Nat → Nat → Fut Unit) (ht : ∀ i n, (timers i n).Ok)
    (fetch : α → Nat → Fut β) (held : Nat → Prop) (hf : ∀ a n, (fetch a n).Ok) (e : Expr (.sig α)) (hl : e.Lawful)
    (t : SigTrace (Option β)) (W : Waker → Prop)
    (he : (Expr.mapFuture fetch held (Expr.throttle timers e)).Exec true t W)
    (hn : ∀ i n, ¬ (timers i n).Running) (hm : ∀ a n, held n → ¬ (fetch a n).Running) :
    ∀ x, t.getLast? = some (x, .pending) →
      (∃ a n b, e.Spec a ∧ held n ∧ (fetch a n).result = some b ∧ t.last = some (some b)) ∨ W x := by
  intro x hx
  refine ((C87_map_future_partial fetch held hf (Expr.throttle timers e)
    (by simp only [Expr.Lawful]; exact ⟨ht, hl⟩) t W he).1 x hx).imp ?_ id
  rintro ⟨a, n, h1, h0, h2⟩
  simp only [Expr.Spec, hn, exists_const, or_false] at h1
  rcases h2 with h2 | ⟨b, h2, h3⟩
  · exact absurd h2 (hm a n h0)
  · exact ⟨a, n, b, h1, h0, h2, h3⟩

/-- **C87**, `chain` of `delay_remove` (partial: see `Expr.Lawful`): if the list below sends no `Replace` by
nothing and no `Clear` while it is empty, neither does `delay_remove`; so it may be used below `chain`. -/
theorem C87_delay_brisk_partial (futs : β → Nat → Fut Unit) (hf : ∀ a n, (futs a n).Ok)
    (e : Expr (.vec β)) (hl : e.Lawful) (hb : e.Brisk) (live : Bool) (t : Trace β) (W : Waker → Prop)
    (he : (Expr.delayRemove futs e).Exec live t W) : Trace.Brisk t :=
  C71_brisk_partial _ (by simp only [Expr.Lawful]; exact ⟨hf, hl⟩) (by simpa only [Expr.Brisk] using hb)
    live t W he

/-! ## Non-vacuity -/

/-- A `Mutable` with the value 5, then 7; it is polled twice. -/
def demoQueryEvs : List (Mut.Ev Nat) := [.signal, .poll 0 9, .set 7, .poll 0 9]

def demoQueryRun : List (Mut.Obs Nat) × Mut.World Nat :=
  ((Mut.World.new 5).runs demoQueryEvs).getD ([], Mut.World.new 0)

def demoQuery : Source (.sig Nat) := .mutable 5 demoQueryEvs demoQueryRun.1 demoQueryRun.2 (· = 0)

/-- The first timer is over when it is polled for the fourth time.  The second one has been polled three
times; it may be over since. -/
def demoTimers (fired : Bool) (_ n : Nat) : Fut Unit :=
  if n = 0 then ⟨[(9, .pending), (9, .pending), (9, .pending), (9, .ready ())], some (), fun _ => False⟩
  else if n = 1 then
    ⟨[(9, .pending), (9, .pending), (9, .pending)], if fired then some () else none, fun x => fired = true ∧ x = 9⟩
  else ⟨[], none, fun _ => False⟩

/-- The request for 5 was not answered before it was dropped; that for 7 is answered at once. -/
def demoRequest (a n : Nat) : Fut Nat :=
  if a = 5 ∧ n = 0 then ⟨[(9, .pending), (9, .pending)], none, fun _ => False⟩
  else if a = 7 ∧ n = 1 then ⟨[(9, .ready 14)], some 14, fun _ => False⟩
  else ⟨[], none, fun _ => False⟩

/-- `query.signal().throttle(timer).map_future(fetch)` meets the hypotheses: what comes out is `None`, then
`Some(14)`, the answer for 7.  If the second timer is over, waker 9 has been woken. -/
example (fired : Bool) : (∀ i n, (demoTimers fired i n).Ok) ∧ (∀ a n, (demoRequest a n).Ok) ∧
    (Expr.source demoQuery).Lawful ∧
    (∃ W, (Expr.mapFuture demoRequest (· = 1) (Expr.throttle (demoTimers fired) (.source demoQuery))).Exec true
      [(9, .ready (some none)), (9, .pending), (9, .ready (some (some 14))), (9, .pending)] W ∧
      (fired = true → W 9)) ∧
    (fired = true → ∀ i n, ¬ (demoTimers fired i n).Running) ∧
    ∀ a n, n = 1 → ¬ (demoRequest a n).Running := by
  refine ⟨fun i n => ?_, fun a n => ?_, C71_mutable _ _ _ _ rfl _, ⟨_, ⟨[(9, .ready (some (5, 0))),
    (9, .pending), (9, .pending), (9, .ready (some (7, 1))), (9, .pending), (9, .pending)], _,
    ⟨[(9, .ready (some 5)), (9, .ready (some 7))],
      _, 0, ⟨0, rfl, fun _ => .inl ⟨by decide, by decide⟩, rfl, rfl⟩, _, rfl, rfl, ?_, rfl⟩,
    _, rfl, rfl, ?_, rfl⟩, ?_⟩, ?_, ?_⟩
  · simp only [demoTimers]
    split
    · exact ⟨by simp, by simp⟩
    · split
      · exact ⟨by simp, fun w a h1 h2 => by cases fired <;> simp at h1 h2 ⊢; exact h1.symm⟩
      · exact ⟨by simp, by simp⟩
  · simp only [demoRequest]
    split
    · exact ⟨by simp, by simp⟩
    · split
      · exact ⟨by simp, by simp⟩
      · exact ⟨by simp, by simp⟩
  · intro x hx; cases hx; rfl
  · intro x hx; cases hx; exact ⟨rfl, fun _ => rfl⟩
  · rintro rfl
    exact .inl (.inr ⟨_, rfl, rfl, rfl⟩)
  · rintro rfl i n ⟨h1, h2⟩
    simp only [demoTimers] at h1 h2
    split at h2
    · cases h2
    · split at h2
      · cases h2
      · simp_all
  · rintro a n rfl ⟨h1, h2⟩
    simp only [demoRequest, show ¬ (a = 5 ∧ 1 = 0) by omega, if_false] at h1 h2
    split at h2
    · cases h2
    · simp_all

/-- `query.signal().throttle(timer)` meets the hypotheses of `C87_throttle_partial`: 5 and 7 come out; at
the end no timer is running and waker 9 has been woken. -/
example : (∀ i n, ¬ (demoTimers true i n).Running) ∧
    ∃ W, (Expr.throttle (demoTimers true) (.source demoQuery)).Exec true
      [(9, .ready (some 5)), (9, .pending), (9, .pending), (9, .ready (some 7)), (9, .pending), (9, .pending)] W ∧
      W 9 := by
  refine ⟨?_, _, ⟨[(9, .ready (some 5)), (9, .ready (some 7))],
      _, 0, ⟨0, rfl, fun _ => .inl ⟨by decide, by decide⟩, rfl, rfl⟩, _, rfl, rfl, ?_, rfl⟩, ?_⟩
  · rintro i n ⟨h1, h2⟩
    simp only [demoTimers] at h1 h2
    split at h2
    · cases h2
    · split at h2
      · cases h2
      · simp_all
  · intro x hx; cases hx; rfl
  · exact .inr ⟨_, rfl, rfl, rfl⟩

/-- `stop_if(|x| x == 7)` stops after 7. -/
example : ∃ W, (Expr.stopIf (· == 7) (.source demoQuery)).Exec true
    [(9, .ready (some 5)), (9, .ready (some 7)), (9, .ready none)] W :=
  ⟨_, _, ⟨0, rfl, fun _ => .inl ⟨by decide, by decide⟩, rfl, rfl⟩, _, rfl, rfl⟩

/-- The same `Mutable`, polled four times. -/
def demoAskEvs : List (Mut.Ev Nat) := [.signal, .poll 0 9, .poll 0 9, .set 7, .poll 0 9, .poll 0 9]

def demoAsked : Source (.sig Nat) :=
  .mutable 5 demoAskEvs (((Mut.World.new 5).runs demoAskEvs).getD ([], Mut.World.new 0)).1
    (((Mut.World.new 5).runs demoAskEvs).getD ([], Mut.World.new 0)).2 (· = 0)

/-- `filter_map(|x| if x < 6 { None } else { Some(x + 1) })`: `None` for 5, since that is the first value,
and `Some(8)` for 7. -/
example : (Expr.source demoAsked).Lawful ∧
    ∃ W, (Expr.filterMapS (fun n => if n < 6 then none else some (n + 1)) (.source demoAsked)).Exec true
      [(9, .ready (some none)), (9, .pending), (9, .ready (some (some 8))), (9, .pending)] W :=
  ⟨C71_mutable _ _ _ _ rfl _, _, _, ⟨0, rfl, fun _ => .inl ⟨by decide, by decide⟩, rfl, rfl⟩, _, rfl, rfl⟩

/-- `[3, 4]`, then the 3 is removed. -/
def demoLeaving : List (MutVec.Ev Nat) :=
  [.subscribe, .poll 0 9, .poll 0 9, .poll 0 9, .op (.remove 0), .poll 0 9, .poll 0 9]

def demoLeavingRun : MutVec.World Nat :=
  ((MutVec.World.init [3, 4]).runs demoLeaving).getD (MutVec.World.init [])

def demoLeavingList : Source (.vec Nat) := .mutableVec [3, 4] demoLeaving demoLeavingRun (· = 0)

/-- The future of the element 3; it may be over since the last poll. -/
def demoFade (over : Bool) (a n : Nat) : Fut Unit :=
  if a = 3 ∧ n = 0 then
    ⟨[(9, .pending), (9, .pending)], if over then some () else none, fun x => over = true ∧ x = 9⟩
  else ⟨[], none, fun _ => False⟩

/-- `delay_remove`: the 3 is still shown; when its future is over, waker 9 is woken. -/
example (over : Bool) : (∀ a n, (demoFade over a n).Ok) ∧ (Expr.source demoLeavingList).Lawful ∧
    (∃ W, (Expr.delayRemove (demoFade over) (.source demoLeavingList)).Exec true
      [(9, .ready (some (.replace [3, 4]))), (9, .pending), (9, .pending)] W ∧ (over = true → W 9)) ∧
    (over = true → ∀ a n, ¬ (demoFade over a n).Running) := by
  refine ⟨fun a n => ?_, C71_mutable_vec _ _ _ rfl _, ⟨_, ⟨[(9, .ready (some (.replace [(3, 0), (4, 1)]))),
    (9, .pending), (9, .pending), (9, .ready (some (.removeAt 0))), (9, .pending)],
    [(9, .ready (some (.replace [(3, 0), (4, 1)]))), (9, .pending), (9, .pending)], _,
    ⟨0, rfl, fun _ => .inl rfl, rfl, rfl⟩, rfl, _, rfl, rfl, ?_, rfl⟩, ?_⟩, ?_⟩
  · simp only [demoFade]
    split
    · exact ⟨by simp, fun w a h1 h2 => by cases over <;> simp at h1 h2 ⊢; exact h1.symm⟩
    · exact ⟨by simp, by simp⟩
  · intro x hx
    simp at hx
    rcases hx with rfl | rfl <;> rfl
  · rintro rfl
    exact .inr ⟨_, List.mem_cons_self, rfl, rfl, rfl⟩
  · rintro rfl a n ⟨h1, h2⟩
    simp only [demoFade] at h1 h2
    split at h2
    · cases h2
    · simp_all

/-- The list of the last example sends no change without effect. -/
example : (Expr.source demoLeavingList).Brisk :=
  C71_mutable_vec_brisk _ _ _ rfl (by
    intro h1 o h2 w1 e h1' hv
    have : ∀ e ∈ demoLeaving, ∀ o, e = .op o → o = .remove 0 := by
      simp [demoLeaving]
    have := this (.op o) (by rw [e]; simp) o rfl
    subst this
    simp) _

end Verif
