import Verif.Lemmas

/-!
# Inputs of combinators: optional inputs, well-formed diff histories, loop rules
-/

namespace Verif

variable {α β σ ρ : Type}

/-- An input held in an `Option<A>` field, which the combinator sets to `None` when the input ends
(e.g. `/repo/src/signal_vec.rs:1241`, `1264`).  `alive` tells whether the field is `Some`; the
script and its ghost history are kept after it was dropped. -/
structure Inp (ρ : Type) where
  src : Src ρ
  alive : Bool
deriving DecidableEq, Repr

/-- `Some(input)` for a fresh input. -/
def Inp.mk' (script : List (Poll ρ)) : Inp ρ := ⟨Src.mk' script, true⟩

/-- `signal.as_mut().as_pin_mut().map(|signal| signal.poll_change(cx))`, followed by
`signal.set(None)` on `Ready(None)`. -/
def Inp.poll (w : Waker) (i : Inp (Option α)) : Option (Poll (Option α)) × Inp (Option α) :=
  if i.alive then
    match i.src.poll w with
    | (.ready none, s) => (some (.ready none), ⟨s, false⟩)
    | (r, s) => (some r, ⟨s, true⟩)
  else (none, i)

/-- `loop { match signal.as_mut().as_pin_mut().map(|s| s.poll_change(cx)) { … } }` with
`signal.set(None)` on `Ready(None)`; an absent input counts as ended
(e.g. `/repo/src/signal_vec.rs:1258-1314`). -/
def Inp.loop (w : Waker) (body : σ → α → Ctl σ ρ) (i : Inp (Option α)) (s : σ) :
    Stop ρ × σ × Inp (Option α) :=
  if i.alive then
    match i.src.loop w body s with
    | (.ended, s, src) => (.ended, s, ⟨src, false⟩)
    | (st, s, src) => (st, s, ⟨src, true⟩)
  else (.ended, s, i)

/-- An optional input is used correctly: it is never polled after its end, and dropped exactly
when it ended. -/
structure Inp.Ok (i : Inp (Option α)) : Prop where
  fused : i.src.fused
  dead : i.src.ended ↔ i.alive = false

theorem Inp.ok_mk' (script : List (Poll (Option α))) : (Inp.mk' script).Ok :=
  ⟨fused_of_not_ended (not_ended_mk' _),
    ⟨fun h => absurd h (not_ended_mk' _), fun h => by simp [Inp.mk'] at h⟩⟩

theorem Inp.Ok.alive {i : Inp (Option α)} (h : i.Ok) (ha : i.alive = true) : ¬ i.src.ended := by
  intro he
  have := h.dead.1 he
  simp [ha] at this

/-! ## Loop rules -/

/-- What a loop over an input establishes.  `P` holds of the loop variables, the items consumed and
the items still to come; `Q` when the body left the loop. -/
theorem Src.loop_rule {w : Waker} {body : σ → α → Ctl σ ρ}
    (P : σ → List α → List α → Prop) (Q : ρ → σ → List α → List α → Prop)
    (hbody : ∀ s g a t, P s g (a :: t) →
      match body s a with
      | .cont s' => P s' (g ++ [a]) t
      | .ret s' r => Q r s' (g ++ [a]) t
      | .panic => False)
    (src : Src (Option α)) (s : σ) (hne : ¬ src.ended) (h0 : P s src.got (items src.todo)) :
    ∃ st s' src', src.loop w body s = (st, s', src') ∧ src'.fused ∧
      match st with
      | .panic => False
      | .ret r => Q r s' src'.got (items src'.todo) ∧ ¬ src'.ended
      | .ended => P s' src'.got (items src'.todo) ∧ src'.ended
      | .pending => P s' src'.got (items src'.todo) ∧ ¬ src'.ended ∧ src'.armed w := by
  refine ⟨_, _, _, rfl, ?_⟩
  refine pollLoop_rule (w := w) (body := body)
    (fun s src => ¬ src.ended ∧ P s src.got (items src.todo))
    (fun st s' src' => src'.fused ∧ match st with
      | .panic => False
      | .ret r => Q r s' src'.got (items src'.todo) ∧ ¬ src'.ended
      | .ended => P s' src'.got (items src'.todo) ∧ src'.ended
      | .pending => P s' src'.got (items src'.todo) ∧ ¬ src'.ended ∧ src'.armed w)
    ?_ ?_ ?_ ?_ ?_ src s ⟨hne, h0⟩
  · rintro s a t h s' ⟨h1, h2⟩ hb
    have := hbody s _ a _ h2
    rw [hb] at this
    refine ⟨not_ended_snoc h1 (by simp), ?_⟩
    rw [got_snoc]
    exact this
  · rintro s a t h s' r ⟨h1, h2⟩ hb
    have := hbody s _ a _ h2
    rw [hb] at this
    refine ⟨fused_snoc h1, ?_, not_ended_snoc h1 (by simp)⟩
    rw [got_snoc]
    exact this
  · rintro s a t h ⟨h1, h2⟩ hb
    have := hbody s _ a _ h2
    rw [hb] at this
    exact this.elim
  · rintro s t h ⟨h1, h2⟩
    refine ⟨fused_snoc h1, ?_, ended_snoc _ _ _⟩
    rw [got_snoc]
    simpa [Src.got] using h2
  · rintro s t t' h ⟨h1, h2⟩ ht
    refine ⟨fused_snoc h1, ?_, not_ended_snoc h1 (by simp), armed_snoc _ _ _⟩
    rw [got_snoc]
    rcases ht with rfl | ⟨rfl, rfl⟩ <;> simpa [Src.got] using h2

theorem Inp.loop_rule {w : Waker} {body : σ → α → Ctl σ ρ}
    (P : σ → List α → List α → Prop) (Q : ρ → σ → List α → List α → Prop)
    (hbody : ∀ s g a t, P s g (a :: t) →
      match body s a with
      | .cont s' => P s' (g ++ [a]) t
      | .ret s' r => Q r s' (g ++ [a]) t
      | .panic => False)
    (i : Inp (Option α)) (s : σ) (hok : i.Ok) (h0 : P s i.src.got (items i.src.todo)) :
    ∃ st s' i', i.loop w body s = (st, s', i') ∧ i'.Ok ∧
      match st with
      | .panic => False
      | .ret r => Q r s' i'.src.got (items i'.src.todo) ∧ i'.alive = true
      | .ended => P s' i'.src.got (items i'.src.todo) ∧ i'.alive = false
      | .pending => P s' i'.src.got (items i'.src.todo) ∧ i'.alive = true ∧ i'.src.armed w := by
  unfold Inp.loop
  by_cases ha : i.alive = true
  · simp only [ha, ↓reduceIte]
    obtain ⟨st, s', src', h1, h2, h3⟩ := Src.loop_rule (w := w) (body := body) P Q hbody i.src s
      (hok.alive ha) h0
    rw [h1]
    cases st with
    | panic => exact h3.elim
    | ret r => exact ⟨_, _, _, rfl, ⟨h2, by simp [h3.2]⟩, h3.1, rfl⟩
    | ended => exact ⟨_, _, _, rfl, ⟨h2, by simp [h3.2]⟩, h3.1, rfl⟩
    | pending => exact ⟨_, _, _, rfl, ⟨h2, by simp [h3.2.1]⟩, h3.1, rfl, h3.2.2⟩
  · have ha' : i.alive = false := by simpa using ha
    simp only [ha', Bool.false_eq_true, ↓reduceIte]
    exact ⟨_, _, _, rfl, hok, h0, ha'⟩

/-- One poll of an input. -/
theorem Src.poll_rule (w : Waker) (src : Src (Option α)) (hne : ¬ src.ended) :
    ∃ r src', src.poll w = (r, src') ∧ src'.fused ∧
      (src'.got = src.got ++ items [r]) ∧ (items src.todo = items [r] ++ items src'.todo) ∧
      match r with
      | .ready (some _) => ¬ src'.ended
      | .ready none => src'.ended
      | .pending => ¬ src'.ended ∧ src'.armed w := by
  obtain ⟨t, h⟩ := src
  unfold Src.poll
  match t with
  | [] =>
    exact ⟨_, _, rfl, fused_snoc hne, by rw [got_snoc]; rfl, rfl,
      not_ended_snoc hne (by simp), armed_snoc _ _ _⟩
  | .pending :: t =>
    exact ⟨_, _, rfl, fused_snoc hne, by rw [got_snoc]; rfl, rfl,
      not_ended_snoc hne (by simp), armed_snoc _ _ _⟩
  | .ready none :: t =>
    exact ⟨_, _, rfl, fused_snoc hne, by rw [got_snoc]; rfl, rfl, ended_snoc _ _ _⟩
  | .ready (some a) :: t =>
    exact ⟨_, _, rfl, fused_snoc hne, by rw [got_snoc]; rfl, rfl,
      not_ended_snoc hne (by simp)⟩

/-! ## Well-formed diff histories -/

/-- Starting from contents `xs`, the diffs `ds` are applicable one after the other, and each
satisfies the side condition `ok` for the contents it is applied to. -/
def Feed (ok : VecDiff α → List α → Prop) : List (VecDiff α) → List α → Prop
  | [], _ => True
  | d :: ds, xs => ok d xs ∧ ∃ ys, d.apply xs = some ys ∧ Feed ok ds ys

/-- No side condition. -/
def anyDiff (_ : VecDiff α) (_ : List α) : Prop := True

theorem feed_any {ds : List (VecDiff α)} {xs : List α} :
    Feed anyDiff ds xs ↔ ∃ ys, replay ds xs = some ys := by
  induction ds generalizing xs with
  | nil => simp [Feed, replay]
  | cons d ds ih =>
    simp only [Feed, replay, anyDiff, true_and, ih]
    cases d.apply xs <;> simp

theorem Feed.replays {ok : VecDiff α → List α → Prop} {ds : List (VecDiff α)} {xs : List α}
    (h : Feed ok ds xs) : ∃ ys, replay ds xs = some ys := by
  induction ds generalizing xs with
  | nil => exact ⟨xs, rfl⟩
  | cons d ds ih =>
    obtain ⟨-, ys, h1, h2⟩ := h
    obtain ⟨zs, h3⟩ := ih h2
    exact ⟨zs, by simp [replay, h1, h3]⟩

/-- The state of a well-formed input: what it delivered so far describes the contents `xs`, and
what it is going to deliver is applicable. -/
structure Valid (ok : VecDiff α → List α → Prop) (src : Src (Option (VecDiff α)))
    (xs : List α) : Prop where
  now : replay src.got [] = some xs
  rest : Feed ok (items src.todo) xs

theorem valid_mk' {ok : VecDiff α → List α → Prop} {script : List (Poll (Option (VecDiff α)))}
    (h : Feed ok (items script) []) : Valid ok (Src.mk' script) [] := ⟨rfl, h⟩

theorem Src.vloop_rule {ok : VecDiff α → List α → Prop} {w : Waker}
    {body : σ → VecDiff α → Ctl σ ρ}
    (P : σ → List α → Prop) (Q : ρ → σ → List α → Prop)
    (hbody : ∀ s xs d ys, P s xs → ok d xs → d.apply xs = some ys →
      match body s d with
      | .cont s' => P s' ys
      | .ret s' r => Q r s' ys
      | .panic => False)
    (src : Src (Option (VecDiff α))) (s : σ) (xs : List α) (hne : ¬ src.ended)
    (hv : Valid ok src xs) (h0 : P s xs) :
    ∃ st s' src' xs', src.loop w body s = (st, s', src') ∧ src'.fused ∧ Valid ok src' xs' ∧
      match st with
      | .panic => False
      | .ret r => Q r s' xs' ∧ ¬ src'.ended
      | .ended => P s' xs' ∧ src'.ended
      | .pending => P s' xs' ∧ ¬ src'.ended ∧ src'.armed w := by
  obtain ⟨st, s', src', h1, h2, h3⟩ := Src.loop_rule (w := w) (body := body)
    (fun s g t => ∃ xs, replay g [] = some xs ∧ Feed ok t xs ∧ P s xs)
    (fun r s g t => ∃ xs, replay g [] = some xs ∧ Feed ok t xs ∧ Q r s xs)
    (by
      rintro s g d t ⟨xs, hg, ⟨hok, ys, hd, ht⟩, hp⟩
      have := hbody s xs d ys hp hok hd
      have hg' : replay (g ++ [d]) [] = some ys := replay_append_some hg (by simp [replay, hd])
      cases hb : body s d with
      | cont s' => rw [hb] at this; exact ⟨ys, hg', ht, this⟩
      | ret s' r => rw [hb] at this; exact ⟨ys, hg', ht, this⟩
      | panic => rw [hb] at this; exact this)
    src s hne ⟨xs, hv.now, hv.rest, h0⟩
  cases st with
  | panic => exact h3.elim
  | ret r =>
    obtain ⟨⟨xs', a, b, c⟩, d⟩ := h3
    exact ⟨_, _, _, xs', h1, h2, ⟨a, b⟩, c, d⟩
  | ended =>
    obtain ⟨⟨xs', a, b, c⟩, d⟩ := h3
    exact ⟨_, _, _, xs', h1, h2, ⟨a, b⟩, c, d⟩
  | pending =>
    obtain ⟨⟨xs', a, b, c⟩, d⟩ := h3
    exact ⟨_, _, _, xs', h1, h2, ⟨a, b⟩, c, d⟩

theorem Inp.vloop_rule {ok : VecDiff α → List α → Prop} {w : Waker}
    {body : σ → VecDiff α → Ctl σ ρ}
    (P : σ → List α → Prop) (Q : ρ → σ → List α → Prop)
    (hbody : ∀ s xs d ys, P s xs → ok d xs → d.apply xs = some ys →
      match body s d with
      | .cont s' => P s' ys
      | .ret s' r => Q r s' ys
      | .panic => False)
    (i : Inp (Option (VecDiff α))) (s : σ) (xs : List α) (hok : i.Ok)
    (hv : Valid ok i.src xs) (h0 : P s xs) :
    ∃ st s' i' xs', i.loop w body s = (st, s', i') ∧ i'.Ok ∧ Valid ok i'.src xs' ∧
      match st with
      | .panic => False
      | .ret r => Q r s' xs' ∧ i'.alive = true
      | .ended => P s' xs' ∧ i'.alive = false
      | .pending => P s' xs' ∧ i'.alive = true ∧ i'.src.armed w := by
  obtain ⟨st, s', i', h1, h2, h3⟩ := Inp.loop_rule (w := w) (body := body)
    (fun s g t => ∃ xs, replay g [] = some xs ∧ Feed ok t xs ∧ P s xs)
    (fun r s g t => ∃ xs, replay g [] = some xs ∧ Feed ok t xs ∧ Q r s xs)
    (by
      rintro s g d t ⟨xs, hg, ⟨hok, ys, hd, ht⟩, hp⟩
      have := hbody s xs d ys hp hok hd
      have hg' : replay (g ++ [d]) [] = some ys := replay_append_some hg (by simp [replay, hd])
      cases hb : body s d with
      | cont s' => rw [hb] at this; exact ⟨ys, hg', ht, this⟩
      | ret s' r => rw [hb] at this; exact ⟨ys, hg', ht, this⟩
      | panic => rw [hb] at this; exact this)
    i s hok ⟨xs, hv.now, hv.rest, h0⟩
  cases st with
  | panic => exact h3.elim
  | ret r =>
    obtain ⟨⟨xs', a, b, c⟩, d⟩ := h3
    exact ⟨_, _, _, xs', h1, h2, ⟨a, b⟩, c, d⟩
  | ended =>
    obtain ⟨⟨xs', a, b, c⟩, d⟩ := h3
    exact ⟨_, _, _, xs', h1, h2, ⟨a, b⟩, c, d⟩
  | pending =>
    obtain ⟨⟨xs', a, b, c⟩, d⟩ := h3
    exact ⟨_, _, _, xs', h1, h2, ⟨a, b⟩, c, d⟩

/-- One poll of a well-formed input. -/
theorem Src.vpoll_rule {ok : VecDiff α → List α → Prop} (w : Waker)
    (src : Src (Option (VecDiff α))) (xs : List α) (hne : ¬ src.ended) (hv : Valid ok src xs) :
    ∃ r src' xs', src.poll w = (r, src') ∧ src'.fused ∧ Valid ok src' xs' ∧
      match r with
      | .ready (some d) => ok d xs ∧ d.apply xs = some xs' ∧ ¬ src'.ended
      | .ready none => xs' = xs ∧ src'.ended
      | .pending => xs' = xs ∧ ¬ src'.ended ∧ src'.armed w := by
  obtain ⟨r, src', h1, h2, h3, h4, h5⟩ := Src.poll_rule w src hne
  have hn := hv.now
  have hr := hv.rest
  rw [h4] at hr
  match r with
  | .pending =>
    simp only [items_pending, items_nil, List.append_nil, List.nil_append] at h3 hr
    exact ⟨_, _, xs, h1, h2, ⟨by rw [h3]; exact hn, hr⟩, rfl, h5⟩
  | .ready none =>
    simp only [items_none, items_nil, List.append_nil, List.nil_append] at h3 hr
    exact ⟨_, _, xs, h1, h2, ⟨by rw [h3]; exact hn, hr⟩, rfl, h5⟩
  | .ready (some d) =>
    simp only [items_some, items_nil, List.cons_append, List.nil_append] at h3 hr
    obtain ⟨hok, ys, hd, ht⟩ := hr
    exact ⟨_, _, ys, h1, h2,
      ⟨by rw [h3]; exact replay_append_some hn (by simp [replay, hd]), ht⟩, hok, hd, h5⟩

/-- What an answer of an optional input means for the contents it describes. -/
def Delta (ok : VecDiff α → List α → Prop) (r : Option (Poll (Option (VecDiff α))))
    (xs xs' : List α) : Prop :=
  match r with
  | some (.ready (some d)) => ok d xs ∧ d.apply xs = some xs'
  | _ => xs' = xs

/-- One poll of a well-formed optional input. -/
theorem Inp.vpoll_rule {ok : VecDiff α → List α → Prop} (w : Waker)
    (i : Inp (Option (VecDiff α))) (xs : List α) (hok : i.Ok) (hv : Valid ok i.src xs) :
    ∃ r i' xs', i.poll w = (r, i') ∧ i'.Ok ∧ Valid ok i'.src xs' ∧ Delta ok r xs xs' ∧
      match r with
      | some (.ready (some _)) => i'.alive = true
      | some (.ready none) => i'.alive = false
      | some .pending => i'.alive = true ∧ i'.src.armed w
      | none => i'.alive = false := by
  unfold Inp.poll
  by_cases ha : i.alive = true
  · simp only [ha, ↓reduceIte]
    obtain ⟨r, src', xs', h1, h2, h3, h4⟩ := Src.vpoll_rule w i.src xs (hok.alive ha) hv
    rw [h1]
    cases r with
    | pending =>
      exact ⟨_, _, xs', rfl, ⟨h2, by simpa using h4.2.1⟩, h3, h4.1, rfl, h4.2.2⟩
    | ready x =>
      cases x with
      | none => exact ⟨_, _, xs', rfl, ⟨h2, by simpa using h4.2⟩, h3, h4.1, rfl⟩
      | some d =>
        exact ⟨_, _, xs', rfl, ⟨h2, by simpa using h4.2.2⟩, h3, ⟨h4.1, h4.2.1⟩, rfl⟩
  · have ha' : i.alive = false := by simpa using ha
    simp only [ha', Bool.false_eq_true, ↓reduceIte]
    exact ⟨none, i, xs, rfl, hok, hv, rfl, ha'⟩

/-- One poll of any optional input. -/
theorem Inp.poll_any (w : Waker) (i : Inp (Option α)) (hok : i.Ok) :
    ∃ r i', i.poll w = (r, i') ∧ i'.Ok ∧
      match r with
      | some (.ready (some _)) => i'.alive = true
      | some (.ready none) => i'.alive = false
      | some .pending => i'.alive = true ∧ i'.src.armed w
      | none => i'.alive = false := by
  unfold Inp.poll
  by_cases ha : i.alive = true
  · simp only [ha, ↓reduceIte]
    obtain ⟨r, src', h1, h2, -, -, h4⟩ := Src.poll_rule w i.src (hok.alive ha)
    rw [h1]
    cases r with
    | pending => exact ⟨_, _, rfl, ⟨h2, by simpa using h4.1⟩, rfl, h4.2⟩
    | ready x =>
      cases x with
      | none => exact ⟨_, _, rfl, ⟨h2, by simpa using h4⟩, rfl⟩
      | some d => exact ⟨_, _, rfl, ⟨h2, by simpa using h4⟩, rfl⟩
  · have ha' : i.alive = false := by simpa using ha
    simp only [ha', Bool.false_eq_true, ↓reduceIte]
    exact ⟨none, i, rfl, hok, ha'⟩

end Verif
