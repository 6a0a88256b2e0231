import Verif.SendsSwitch
import Verif.Props.SignalVecSwitch
import Verif.Props.SendsSignal

/-!
# The changes `switch_signal_vec` sends (C98)
-/

namespace Verif

variable {α τ : Type}

/-- What is shown after following `fs`. -/
def shownAfter (g : τ → List (Poll (Option (VecDiff α)))) (x : List α) (fs : List (τ × List (VecDiff α))) : List α :=
  match fs.getLast? with
  | none => x
  | some f => (replay (given g f) []).getD []

theorem switchSends_new (g : τ → List (Poll (Option (VecDiff α)))) (v : τ) (x : List α) (fs : List (τ × List (VecDiff α))) :
    switchSends g x (fs ++ [(v, [])]) = switchSends g x fs ++ switchSays (shownAfter g x fs) (atOnce (g v)) := by
  induction fs generalizing x with
  | nil => simp [switchSends, shownAfter]
  | cons f fs ih =>
    simp only [List.cons_append, switchSends, ih]
    cases fs with
    | nil => simp [shownAfter, switchSends]
    | cons f' fs =>
      obtain ⟨l, hl⟩ : ∃ l, (f' :: fs).getLast? = some l := ⟨_, List.getLast?_eq_some_getLast (by simp)⟩
      simp [shownAfter, hl]

theorem switchSends_more (g : τ → List (Poll (Option (VecDiff α)))) (v : τ) (ds es : List (VecDiff α)) (x : List α)
    (fs : List (τ × List (VecDiff α))) :
    switchSends g x (fs ++ [(v, ds ++ es)]) = switchSends g x (fs ++ [(v, ds)]) ++ es := by
  induction fs generalizing x with
  | nil => simp [switchSends]
  | cons f fs ih => simp [switchSends, ih]

theorem Inp.poll_gives {δ : Type} {w : Waker} {i i' : Inp (Option δ)} {r : Option (Poll (Option δ))}
    (h : i.poll w = (r, i')) : i'.src.got = i.src.got ++ items r.toList := by
  unfold Inp.poll at h
  split at h
  · have hh := Src.poll_hist w i.src
    split at h
    all_goals
      cases h
      rename_i e
      rw [e] at hh
      simp_all [Src.got, items_append]
  · cases h; simp

theorem new_poll (script : List (Poll (Option (VecDiff α)))) (w : Waker) :
    ∃ r i, (Inp.mk' script).poll w = (some r, i) ∧ items [r] = (atOnce script).toList ∧
      i.src.got = (atOnce script).toList := by
  match script with
  | [] => exact ⟨_, _, rfl, rfl, rfl⟩
  | .pending :: _ => exact ⟨_, _, rfl, rfl, rfl⟩
  | .ready none :: _ => exact ⟨_, _, rfl, rfl, rfl⟩
  | .ready (some d) :: _ => exact ⟨_, _, rfl, rfl, rfl⟩

/-- One poll. -/
theorem VSwitch.poll_follows {g : τ → List (Poll (Option (VecDiff α)))} (hg : ∀ v, Feed anyDiff (items (g v)) [])
    {w : Waker} {m m' : VSwitch τ α} {r : Poll (Option (VecDiff α))} {ys : List α} (hl : SwLive g m ys)
    (h : VSwitch.poll g w m = some (r, m')) :
    ∃ vs, m'.signal.src.got = m.signal.src.got ++ vs ∧
      ((vs = [] ∧ m'.inner.src.got = m.inner.src.got ++ items [r]) ∨
       (∃ v, vs.getLast? = some v ∧ m'.inner.src.got = (atOnce (g v)).toList ∧
        (items [r] = switchSays ys (atOnce (g v)) ∨ (r = .ready none ∧ switchSays ys (atOnce (g v)) = [.replace []])))) := by
  obtain ⟨st, vs, sig, h1, -, h3, h4⟩ := lastValue_loop w m.signal hl.signal
  have key : ∀ b, VSwitch.finish g w b vs.getLast? sig m = some (r, m') → ∃ vs, m'.signal.src.got = m.signal.src.got ++ vs ∧
      ((vs = [] ∧ m'.inner.src.got = m.inner.src.got ++ items [r]) ∨
       (∃ v, vs.getLast? = some v ∧ m'.inner.src.got = (atOnce (g v)).toList ∧
        (items [r] = switchSays ys (atOnce (g v)) ∨ (r = .ready none ∧ switchSays ys (atOnce (g v)) = [.replace []])))) := by
    intro b hf
    have hlen := hl.len
    cases hv : vs.getLast? with
    | some v =>
      rw [hv] at hf
      obtain ⟨r1, i1, p1, p2, p3⟩ := new_poll (g v) w
      simp only [VSwitch.finish, p1] at hf
      refine ⟨vs, ?_⟩
      cases ys with
      | nil =>
        simp only [List.length_nil] at hlen
        match r1, p2 with
        | .pending, p2 =>
          simp only [newSignalVec, hlen, ↓reduceIte] at hf
          cases hf
          exact ⟨h3, .inr ⟨v, hv, p3, .inl (by simpa [switchSays] using p2)⟩⟩
        | .ready none, p2 =>
          simp only [newSignalVec, hlen, ↓reduceIte] at hf
          split at hf
          all_goals
            cases hf
            exact ⟨h3, .inr ⟨v, hv, p3, .inl (by simpa [switchSays] using p2)⟩⟩
        | .ready (some d), p2 =>
          simp only [hlen, ↓reduceIte] at hf
          split at hf
          · cases hf
          · cases hf
            exact ⟨h3, .inr ⟨v, hv, p3, .inl (by simpa [switchSays] using p2)⟩⟩
      | cons y ys =>
        have hne : m.len ≠ 0 := by rw [hlen]; simp
        match r1, p2 with
        | .pending, p2 =>
          have p2 : atOnce (g v) = none := by simpa using p2.symm
          simp only [newSignalVec, hne, ↓reduceIte] at hf
          cases hf
          exact ⟨h3, .inr ⟨v, hv, p3, .inl (by simp [p2, switchSays])⟩⟩
        | .ready none, p2 =>
          have p2 : atOnce (g v) = none := by simpa using p2.symm
          simp only [newSignalVec, hne, ↓reduceIte] at hf
          split at hf
          · cases hf
            exact ⟨h3, .inr ⟨v, hv, p3, .inr ⟨rfl, by simp [p2, switchSays]⟩⟩⟩
          · cases hf
            exact ⟨h3, .inr ⟨v, hv, p3, .inl (by simp [p2, switchSays])⟩⟩
        | .ready (some d), p2 =>
          have p2 : atOnce (g v) = some d := by
            cases ha : atOnce (g v) with
            | none => simp [ha] at p2
            | some d' => simp [ha] at p2; rw [p2]
          simp only [hne, ↓reduceIte] at hf
          split at hf
          · cases hf
          · rename_i values hvs
            cases hf
            exact ⟨h3, .inr ⟨v, hv, p3, .inl (by simp [p2, switchSays, hvs])⟩⟩
    | none =>
      have : vs = [] := by simpa using hv
      subst this
      rw [hv] at hf
      refine ⟨[], ?_⟩
      simp only [VSwitch.finish] at hf
      split at hf
      · rename_i inner hp
        cases hf
        exact ⟨h3, .inl ⟨rfl, by simpa using Inp.poll_gives hp⟩⟩
      · rename_i d inner hp
        split at hf
        · cases hf
        · cases hf
          exact ⟨h3, .inl ⟨rfl, by simpa using Inp.poll_gives hp⟩⟩
      · rename_i o inner hn1 hn2 hp
        have hi := Inp.poll_gives hp
        have ho : items o.toList = [] := by
          match o with
          | none => rfl
          | some .pending => rfl
          | some (.ready none) => rfl
          | some (.ready (some d)) => exact (hn2 d rfl).elim
        rw [ho] at hi
        split at hf
        all_goals
          cases hf
          exact ⟨h3, .inl ⟨rfl, by simpa using hi⟩⟩
  unfold VSwitch.poll at h
  simp only [h1] at h
  rcases h4 with ⟨rfl, -⟩ | ⟨rfl, -⟩
  · exact key _ h
  · exact key _ h

/-- What holds between polls. -/
structure SwFollows (g : τ → List (Poll (Option (VecDiff α)))) (outs : List (Poll (Option (VecDiff α)))) (m : VSwitch τ α)
    (fs : List (τ × List (VecDiff α))) : Prop where
  values : (fs.map (·.1)).Sublist m.signal.src.got
  last : (fs.map (·.1)).getLast? = m.signal.src.got.getLast?
  pre : ∀ f ∈ fs, given g f <+: items (g f.1)
  now : ∀ f, fs.getLast? = some f → m.inner.src.got = given g f
  sent : items outs = switchSends g [] fs ∨
    (.ready none ∈ outs ∧ items outs ++ [.replace []] = switchSends g [] fs)

theorem SwFollows.next {g : τ → List (Poll (Option (VecDiff α)))} (hg : ∀ v, Feed anyDiff (items (g v)) [])
    {outs : List (Poll (Option (VecDiff α)))} {m m' : VSwitch τ α} {fs : List (τ × List (VecDiff α))} {ys ys' : List α}
    {w : Waker} {r : Poll (Option (VecDiff α))} (hf : SwFollows g outs m fs) (hne : .ready none ∉ outs) (hl : SwLive g m ys)
    (hl' : SwInv g m' ys') (h : VSwitch.poll g w m = some (r, m')) : ∃ fs, SwFollows g (outs ++ [r]) m' fs := by
  obtain ⟨vs, h1, h2⟩ := VSwitch.poll_follows hg hl h
  have hsent : items outs = switchSends g [] fs := hf.sent.resolve_right fun x => hne x.1
  have hall : m'.inner.src.got <+: items (scriptOf g m'.cur) := hl'.all ▸ List.prefix_append _ _
  have hcur := hl'.cur
  rcases h2 with ⟨rfl, h2⟩ | ⟨v, hv, h2, h3⟩
  · rw [List.append_nil] at h1
    rcases List.eq_nil_or_concat fs with rfl | ⟨fs, ⟨v, ds⟩, rfl⟩
    · have hg0 : m.signal.src.got.getLast? = none := hf.last.symm
      rw [hcur, h1, hg0] at hall
      simp only [scriptOf, items_nil, List.prefix_nil] at hall
      rw [hall] at h2
      have hr : items [r] = [] := (List.append_eq_nil_iff.1 h2.symm).2
      exact ⟨[], by simp, by rw [h1]; exact hf.last, by simp, by simp, .inl (by rw [items_append, hr, hsent]; rfl)⟩
    · rw [List.concat_eq_append] at *
      have hnow := hf.now (v, ds) (by simp)
      have hlast : m.signal.src.got.getLast? = some v := by simpa using hf.last.symm
      have hgv : m'.inner.src.got = given g (v, ds ++ items [r]) := by rw [h2, hnow]; simp [given]
      refine ⟨fs ++ [(v, ds ++ items [r])], ?_, ?_, ?_, ?_, ?_⟩
      · rw [h1]; simpa using hf.values
      · rw [h1, hlast]; simp
      · intro f hfm
        rcases List.mem_append.1 hfm with hfm | hfm
        · exact hf.pre f (List.mem_append_left _ hfm)
        · rw [List.mem_singleton] at hfm
          subst hfm
          rw [hcur, h1, hlast, hgv] at hall
          exact hall
      · intro f hfl
        simp only [List.getLast?_append, List.getLast?_singleton, Option.some_or, Option.some.injEq] at hfl
        subst hfl
        exact hgv
      · left
        rw [switchSends_more, items_append, hsent]
  · have hlast : m'.signal.src.got.getLast? = some v := by rw [h1, getLast?_append_of hv]
    have hgv : m'.inner.src.got = given g (v, []) := by rw [h2]; simp [given]
    have hshown : shownAfter g [] fs = ys := by
      unfold shownAfter
      have hnow := hl.valid.now
      cases hfl : fs.getLast? with
      | none =>
        have hnil : fs = [] := by simpa using hfl
        subst hnil
        have hg0 : m.signal.src.got.getLast? = none := hf.last.symm
        have ha := hl.all
        rw [hl.cur, hg0] at ha
        simp only [scriptOf, items_nil, Src.all, List.append_eq_nil_iff] at ha
        rw [ha.1] at hnow
        cases hnow; rfl
      | some f =>
        rw [hf.now f hfl] at hnow
        simp [hnow]
    refine ⟨fs ++ [(v, [])], ?_, ?_, ?_, ?_, ?_⟩
    · rw [h1, List.map_append]
      exact hf.values.append (by simpa using List.mem_of_getLast? hv)
    · rw [hlast]; simp
    · intro f hfm
      rcases List.mem_append.1 hfm with hfm | hfm
      · exact hf.pre f hfm
      · rw [List.mem_singleton] at hfm
        subst hfm
        rw [hcur, hlast, hgv] at hall
        exact hall
    · intro f hfl
      simp only [List.getLast?_append, List.getLast?_singleton, Option.some_or, Option.some.injEq] at hfl
      subst hfl
      exact hgv
    · rw [switchSends_new, hshown, items_append, hsent]
      rcases h3 with h3 | ⟨rfl, h3⟩
      · left; rw [h3]
      · right; rw [h3]; simp

/-- **C98**, `switch_signal_vec`, for every outer signal, every callback whose `SignalVec`s are well-formed and every
schedule of polls.  The `SignalVec`s it follows belong to values of the outer signal, in order, the last one to the last
value.  It sends each change of these as it is; only when it begins to follow one while elements are shown, it sends one
`Replace` with what that one gives at once.  The one exception is C22's: if the last one is empty and everything has ended,
the `Replace` is missing. -/
theorem C98_switch (g : τ → List (Poll (Option (VecDiff α)))) (script : List (Poll (Option τ)))
    (hg : ∀ v, ∃ z, replay (items (g v)) [] = some z) (ws : List Waker) :
    ∃ outs s fs, run (VSwitch.poll g) ws (VSwitch.init script) = some (outs, s) ∧
      (fs.map (·.1)).Sublist s.signal.src.got ∧ (fs.map (·.1)).getLast? = s.signal.src.got.getLast? ∧
      (∀ f ∈ fs, given g f <+: items (g f.1)) ∧ (∀ f, fs.getLast? = some f → s.inner.src.got = given g f) ∧
      (items outs = switchSends g [] fs ∨
        (.ready none ∈ outs ∧ items outs ++ [.replace []] = switchSends g [] fs)) := by
  have hg' : ∀ v, Feed anyDiff (items (g v)) [] := fun v => by
    obtain ⟨z, hz⟩ := hg v
    exact feed_any.2 ⟨z, hz⟩
  obtain ⟨outs, s, h1, -, fs, h2⟩ := run_rule (poll := VSwitch.poll g)
    (fun outs s => (.ready none ∉ outs → ∃ ys, SwLive g s ys) ∧ ∃ fs, SwFollows g outs s fs)
    (by
      rintro w outs s ⟨hl, fs, hf⟩ hne
      obtain ⟨ys, hl⟩ := hl hne
      obtain ⟨r, s', p1, p2⟩ := VSwitch.step g hg' w s ys hl
      match r with
      | .ready (some d) =>
        obtain ⟨ys', -, p2⟩ := p2
        exact ⟨_, s', p1, fun _ => ⟨ys', p2⟩, hf.next hg' hne hl p2.toSwInv p1⟩
      | .ready none =>
        obtain ⟨ys', p3, -⟩ := p2.inv
        exact ⟨_, s', p1, fun h => (h (by simp)).elim, hf.next hg' hne hl p3 p1⟩
      | .pending => exact ⟨_, s', p1, fun _ => ⟨ys, p2.toSwLive⟩, hf.next hg' hne hl p2.toSwInv p1⟩)
    ws [] (VSwitch.init script)
    ⟨fun _ => ⟨[], VSwitch.init_live g script⟩, [], by simp [VSwitch.init, Inp.mk', Src.mk', Src.got],
      by simp [VSwitch.init, Inp.mk', Src.mk', Src.got], by simp, by simp, .inl rfl⟩ (by simp)
  rw [List.nil_append] at h2
  exact ⟨outs, s, fs, h1, h2.values, h2.last, h2.pre, h2.now, h2.sent⟩

/-- Two lists one after the other, the second one while the first is shown. -/
example : ∃ s, run (VSwitch.poll fun n : Nat => [.ready (some (.push n)), .ready (some (.push (n + 1)))]) [0, 0, 0, 0]
      (VSwitch.init [.ready (some 1), .pending, .pending, .ready (some 5), .pending]) =
    some ([.ready (some (.push 1)), .ready (some (.push 2)), .ready (some (.replace [5])), .ready (some (.push 6))], s) :=
  ⟨_, rfl⟩

end Verif
