import Verif.CancelableSpec

/-!
# `cancelable_future`: proofs
-/

namespace Verif.Cancelable

variable {ο : Type}

theorem innerPolls_snoc (es : List Ev) (e : Ev) :
    innerPolls (es ++ [e]) = innerPolls es ++
      (match e with | .poll w => if .discard ∈ es then [] else [w] | _ => []) := by
  induction es with
  | nil => cases e <;> rfl
  | cons x es ih =>
    cases x with
    | poll w =>
      simp only [List.cons_append, innerPolls, ih]
      cases e <;> simp
    | discard => cases e <;> simp [innerPolls]
    | dropFuture =>
      simp only [List.cons_append, innerPolls, ih]
      cases e <;> simp

/-- The inner future after `ws` polls. -/
structure Polled (script : List (Poll ο)) (ws : List Waker) (f : Src ο) : Prop where
  todo : f.todo = script.drop ws.length
  hist : f.hist = ws.zipIdx.map fun p => (p.1, answer script p.2)

theorem Polled.poll {script : List (Poll ο)} {ws : List Waker} {f : Src ο} (h : Polled script ws f) (w : Waker) :
    ∃ f', f.poll w = (answer script ws.length, f') ∧ Polled script (ws ++ [w]) f' := by
  have hh : f.hist ++ [(w, answer script ws.length)] =
      (ws ++ [w]).zipIdx.map fun p => (p.1, answer script p.2) := by
    simp [h.hist, List.zipIdx_append]
  cases ht : script.drop ws.length with
  | nil =>
    have hlen : script.length ≤ ws.length := by simpa using ht
    have ha : answer script ws.length = .pending := by
      simp [answer, List.getElem?_eq_none hlen]
    refine ⟨⟨[], f.hist ++ [(w, .pending)]⟩, ?_, ?_, ?_⟩
    · simp [Src.poll, h.todo, ht, ha]
    · symm; rw [List.drop_eq_nil_iff]; simp; omega
    · rw [← ha]; exact hh
  | cons r rs =>
    have ha : answer script ws.length = r := by
      have : script[ws.length]? = some r := by
        rw [← List.head?_drop, ht]; rfl
      simp [answer, this]
    refine ⟨⟨rs, f.hist ++ [(w, r)]⟩, ?_, ?_, ?_⟩
    · simp [Src.poll, h.todo, ht, ha]
    · rw [List.length_append, List.length_singleton, ← List.drop_drop, ht]; rfl
    · rw [← ha]; exact hh

/-- What the state means.  `os` are the answers given so far. -/
structure Inv (script : List (Poll ο)) (c : ο) (es : List Ev) (os : List (Obs ο)) (m : World ο) : Prop where
  handle : m.handle = true ↔ .discard ∉ es
  alive : m.alive = true ↔ .dropFuture ∉ es
  cancelled : m.alive = true → (m.isCancelled = true ↔ .discard ∈ es)
  noPanic : .panic ∉ os
  live : m.alive = true → m.calls = 0 →
    ∃ f, m.future = some f ∧ Polled script (innerPolls es) f ∧ m.whenCancelled = some c ∧ m.dropped = none
  running : m.done = false → ∀ a, .poll (.ready a) ∉ os
  finished : m.done = true → ∃ r, .poll (.ready r) ∈ os
  fresh : m.done = false → m.calls = 0
  atMostOnce : m.calls = 0 ∨ m.calls = 1 ∧ .discard ∈ es ∧ m.future = none ∧ .poll (.ready c) ∈ os ∧
    ∃ f, m.dropped = some f ∧ Polled script (innerPolls es) f ∧ ∀ w a, (w, .ready a) ∉ f.hist
  pend : m.done = false → ∀ f, m.future = some f → ∀ w a, (w, .ready a) ∉ f.hist
  waker : m.done = false → ∀ es1 w es2, es = es1 ++ .poll w :: es2 → (∀ w', .poll w' ∉ es2) → .discard ∉ es2 →
    .discard ∉ es1 → m.waker = some w

theorem inv_init (script : List (Poll ο)) (c : ο) : Inv script c [] [] (World.init script c) := by
  refine ⟨by simp [World.init], by simp [World.init], by simp [World.init], by simp, ?_, by simp,
    by simp [World.init], fun _ => rfl, .inl rfl, ?_, ?_⟩
  · intro _ _
    exact ⟨_, rfl, ⟨rfl, rfl⟩, rfl, rfl⟩
  · intro _ f hf w a
    simp only [World.init, Option.some.injEq] at hf
    subst hf
    simp [Src.mk']
  · intro _ es1 w es2 he
    simp at he

theorem inv_step {script : List (Poll ο)} {c : ο} {es : List Ev} {os : List (Obs ο)} {m m' : World ο}
    {e : Ev} {o : Obs ο} (h : Inv script c es os m) (hs : m.step e = some (o, m')) :
    Inv script c (es ++ [e]) (os ++ [o]) m' ∧
    (∀ w, e = .poll w → o = .poll (pollAnswer script c es)) := by
  cases e with
  | poll w =>
    simp only [World.step] at hs
    split at hs
    rotate_left
    · cases hs
    rename_i hcond
    simp only [Bool.and_eq_true, Bool.not_eq_true'] at hcond
    obtain ⟨hal, hdn⟩ := hcond
    have hmd : (Ev.discard ∈ es ++ [.poll w]) ↔ .discard ∈ es := by simp
    have hmf : (Ev.dropFuture ∈ es ++ [.poll w]) ↔ .dropFuture ∈ es := by simp
    have hc0 := h.fresh hdn
    obtain ⟨f, hf, hpf, hwc, hdr⟩ := h.live hal hc0
    by_cases hd : .discard ∈ es
    · have hcan := (h.cancelled hal).2 hd
      have hip : innerPolls (es ++ [.poll w]) = innerPolls es := by
        rw [innerPolls_snoc]; simp [hd]
      simp only [World.poll, hcan, if_true, hwc, Option.some.injEq, Prod.mk.injEq] at hs
      obtain ⟨rfl, rfl⟩ := hs
      refine ⟨⟨by rw [hmd]; exact h.handle, by rw [hmf]; exact h.alive,
        by rw [hmd]; intro _; simp [hd], ?_, ?_, by simp, ?_, by simp, ?_, by simp, by simp⟩, ?_⟩
      · simpa using h.noPanic
      · intro _ k; simp at k
      · exact fun _ => ⟨c, by simp⟩
      · right
        refine ⟨by simp [hc0], by rw [hmd]; exact hd, rfl, by simp, f, hf, ?_, h.pend hdn f hf⟩
        rw [hip]; exact hpf
      · intro w' _
        simp [pollAnswer, hd]
    · have hcan : m.isCancelled = false := by
        cases hk : m.isCancelled with
        | false => rfl
        | true => exact absurd ((h.cancelled hal).1 hk) hd
      have hip : innerPolls (es ++ [.poll w]) = innerPolls es ++ [w] := by
        rw [innerPolls_snoc]; simp [hd]
      obtain ⟨f', hfp, hpf'⟩ := hpf.poll w
      have hhist : f'.hist = f.hist ++ [(w, answer script (innerPolls es).length)] := by
        rw [hpf'.hist, hpf.hist]; simp [List.zipIdx_append]
      simp only [World.poll, hcan, Bool.false_eq_true, if_false, hf, hfp] at hs
      have hans : pollAnswer script c es = answer script (innerPolls es).length := by
        simp [pollAnswer, hd]
      cases hr : answer script (innerPolls es).length with
      | pending =>
        simp only [hr, Option.some.injEq, Prod.mk.injEq] at hs
        obtain ⟨rfl, rfl⟩ := hs
        refine ⟨⟨by rw [hmd]; exact h.handle, by rw [hmf]; exact h.alive,
          by rw [hmd]; intro _; simp [hd], ?_, ?_, ?_, ?_, fun _ => hc0, .inl hc0, ?_, ?_⟩, ?_⟩
        · simpa using h.noPanic
        · intro _ _
          exact ⟨f', rfl, by rw [hip]; exact hpf', hwc, hdr⟩
        · intro _ a; simpa using h.running hdn a
        · intro k; rw [hdn] at k; cases k
        · intro _ g hg w' a
          simp only [Option.some.injEq] at hg
          subst hg
          rw [hhist, hr]
          simpa using h.pend hdn f hf w' a
        · intro _ es1 w1 es2 he hp _ _
          rcases snoc_split.1 he with ⟨rfl, rfl, hb⟩ | ⟨es2', rfl, rfl⟩
          · cases hb; rfl
          · exact absurd (by simp) (hp w)
        · intro _ _; rw [hans, hr]
      | ready a =>
        simp only [hr, Option.some.injEq, Prod.mk.injEq] at hs
        obtain ⟨rfl, rfl⟩ := hs
        refine ⟨⟨by rw [hmd]; exact h.handle, by rw [hmf]; exact h.alive,
          by rw [hmd]; intro _; simp [hd], ?_, ?_, by simp, ?_, by simp, .inl hc0, by simp, by simp⟩, ?_⟩
        · simpa using h.noPanic
        · intro _ _
          exact ⟨f', rfl, by rw [hip]; exact hpf', hwc, hdr⟩
        · exact fun _ => ⟨a, by simp⟩
        · intro _ _; rw [hans, hr]
  | discard =>
    simp only [World.step] at hs
    split at hs
    rotate_left
    · cases hs
    rename_i hhd
    simp only [Option.some.injEq, Prod.mk.injEq] at hs
    obtain ⟨rfl, rfl⟩ := hs
    have hmf : (Ev.dropFuture ∈ es ++ [.discard]) ↔ .dropFuture ∈ es := by simp
    have hip : innerPolls (es ++ [.discard]) = innerPolls es := by rw [innerPolls_snoc]; simp
    have hno := h.handle.1 hhd
    have key : ∀ m1 : World ο, m1.handle = false → m1.alive = m.alive → 
        (m.alive = true → m1.isCancelled = true) → m1.future = m.future → m1.whenCancelled = m.whenCancelled →
        m1.done = m.done → m1.calls = m.calls → m1.dropped = m.dropped →
        Inv script c (es ++ [.discard]) (os ++ [.unit]) m1 := by
      intro m1 e1 e2 e3 e4 e5 e6 e7 e8
      refine ⟨by simp [e1], by rw [hmf, e2]; exact h.alive, ?_, by simpa using h.noPanic, ?_, ?_, ?_, ?_, ?_, ?_, ?_⟩
      · intro k; rw [e2] at k; simp [e3 k]
      · rw [e2, e4, e5, e7, e8, hip]; exact h.live
      · rw [e6]; intro k a; simpa using h.running k a
      · rw [e6]; intro k; obtain ⟨r, hr⟩ := h.finished k; exact ⟨r, by simp [hr]⟩
      · rw [e6, e7]; exact h.fresh
      · rcases h.atMostOnce with k | ⟨_, k, _⟩
        · left; rw [e7]; exact k
        · exact absurd k hno
      · rw [e6, e4]; exact h.pend
      · intro _ es1 w es2 he _ hk
        rcases snoc_split.1 he with ⟨rfl, rfl, hb⟩ | ⟨es2', rfl, rfl⟩
        · cases hb
        · simp at hk
    refine ⟨?_, by simp⟩
    unfold World.discard
    split
    · split
      · exact key _ rfl rfl (fun _ => rfl) rfl rfl rfl rfl rfl
      · exact key _ rfl rfl (fun _ => rfl) rfl rfl rfl rfl rfl
    · rename_i hal
      exact key _ rfl rfl (fun k => absurd k hal) rfl rfl rfl rfl rfl
  | dropFuture =>
    simp only [World.step] at hs
    split at hs
    rotate_left
    · cases hs
    rename_i hal
    simp only [Option.some.injEq, Prod.mk.injEq] at hs
    obtain ⟨rfl, rfl⟩ := hs
    have hmd : (Ev.discard ∈ es ++ [.dropFuture]) ↔ .discard ∈ es := by simp
    have hip : innerPolls (es ++ [.dropFuture]) = innerPolls es := by rw [innerPolls_snoc]; simp
    refine ⟨⟨by rw [hmd]; exact h.handle, by simp, by simp, by simpa using h.noPanic, by simp, ?_, ?_, ?_, ?_,
      by simp, ?_⟩, by simp⟩
    · intro k a; simpa using h.running k a
    · intro k; obtain ⟨r, hr⟩ := h.finished k; exact ⟨r, by simp [hr]⟩
    · exact h.fresh
    · rcases h.atMostOnce with k | ⟨k1, k2, k3, k4, f, k5, k6, k7⟩
      · exact .inl k
      · refine .inr ⟨k1, by rw [hmd]; exact k2, rfl, by simp [k4], f, by simp [k3, k5], by rw [hip]; exact k6, k7⟩
    · intro hdn es1 w es2 he hp hd1 hd2
      rcases snoc_split.1 he with ⟨rfl, rfl, hb⟩ | ⟨es2', rfl, rfl⟩
      · cases hb
      · exact h.waker hdn es1 w es2' rfl (fun w' hw => hp w' (by simp [hw])) (fun k => hd1 (by simp [k])) hd2

theorem poll_done {m m' : World ο} {w : Waker} {r : Poll ο} (h : m.poll w = some (r, m')) :
    m'.done = m.done := by
  simp only [World.poll] at h
  split at h
  · split at h <;> cases h; rfl
  · split at h
    · cases h
    · split at h <;> cases h <;> rfl

theorem inv_runs {script : List (Poll ο)} {c : ο} {es : List Ev} {os : List (Obs ο)} {m : World ο}
    (h : (World.init script c).runs es = some (os, m)) : Inv script c es os m :=
  runE_inv (Inv := Inv script c) (inv_init script c) (fun _ _ _ _ _ _ h hs => (inv_step h hs).1) h

end Verif.Cancelable
