import Verif.NetEnv

/-!
# Networks of signals: no poll panics
-/

namespace Verif.Net

variable {α β γ σ : Type}

/-- Steps that are always possible can be taken one after the other. -/
theorem chain_exists {n : Nat} {T : Fin n → Type} {P : ∀ i : Fin n, Env α → T i → Env α → Prop}
    (h : ∀ i W, ∃ s W', P i W s W') (W : Env α) :
    ∃ (Ws : Nat → Env α) (s : ∀ i, T i), Ws 0 = W ∧ ∀ i : Fin n, P i (Ws i) (s i) (Ws (i + 1)) := by
  let next : Nat → Env α → Env α := fun k W =>
    if hk : k < n then (h ⟨k, hk⟩ W).choose_spec.choose else W
  let Ws : Nat → Env α := fun k => Nat.rec W next k
  refine ⟨Ws, fun i => (h i (Ws i)).choose, rfl, fun i => ?_⟩
  have e : Ws (i + 1) = (h i (Ws i)).choose_spec.choose := by
    show next i (Ws i) = _
    simp only [next, dif_pos i.2]
  rw [e]
  exact (h i (Ws i)).choose_spec.choose_spec

theorem makes_total (p : Net α β) (W : Env α) : ∃ s W', p.Makes W s W' := by
  induction p generalizing W with
  | source m => exact ⟨(W m).cells, _, rfl, rfl⟩
  | always b => exact ⟨⟨some b⟩, _, rfl, rfl⟩
  | map f p ih => obtain ⟨s, W', h⟩ := ih W; exact ⟨(SMap.init () [], s), W', rfl, h⟩
  | dedupe p ih => obtain ⟨s, W', h⟩ := ih W; exact ⟨(SDedupe.init () [], s), W', rfl, h⟩
  | eq b p ih => obtain ⟨s, W', h⟩ := ih W; exact ⟨(SEq.init b [], s), W', rfl, h⟩
  | neq b p ih => obtain ⟨s, W', h⟩ := ih W; exact ⟨(SEq.init b [], s), W', rfl, h⟩
  | mapRef ps f ih =>
    obtain ⟨Ws, s, h1, h2⟩ := chain_exists ih W
    exact ⟨(fun _ => ⟨Inp.mk' [], none⟩, s), Ws _, fun i => rfl, Ws, h1, rfl, h2⟩
  | switch g p ihg ih =>
    obtain ⟨s, W', h⟩ := ih W
    exact ⟨(SFlatten.init [], s, none), W', rfl, h, rfl⟩

theorem drops_total (p : Net α β) (W : Env α) (s : p.St) : ∃ W', p.Drops W s W' := by
  induction p generalizing W with
  | source m => exact ⟨_, rfl⟩
  | always b => exact ⟨_, rfl⟩
  | map f p ih => exact ih W s.2
  | dedupe p ih => exact ih W s.2
  | eq b p ih => exact ih W s.2
  | neq b p ih => exact ih W s.2
  | mapRef ps f ih =>
    obtain ⟨Ws, -, h1, h2⟩ := chain_exists (T := fun _ => Unit)
      (P := fun i W _ W' => (ps i).Drops W (s.2 i) W') (fun i W => by
        obtain ⟨W', h⟩ := ih i W (s.2 i); exact ⟨(), W', h⟩) W
    exact ⟨_, Ws, h1, rfl, h2⟩
  | switch g p ihg ih =>
    obtain ⟨fl, so, si⟩ := s
    obtain ⟨W1, h⟩ := ih W so
    cases si with
    | none => exact ⟨W1, W1, h, fun _ => rfl, fun _ _ h => by cases h⟩
    | some q =>
      obtain ⟨t, si⟩ := q
      obtain ⟨W', h'⟩ := ihg t W1 si
      exact ⟨W', W1, h, fun h => (by cases h), fun _ _ h => by cases h; exact h'⟩

theorem many_one {P : Env α → σ → Poll (Option β) → Env α → σ → Prop} {W W' : Env α} {s s' : σ}
    {r : Poll (Option β)} (h : P W s r W' s') : Many P W s [r] W' s' := ⟨W', s', h, rfl, rfl⟩

/-- A loop over an input. -/
theorem loop_total {ρ : Type} {p : Net α β} {w : Waker} {body : σ → β → Ctl σ ρ} {c : σ}
    (ih : ∀ {W s last}, Inv p W s last → Ok W → ∃ r W' s', p.Polls w W s r W' s')
    {W : Env α} {s : p.St} {last : Option β} (hi : Inv p W s last) (hok : Ok W) (src : Src (Option β)) :
    ∃ l W' s' st c' src', Many (p.Polls w) W s l W' s' ∧ (give l src).loop w body c = (st, c', src') ∧
      Took l src src' := by
  obtain ⟨r0, W1, s1, h1⟩ := ih hi hok
  have P := polls_post hi hok h1
  match r0, h1, P with
  | .pending, h1, P =>
    exact ⟨[.pending], W1, s1, _, _, _, many_one h1, rfl, by simp [Took, give, pollLoop]⟩
  | .ready none, h1, P =>
    exact ⟨[.ready none], W1, s1, _, _, _, many_one h1, rfl, by simp [Took, give, pollLoop]⟩
  | .ready (some a), h1, P =>
    cases hb : body c a with
    | ret c1 r =>
      exact ⟨[.ready (some a)], W1, s1, .ret r, c1, ⟨[], src.hist ++ [(w, .ready (some a))]⟩, many_one h1,
        by simp [give, Src.loop, pollLoop, hb], by simp [Took]⟩
    | panic =>
      exact ⟨[.ready (some a)], W1, s1, .panic, c, ⟨[], src.hist ++ [(w, .ready (some a))]⟩, many_one h1,
        by simp [give, Src.loop, pollLoop, hb], by simp [Took]⟩
    | cont c1 =>
      obtain ⟨r1, W2, s2, h2⟩ := ih P.inv P.frame.ok
      have q := (polls_post P.inv P.frame.ok h2).quiet P.clean
      match r1, h2, q with
      | .ready (some b), _, q => exact absurd rfl (q b)
      | .ready none, h2, _ =>
        exact ⟨[.ready (some a), .ready none], W2, s2, .ended, c1,
          ⟨[], (src.hist ++ [(w, .ready (some a))]) ++ [(w, .ready none)]⟩,
          ⟨W1, s1, h1, many_one h2⟩, by simp [give, Src.loop, pollLoop, hb], by simp [Took]⟩
      | .pending, h2, _ =>
        exact ⟨[.ready (some a), .pending], W2, s2, .pending, c1,
          ⟨[], (src.hist ++ [(w, .ready (some a))]) ++ [(w, .pending)]⟩,
          ⟨W1, s1, h1, many_one h2⟩, by simp [give, Src.loop, pollLoop, hb], by simp [Took]⟩

/-- One input of `map_ref!` or `flatten`: polled once, unless it ended. -/
theorem input_total {p : Net α β} {w : Waker}
    (ih : ∀ {W s last}, Inv p W s last → Ok W → ∃ r W' s', p.Polls w W s r W' s')
    {W : Env α} {s : p.St} {last : Option β} (hi : Inv p W s last) (hok : Ok W) (alive : Bool) :
    ∃ l W' s', Many (p.Polls w) W s l W' s' ∧ l.length = if alive then 1 else 0 := by
  cases alive with
  | false => exact ⟨[], W, s, ⟨rfl, rfl⟩, rfl⟩
  | true =>
    obtain ⟨r, W', s', h⟩ := ih hi hok
    exact ⟨[r], W', s', many_one h, rfl⟩

theorem mapRef_total {n : Nat} {ps : Fin (n + 1) → Net α β} {f : List β → γ} {w : Waker}
    (ih : ∀ i {W s last}, Inv (ps i) W s last → Ok W → ∃ r W' s', (ps i).Polls w W s r W' s')
    {W : Env α} {s : (Net.mapRef ps f).St} {last : Option γ} (hi : Inv (Net.mapRef ps f) W s last)
    (hok : Ok W) : ∃ r W' s', (Net.mapRef ps f).Polls w W s r W' s' := by
  obtain ⟨g1, g2, g3⟩ := hi
  obtain ⟨Ws, q, rfl, h1⟩ := chain_exists (T := fun i => List (Poll (Option β)) × (ps i).St)
    (P := fun i W q W' => Inv (ps i) W (s.2 i) (s.1 i).value → Ok W →
      Many ((ps i).Polls w) W (s.2 i) q.1 W' q.2 ∧
      q.1.length = if (s.1 i).signal.alive then 1 else 0) (fun i W => by
        by_cases h : Inv (ps i) W (s.2 i) (s.1 i).value ∧ Ok W
        · obtain ⟨l, W', s', k⟩ := input_total (ih i) h.1 h.2 (s.1 i).signal.alive
          exact ⟨(l, s'), W', fun _ _ => k⟩
        · exact ⟨([], s.2 i), W, fun a b => absurd ⟨a, b⟩ h⟩) W
  obtain ⟨post, same1, same2, -, -, -⟩ := inputs_post (w := w) (s := s.2) (s' := fun i => (q i).2)
    (l := fun i => (q i).1) (v := fun i => (s.1 i).value) (fun i {_ _ _ _ _ _} => polls_post)
    (fun i => (g1 i).1) g2 hok fun i a b => (h1 i a b).1
  have oki : ∀ i : Fin (n + 1), Ok (Ws i) := by
    intro i
    by_cases h : i.val = 0
    · rw [h]; exact hok
    · have := (post ⟨i - 1, by omega⟩).frame.ok
      have e : ((⟨i - 1, by omega⟩ : Fin (n + 1)) : Nat) + 1 = i := by simp; omega
      rw [e] at this
      exact this
  have run := fun i => h1 i (inv_later (same1 i).later (g1 i).1) (oki i)
  let ms : Fin (n + 1) → MapRef1 β := fun i =>
    ⟨⟨give (q i).1 (s.1 i).signal.src, (s.1 i).signal.alive⟩, (s.1 i).value⟩
  have took : ∀ i, Took (q i).1 (s.1 i).signal.src ((ms i).poll w).2.signal.src := by
    intro i
    have hl := (run i).2
    simp only [ms]
    cases ha : (s.1 i).signal.alive with
    | false =>
      rw [ha] at hl
      simp only [Bool.false_eq_true, ↓reduceIte] at hl
      simp [MapRef1.poll, Inp.poll, Took, give, hl]
    | true =>
      rw [ha] at hl
      simp only [↓reduceIte] at hl
      match hq : (q i).1, hl with
      | [.pending], _ => simp [MapRef1.poll, Inp.poll, Took, give, Src.poll]
      | [.ready none], _ => simp [MapRef1.poll, Inp.poll, Took, give, Src.poll]
      | [.ready (some b)], _ => simp [MapRef1.poll, Inp.poll, Took, give, Src.poll]
  -- all inputs have values now
  have val : ∀ i, ∃ b, ((ms i).poll w).2.value = some b := by
    intro i
    have hv := (mapRef1_took (m := s.1 i) (m' := ((ms i).poll w).2) (l := (q i).1) (w := w)
      (res := ((ms i).poll w).1) rfl (took i)).1
    have hc : Clean (ps i) (Ws (i + 1)) (q i).2 := by
      by_cases hl : (q i).1 = []
      · obtain ⟨e1, e2⟩ := (post i).nil hl
        rw [e1]
        rw [show (q i).2 = s.2 i from e2]
        have ha : (s.1 i).signal.alive = false := by
          have := (run i).2
          rw [hl] at this
          cases ha : (s.1 i).signal.alive with
          | false => rfl
          | true => rw [ha] at this; cases this
        exact armed_clean (w := w) (dead_armed (dead_later (same1 i).later ((g1 i).2 ha)))
      · exact (post i).clean hl
    exact ⟨_, hv.trans (clean_den (post i).inv hc)⟩
  have hm : (List.ofFn ms).map (fun m => (m.poll w).2) = List.ofFn fun i => ((ms i).poll w).2 := by
    rw [List.map_ofFn]; rfl
  have hv := inputValues_ofFn (fun i => ((ms i).poll w).2) (fun i => (val i).choose) fun i => (val i).choose_spec
  have ans : ∃ r, SMapRef.poll f w (List.ofFn ms) = some (r, List.ofFn fun i => ((ms i).poll w).2) := by
    unfold SMapRef.poll SMapMut.poll
    rw [pollInputs_eq, hm]
    simp only
    split
    · rw [hv]
      simp only
      rw [setValues_self (inputValues_some hv)]
      exact ⟨_, rfl⟩
    · split
      · exact ⟨_, rfl⟩
      · exact ⟨_, rfl⟩
  obtain ⟨r, ans⟩ := ans
  exact ⟨r, Ws (n + 1), (fun i => ((ms i).poll w).2, fun i => (q i).2), fun i => (q i).1,
    ⟨Ws, rfl, rfl, fun i => (run i).1⟩, ans, took⟩

/-- What `flatten` does with its inner signal, given as many answers as it needs. -/
theorem pollInner_total {w : Waker} {done : Bool} {i : Inp (Option β)}
    {inner : Option (Made β (Option γ))} {old : List (Made β (Option γ))} {li : List (Poll (Option γ))}
    (hl : li.length = if inner.isSome then 1 else 0) :
    let x := SFlatten.pollInner w done ⟨i, inner.map fun i => ⟨i.tag, give li i.src⟩, old⟩
    x.2.signal = i ∧ innerPolls x.2 = (old.map (·.src.hist.length)).sum +
      (inner.map (·.src.hist.length)).getD 0 + li.length := by
  cases inner with
  | none =>
    simp only [Option.isSome_none, Bool.false_eq_true, ↓reduceIte] at hl
    cases done <;> simp [SFlatten.pollInner, innerPolls, hl]
  | some m =>
    simp only [Option.isSome_some, ↓reduceIte] at hl
    match li, hl with
    | [.pending], _ => simp [SFlatten.pollInner, innerPolls, give, Src.poll]; omega
    | [.ready none], _ => cases done <;> simp [SFlatten.pollInner, innerPolls, give, Src.poll] <;> omega
    | [.ready (some b)], _ => simp [SFlatten.pollInner, innerPolls, give, Src.poll]; omega

theorem flatten_total {w : Waker} {fl : SFlatten β γ} {lo : List (Poll (Option β))}
    {li : List (Poll (Option γ))} (hlo : lo.length = if fl.signal.alive then 1 else 0)
    (hli : li.length = if items lo ≠ [] ∨ fl.inner.isSome = true then 1 else 0) :
    ∃ r fl', SFlatten.poll (fun _ => li) w (giveFlatten lo li fl) = some (r, fl') ∧
      Took lo fl.signal.src fl'.signal.src ∧ innerPolls fl' = innerPolls fl + li.length := by
  obtain ⟨⟨⟨todo, hist⟩, alive⟩, inner, old⟩ := fl
  have fin : ∀ (done : Bool) (i : Inp (Option β)) (inner' : Option (Made β (Option γ))) old',
      SFlatten.poll (fun _ => li) w (giveFlatten lo li ⟨⟨⟨todo, hist⟩, alive⟩, inner, old⟩) =
        some (SFlatten.pollInner w done ⟨i, inner'.map fun i => ⟨i.tag, give li i.src⟩, old'⟩) →
      li.length = (if inner'.isSome then 1 else 0) → i.src.hist.length = hist.length + lo.length →
      (old'.map (·.src.hist.length)).sum + (inner'.map (·.src.hist.length)).getD 0 =
        (old.map (·.src.hist.length)).sum + (inner.map (·.src.hist.length)).getD 0 →
      ∃ r fl', SFlatten.poll (fun _ => li) w (giveFlatten lo li ⟨⟨⟨todo, hist⟩, alive⟩, inner, old⟩) =
          some (r, fl') ∧ Took lo ⟨todo, hist⟩ fl'.signal.src ∧
        innerPolls fl' = innerPolls (⟨⟨⟨todo, hist⟩, alive⟩, inner, old⟩ : SFlatten β γ) + li.length := by
    intro done i inner' old' h1 h2 h3 h4
    obtain ⟨k1, k2⟩ := pollInner_total (w := w) (done := done) (i := i) (old := old') h2
    obtain ⟨x, hx⟩ : ∃ x, x = SFlatten.pollInner w done
      ⟨i, inner'.map fun i => ⟨i.tag, give li i.src⟩, old'⟩ := ⟨_, rfl⟩
    rw [← hx] at h1 k1 k2
    refine ⟨x.1, x.2, h1, ?_, ?_⟩
    · unfold Took
      rw [k1]
      exact h3
    · rw [k2, h4]; rfl
  cases alive with
  | false =>
    obtain rfl : lo = [] := List.eq_nil_of_length_eq_zero hlo
    exact fin true _ inner old rfl (by simpa [items] using hli) rfl rfl
  | true =>
    match lo, hlo, hli, fin with
    | [.pending], _, hli, fin =>
      exact fin false ⟨⟨[], hist ++ [(w, .pending)]⟩, true⟩ inner old rfl
        (by simpa [items] using hli) (by simp) rfl
    | [.ready none], _, hli, fin =>
      exact fin true ⟨⟨[], hist ++ [(w, .ready none)]⟩, false⟩ inner old rfl
        (by simpa [items] using hli) (by simp) rfl
    | [.ready (some t)], _, hli, fin =>
      refine fin false ⟨⟨[], hist ++ [(w, .ready (some t))]⟩, true⟩ (some (Made.new (fun _ => []) t))
        (old ++ (inner.map fun i => ⟨i.tag, give li i.src⟩).toList) rfl (by simpa [items] using hli)
        (by simp) ?_
      cases inner <;> simp [Made.new, Src.mk', give]

theorem switch_total {g : β → Net α γ} {p : Net α β} {w : Waker}
    (ihg : ∀ t {W s last}, Inv (g t) W s last → Ok W → ∃ r W' s', (g t).Polls w W s r W' s')
    (ih : ∀ {W s last}, Inv p W s last → Ok W → ∃ r W' s', p.Polls w W s r W' s')
    {W : Env α} {s : (Net.switch g p).St} {last : Option γ} (hi : Inv (Net.switch g p) W s last)
    (hok : Ok W) : ∃ r W' s', (Net.switch g p).Polls w W s r W' s' := by
  obtain ⟨fl, so, si⟩ := s
  obtain ⟨x, g1, g2, g3, g4⟩ := hi
  simp only at g1 g2 g3 g4
  obtain ⟨lo, W1, so', h1, hl⟩ := input_total ih g1 hok fl.signal.alive
  have Q1 := many_post polls_post g1 hok h1
  by_cases ht : ∃ t, lo = [.ready (some t)]
  · obtain ⟨t, rfl⟩ := ht
    have ha : fl.signal.alive = true := by
      cases ha : fl.signal.alive with
      | true => rfl
      | false => rw [ha] at hl; cases hl
    obtain ⟨sn, W2, m1⟩ := makes_total (g t) W1
    obtain ⟨f12, invn, ownn⟩ := makes_ok m1 Q1.frame.ok
    have old : ∃ W3, (si = none → W3 = W2) ∧ (∀ t0 s0, si = some ⟨t0, s0⟩ → (g t0).Drops W2 s0 W3) ∧
        Inv (g t) W3 sn none ∧ Ok W3 := by
      cases si with
      | none => exact ⟨W2, fun _ => rfl, fun _ _ h => (by cases h), invn, f12.ok⟩
      | some q =>
        obtain ⟨t0, s0⟩ := q
        obtain ⟨-, k2, k3, -⟩ := g4 t0 s0 rfl
        have lt0 : ∀ m i, (g t0).Owns s0 m i → i < (W m).cells := fun m i h => (own_lt k2 h).1
        have k1 : Inv (g t0) W1 s0 last :=
          inv_later (Q1.frame.same lt0 fun m i h ho => k3 m i ho h).later k2
        have k4 : Inv (g t0) W2 s0 last :=
          inv_later (f12.same (fun m i h => (own_lt k1 h).1) fun m i h ho => ho).later k1
        obtain ⟨W3, hd⟩ := drops_total (g t0) W2 s0
        have f23 := drops_ok hd k4 f12.ok
        refine ⟨W3, fun h => (by cases h), fun _ _ h => (by cases h; exact hd), ?_, f23.ok⟩
        exact inv_later (f23.same (fun m i h => (own_lt invn h).1) fun m i h ho => by
          have a1 := ownn m i h
          have a2 := lt0 m i ho
          have a3 := Q1.frame.cells m
          omega).later invn
    obtain ⟨W3, m2, m3, inv3, ok3⟩ := old
    obtain ⟨z, W', sn', hz⟩ := ihg t inv3 ok3
    obtain ⟨r, fl', f1, f2, f3⟩ := flatten_total (w := w) (fl := fl) (lo := [.ready (some t)]) (li := [z])
      hl (by simp [items])
    refine ⟨r, W', (fl', so', some ⟨t, sn'⟩), [.ready (some t)], [z], W1, h1, f1, f2, f3,
      fun h => (by cases h), fun t' h => ?_⟩
    cases h
    exact ⟨W2, W3, sn, sn', m1, m2, m3, rfl, many_one hz⟩
  · have hit : items lo = [] := by
      cases ha : fl.signal.alive with
      | false => rw [ha] at hl; rw [List.eq_nil_of_length_eq_zero hl]; rfl
      | true =>
        rw [ha] at hl
        match lo, hl, ht with
        | [.pending], _, _ => rfl
        | [.ready none], _, _ => rfl
        | [.ready (some t)], _, ht => exact absurd ⟨t, rfl⟩ ht
    have inner : ∃ (li : List (Poll (Option γ))) (W' : Env α) (si' : Option ((t : β) × (g t).St)),
        li.length = (if fl.inner.isSome then 1 else 0) ∧
        (si = none → si' = none ∧ li = [] ∧ W' = W1) ∧ ∀ t s, si = some ⟨t, s⟩ →
          ∃ s', si' = some ⟨t, s'⟩ ∧ Many ((g t).Polls w) W1 s li W' s' := by
      cases si with
      | none =>
        rw [(g3 rfl).2.1]
        exact ⟨[], W1, none, rfl, fun _ => ⟨rfl, rfl, rfl⟩, fun _ _ h => by cases h⟩
      | some q =>
        obtain ⟨t, s0⟩ := q
        obtain ⟨-, k2, k3, -⟩ := g4 t s0 rfl
        have lt0 : ∀ m i, (g t).Owns s0 m i → i < (W m).cells := fun m i h => (own_lt k2 h).1
        have k1 : Inv (g t) W1 s0 last :=
          inv_later (Q1.frame.same lt0 fun m i h ho => k3 m i ho h).later k2
        obtain ⟨li, W', s1, h, hn⟩ := input_total (ihg t) k1 Q1.frame.ok fl.inner.isSome
        exact ⟨li, W', some ⟨t, s1⟩, hn, fun h => (by cases h), fun _ _ h' => by
          cases h'; exact ⟨s1, rfl, h⟩⟩
    obtain ⟨li, W', si', hn, i1, i2⟩ := inner
    obtain ⟨r, fl', f1, f2, f3⟩ := flatten_total (w := w) (fl := fl) (lo := lo) (li := li) hl
      (by simpa [hit] using hn)
    refine ⟨r, W', (fl', so', si'), lo, li, W1, h1, f1, f2, f3, fun _ => ⟨i1, i2⟩, fun t h => ?_⟩
    rw [hit] at h; cases h

theorem polls_total {p : Net α β} {w : Waker} {W : Env α} {s : p.St} {last : Option β}
    (hi : Inv p W s last) (hok : Ok W) : ∃ r W' s', p.Polls w W s r W' s' := by
  induction p generalizing W with
  | source m =>
    exact ⟨((W m).pollChange s w id).1, W.put m ((W m).pollChange s w id).2, s, rfl, rfl, rfl⟩
  | always b => exact ⟨.ready (SAlways.value s), W, SAlways.mk none, rfl, rfl⟩
  | map f p ih =>
    obtain ⟨x, g1, -⟩ := hi
    obtain ⟨r, W', s', h⟩ := ih g1 hok
    have : ∃ r' s1, SMap.poll (fun _ x => (f x, ())) w ⟨give [r] s.1.signal, s.1.st⟩ = some (r', s1) ∧
        Took [r] s.1.signal s1.signal := by
      match r with
      | .pending => exact ⟨_, _, rfl, by simp [Took, give]⟩
      | .ready none => exact ⟨_, _, rfl, by simp [Took, give]⟩
      | .ready (some b) => exact ⟨_, _, rfl, by simp [Took, give]⟩
    obtain ⟨r', s1, h1, h2⟩ := this
    exact ⟨r', W', (s1, s'), [r], many_one h, h1, h2⟩
  | dedupe p ih =>
    obtain ⟨g1, g2⟩ := hi
    obtain ⟨l, W', s', st, c, src, h1, h2, h3⟩ := loop_total (w := w)
      (body := dedupeBody fun (_ : Unit) value => ((value, value), ())) (c := (s.1.oldValue, s.1.st)) ih g1 hok
      s.1.signal
    have U := loop_took h2 h3 (many_post polls_post g1 hok h1).tail
    rw [g2] at U
    have hp := (dedupe_use U).2.2
    obtain ⟨c1, c2⟩ := c
    have : ∃ r, SDedupe.poll w ⟨s.1.oldValue, give l s.1.signal, s.1.st⟩ = some (r, ⟨c1, src, c2⟩) := by
      unfold SDedupe.poll SDedupeMap.poll
      simp only [h2]
      cases st with
      | panic => exact absurd rfl hp
      | _ => exact ⟨_, rfl⟩
    obtain ⟨r, hr⟩ := this
    exact ⟨r, W', (⟨c1, src, c2⟩, s'), l, h1, hr, h3⟩
  | eq b p ih =>
    obtain ⟨x, g1, rfl, g3, g4⟩ := hi
    obtain ⟨l, W', s', st, c, src, h1, h2, h3⟩ := loop_total (w := w)
      (body := eqBody s.1.value) (c := s.1.matched) ih g1 hok s.1.signal
    have U := loop_took h2 h3 (many_post polls_post g1 hok h1).tail
    rw [g3, g4] at U
    have hp := (match_use (t := (· == b)) (fun _ _ => rfl) U).2.2
    have : ∃ r, SEq.poll w ⟨give l s.1.signal, s.1.matched, s.1.value⟩ =
        some (r, ⟨src, c, s.1.value⟩) := by
      unfold SEq.poll
      simp only [h2]
      cases st with
      | panic => exact absurd rfl hp
      | _ => exact ⟨_, rfl⟩
    obtain ⟨r, hr⟩ := this
    exact ⟨r, W', (⟨src, c, s.1.value⟩, s'), l, h1, hr, h3⟩
  | neq b p ih =>
    obtain ⟨x, g1, rfl, g3, g4⟩ := hi
    obtain ⟨l, W', s', st, c, src, h1, h2, h3⟩ := loop_total (w := w)
      (body := neqBody s.1.value) (c := s.1.matched) ih g1 hok s.1.signal
    have U := loop_took h2 h3 (many_post polls_post g1 hok h1).tail
    rw [g3, g4] at U
    have hp := (match_use (t := (· != b)) (fun _ _ => rfl) U).2.2
    have : ∃ r, SNeq.poll w ⟨give l s.1.signal, s.1.matched, s.1.value⟩ =
        some (r, ⟨src, c, s.1.value⟩) := by
      unfold SNeq.poll
      simp only [h2]
      cases st with
      | panic => exact absurd rfl hp
      | _ => exact ⟨_, rfl⟩
    obtain ⟨r, hr⟩ := this
    exact ⟨r, W', (⟨src, c, s.1.value⟩, s'), l, h1, hr, h3⟩
  | mapRef ps f ih => exact mapRef_total (fun i {_ _ _} hi hok => ih i hi hok) hi hok
  | switch g p ihg ih =>
    exact switch_total (fun t {_ _ _} hi hok => ihg t hi hok) (fun hi hok => ih hi hok) hi hok

end Verif.Net
