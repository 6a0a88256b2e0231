import Verif.SignalVec3
import Verif.SignalVec1Proofs
import Verif.FlattenProofs
import Verif.ChainProofs

/-!
# Proofs about `map_signal`
-/

namespace Verif

variable {α β ι σ ρ : Type}

/-! ## Inputs polled once -/

/-- The item carried by an answer. -/
def itemOf : Option (Poll (Option α)) → List α
  | some (.ready (some a)) => [a]
  | _ => []

theorem Inp.poll_full (w : Waker) (i : Inp (Option α)) (hok : i.Ok) :
    ∃ r i', i.poll w = (r, i') ∧ i'.Ok ∧ i'.src.all = i.src.all ∧
      i'.src.got = i.src.got ++ itemOf r ∧
      match r with
      | some (.ready (some _)) => i'.alive = true
      | some (.ready none) => i'.alive = false
      | some .pending => i'.alive = true ∧ i'.src.armed w
      | none => i'.alive = false := by
  unfold Inp.poll
  by_cases ha : i.alive = true
  · simp only [ha, ↓reduceIte]
    obtain ⟨r, src', h1, h2, h3, h4, h5⟩ := Src.poll_rule w i.src (hok.alive ha)
    have hall : src'.all = i.src.all := by simp [Src.all, h3, h4]
    rw [h1]
    cases r with
    | pending => exact ⟨_, _, rfl, ⟨h2, by simpa using h5.1⟩, hall, by simpa [itemOf] using h3, rfl, h5.2⟩
    | ready x =>
      cases x with
      | none => exact ⟨_, _, rfl, ⟨h2, by simpa using h5⟩, hall, by simpa [itemOf] using h3, rfl⟩
      | some d => exact ⟨_, _, rfl, ⟨h2, by simpa using h5⟩, hall, by simpa [itemOf] using h3, rfl⟩
  · have ha' : i.alive = false := by simpa using ha
    simp only [ha', Bool.false_eq_true, ↓reduceIte]
    exact ⟨none, i, rfl, hok, rfl, by simp [itemOf], ha'⟩

/-- The first poll of an input that starts with a value. -/
theorem Src.first_poll (w : Waker) (a : α) (rest : List (Poll (Option α))) :
    ∃ src, (Src.mk' (.ready (some a) :: rest)).poll w = (.ready (some a), src) ∧
      (⟨src, true⟩ : Inp (Option α)).Ok ∧ src.all = a :: items rest ∧ src.got = [a] := by
  refine ⟨⟨rest, [(w, .ready (some a))]⟩, rfl, ⟨?_, ?_⟩, rfl, rfl⟩
  · exact fused_snoc (h := []) (t := []) (not_ended_mk' [])
  · constructor
    · rintro ⟨w', h⟩; simp at h
    · intro h; cases h

/-! ## Diffs of derived lists -/

theorem lift_apply (f : σ → ι) {D : VecDiff σ} {xs : List σ} {ts : List ι}
    (h : (D.map f).apply (xs.map f) = some ts) : ∃ xs', D.apply xs = some xs' ∧ xs'.map f = ts := by
  cases hD : D.apply xs with
  | none => rw [map_apply_none f hD] at h; cases h
  | some xs' => rw [map_apply f hD] at h; exact ⟨xs', rfl, Option.some.inj h⟩

theorem apply_mem {D : VecDiff σ} {xs xs' : List σ} (h : D.apply xs = some xs') :
    ∀ x ∈ xs', x ∈ xs ∨ x ∈ D.payload := by
  rw [apply_eq_some] at h
  intro x hx
  cases h <;> simp only [VecDiff.payload] <;> grind

/-! ## Inner signals -/

/-- The last value of an inner signal. -/
def MState.latest (x : MState ι β) : Option β := x.sig.src.got.getLast?

structure MOk (g : ι → List (Poll (Option β))) (x : MState ι β) : Prop where
  inp : x.sig.Ok
  all : x.sig.src.all = items (g x.tag)

theorem MState.new_spec {g : ι → List (Poll (Option β))}
    (hg : ∀ t, ∃ b rest, g t = .ready (some b) :: rest) (w : Waker) (t : ι) :
    ∃ b x, MState.new g w t = some (b, x) ∧ x.tag = t ∧ MOk g x ∧ x.latest = some b := by
  obtain ⟨b, rest, h⟩ := hg t
  obtain ⟨src, h1, h2, h3, h4⟩ := Src.first_poll w b rest
  refine ⟨b, ⟨t, ⟨src, true⟩⟩, ?_, rfl, ⟨h2, ?_⟩, ?_⟩
  · simp [MState.new, h, h1, unwrapPoll]
  · simp [h, h3]
  · simp [MState.latest, h4]

theorem mapNewAll_spec {g : ι → List (Poll (Option β))}
    (hg : ∀ t, ∃ b rest, g t = .ready (some b) :: rest) (w : Waker) (ts : List ι) :
    ∃ bs xs, mapNewAll g w ts = some (bs, xs) ∧ xs.map (·.tag) = ts ∧ (∀ x ∈ xs, MOk g x) ∧
      xs.map (·.latest) = bs.map some := by
  induction ts with
  | nil => exact ⟨[], [], rfl, rfl, by simp, rfl⟩
  | cons t ts ih =>
    obtain ⟨bs, xs, h1, h2, h3, h4⟩ := ih
    obtain ⟨b, x, g1, g2, g3, g4⟩ := MState.new_spec hg w t
    refine ⟨b :: bs, x :: xs, by simp [mapNewAll, g1, h1], by simp [g2, h2], ?_, by simp [g4, h4]⟩
    intro y hy
    rcases List.mem_cons.1 hy with rfl | hy
    · exact g3
    · exact h3 y hy

/-- One change of the input acts on the inner signals like the same change. -/
theorem mapSignalBody_spec {g : ι → List (Poll (Option β))}
    (hg : ∀ t, ∃ b rest, g t = .ready (some b) :: rest) (w : Waker)
    (d : VecDiff ι) :
    ∃ (D : VecDiff (MState ι β)) (e : VecDiff β), D.map (·.tag) = d ∧ D.map (·.latest) = e.map some ∧
      (∀ x ∈ D.payload, MOk g x) ∧
      ∀ signals signals' np, D.apply signals = some signals' →
        mapSignalBody g w (signals, np) d = .cont (signals', np ++ [e]) := by
  cases d with
  | replace ts =>
    obtain ⟨bs, xs, h1, h2, h3, h4⟩ := mapNewAll_spec hg w ts
    refine ⟨.replace xs, .replace bs, by simp [VecDiff.map, h2], by simp [VecDiff.map, h4], h3, ?_⟩
    intro signals signals' np h
    cases h
    simp [mapSignalBody, h1]
  | insertAt i t =>
    obtain ⟨b, x, g1, g2, g3, g4⟩ := MState.new_spec hg w t
    refine ⟨.insertAt i x, .insertAt i b, by simp [VecDiff.map, g2], by simp [VecDiff.map, g4],
      by simpa [VecDiff.payload] using g3, ?_⟩
    intro signals signals' np h
    simp only [VecDiff.apply] at h
    simp [mapSignalBody, g1, h]
  | updateAt i t =>
    obtain ⟨b, x, g1, g2, g3, g4⟩ := MState.new_spec hg w t
    refine ⟨.updateAt i x, .updateAt i b, by simp [VecDiff.map, g2], by simp [VecDiff.map, g4],
      by simpa [VecDiff.payload] using g3, ?_⟩
    intro signals signals' np h
    simp only [VecDiff.apply] at h
    simp [mapSignalBody, g1, h]
  | push t =>
    obtain ⟨b, x, g1, g2, g3, g4⟩ := MState.new_spec hg w t
    refine ⟨.push x, .push b, by simp [VecDiff.map, g2], by simp [VecDiff.map, g4],
      by simpa [VecDiff.payload] using g3, ?_⟩
    intro signals signals' np h
    cases h
    simp [mapSignalBody, g1]
  | removeAt i =>
    refine ⟨.removeAt i, .removeAt i, rfl, rfl, by simp [VecDiff.payload], ?_⟩
    intro signals signals' np h
    simp only [VecDiff.apply] at h
    simp only [mapSignalBody]
    cases hr : vRemove signals i with
    | none => simp [hr] at h
    | some q => simp only [hr] at h; cases h; rfl
  | move i j =>
    refine ⟨.move i j, .move i j, rfl, rfl, by simp [VecDiff.payload], ?_⟩
    intro signals signals' np h
    simp only [VecDiff.apply] at h
    simp only [mapSignalBody]
    cases hr : vRemove signals i with
    | none => simp [hr] at h
    | some q => simp only [hr] at h; simp only [h]
  | pop =>
    refine ⟨.pop, .pop, rfl, rfl, by simp [VecDiff.payload], ?_⟩
    intro signals signals' np h
    simp only [VecDiff.apply] at h
    simp only [mapSignalBody]
    cases hr : vPop signals with
    | mk a q =>
      cases a with
      | none => simp [hr] at h
      | some a => simp only [hr] at h; cases h; rfl
  | clear =>
    refine ⟨.clear, .clear, rfl, rfl, by simp [VecDiff.payload], ?_⟩
    intro signals signals' np h
    cases h
    rfl

/-- The loop over the inner signals. -/
theorem pollSignals_spec {g : ι → List (Poll (Option β))} (w : Waker) (xs : List (MState ι β))
    (h : ∀ x ∈ xs, MOk g x) (vs : List β) (hv : xs.map (·.latest) = vs.map some) (p : List β)
    (np : List (VecDiff β)) :
    ∃ hp add xs' vs', pollSignals w p.length np xs = (hp, np ++ add, xs') ∧
      xs'.map (·.tag) = xs.map (·.tag) ∧ (∀ x ∈ xs', MOk g x) ∧
      xs'.map (·.latest) = vs'.map some ∧ replay add (p ++ vs) = some (p ++ vs') ∧
      (add = [] → (∀ x ∈ xs', Settled w x.sig) ∧
        (hp = false ↔ ∀ x ∈ xs', x.sig.alive = false)) ∧ ∀ d ∈ add, d.isLocal = true := by
  induction xs generalizing vs p np with
  | nil =>
    cases vs with
    | cons => simp at hv
    | nil => exact ⟨false, [], [], [], by simp [pollSignals], rfl, by simp, rfl, rfl, by simp, by simp⟩
  | cons x xs ih =>
    cases vs with
    | nil => simp at hv
    | cons v vs =>
    simp only [List.map_cons, List.cons.injEq] at hv
    have hx := h x (by simp)
    obtain ⟨r, i', a1, a2, a3, a4, a5⟩ := Inp.poll_full w x.sig hx.inp
    have hok : MOk g ⟨x.tag, i'⟩ := ⟨a2, a3.trans hx.all⟩
    have hlat : itemOf r = [] → (⟨x.tag, i'⟩ : MState ι β).latest = some v := by
      intro hr
      rw [← hv.1]; simp [MState.latest, a4, hr]
    have hrest := fun y hy => h y (List.mem_cons_of_mem x hy)
    -- the signal did not change
    have same : itemOf r = [] → (i'.alive = false ∨ i'.src.armed w) → ∀ (b : Bool),
        (b = true ↔ i'.alive = true) →
        (∀ hp np' xs', pollSignals w (p.length + 1) np xs = (hp, np', xs') →
          pollSignals w p.length np (x :: xs) = (b || hp, np', ⟨x.tag, i'⟩ :: xs')) →
        ∃ hp add xs' vs', pollSignals w p.length np (x :: xs) = (hp, np ++ add, xs') ∧
          xs'.map (·.tag) = (x :: xs).map (·.tag) ∧ (∀ x ∈ xs', MOk g x) ∧
          xs'.map (·.latest) = vs'.map some ∧ replay add (p ++ v :: vs) = some (p ++ vs') ∧
          (add = [] → (∀ x ∈ xs', Settled w x.sig) ∧
            (hp = false ↔ ∀ x ∈ xs', x.sig.alive = false)) ∧ ∀ d ∈ add, d.isLocal = true := by
      intro hr hset b hb heq
      obtain ⟨hp, add, xs', vs', c1, c2, c3, c4, c5, c6, c7⟩ := ih hrest vs hv.2 (p ++ [v]) np
      simp only [List.length_append, List.length_singleton] at c1
      refine ⟨b || hp, add, ⟨x.tag, i'⟩ :: xs', v :: vs', heq _ _ _ c1, by simp [c2], ?_, ?_, ?_, ?_, c7⟩
      · intro y hy
        rcases List.mem_cons.1 hy with rfl | hy
        · exact hok
        · exact c3 y hy
      · simp [hlat hr, c4]
      · simpa using c5
      · intro ha
        obtain ⟨d1, d2⟩ := c6 ha
        refine ⟨?_, ?_⟩
        · intro y hy
          rcases List.mem_cons.1 hy with rfl | hy
          · exact hset
          · exact d1 y hy
        · simp only [Bool.or_eq_false_iff, d2, List.forall_mem_cons]
          have : b = false ↔ i'.alive = false := by
            cases b <;> cases hi : i'.alive <;> simp_all
          rw [this]
    obtain _ | ((_ | b) | _) := r
    · refine same rfl (.inl a5) false (by simp [a5]) ?_
      intro hp np' xs' e
      rw [pollSignals, a1]
      simp [e]
    · refine same rfl (.inl a5) false (by simp [a5]) ?_
      intro hp np' xs' e
      rw [pollSignals, a1]
      simp [e]
    rotate_left
    · refine same rfl (.inr a5.2) true (by simp [a5.1]) ?_
      intro hp np' xs' e
      rw [pollSignals, a1]
      simp [e]
    · obtain ⟨hp, add, xs', vs', c1, c2, c3, c4, c5, c6, c7⟩ := ih hrest vs hv.2 (p ++ [b])
        (np ++ [.updateAt p.length b])
      simp only [List.length_append, List.length_singleton] at c1
      refine ⟨hp, .updateAt p.length b :: add, ⟨x.tag, i'⟩ :: xs', b :: vs', ?_, by simp [c2], ?_, ?_,
        ?_, by simp, List.forall_mem_cons.2 ⟨rfl, c7⟩⟩
      · rw [pollSignals, a1]
        simp [c1]
      · intro y hy
        rcases List.mem_cons.1 hy with rfl | hy
        · exact hok
        · exact c3 y hy
      · simp [MState.latest, a4, itemOf]; exact c4
      · have : (VecDiff.updateAt p.length b).apply (p ++ v :: vs) = some (p ++ b :: vs) :=
          vSet_append _ _ _ _
        rw [replay_cons_some this]
        simpa using c5

/-! ## The whole -/

theorem trivial_map (f : α → β) {d : VecDiff α} {xs : List α} :
    Trivial (d.map f) (xs.map f) ↔ Trivial d xs := by
  cases d <;> simp [Trivial, VecDiff.map]

structure MapSignalInv (ok : VecDiff ι → List ι → Prop) (g : ι → List (Poll (Option β))) (s : VMapSignal ι β) (ts : List ι)
    (zs : List β) : Prop where
  inp : s.signal.Ok
  valid : Valid ok s.signal.src ts
  tags : s.signals.map (·.tag) = ts
  inner : ∀ x ∈ s.signals, MOk g x
  queue : ∃ vs, replay s.pending zs = some vs ∧ s.signals.map (·.latest) = vs.map some
  lively : (∀ d xs, ok d xs → ¬ Trivial d xs) → Lively s.pending zs

theorem VMapSignal.step {ok : VecDiff ι → List ι → Prop} {g : ι → List (Poll (Option β))}
    (hg : ∀ t, ∃ b rest, g t = .ready (some b) :: rest) (w : Waker) {s : VMapSignal ι β}
    {ts : List ι} {zs : List β} (h : MapSignalInv ok g s ts zs) :
    ∃ r s' ts', VMapSignal.poll g w s = some (r, s') ∧
      match r with
      | .ready (some d) => ∃ zs', d.apply zs = some zs' ∧ MapSignalInv ok g s' ts' zs' ∧
          ((∀ d xs, ok d xs → ¬ Trivial d xs) → ¬ Trivial d zs)
      | .ready none => MapSignalInv ok g s' ts' zs ∧ s'.pending = [] ∧ s'.signal.alive = false ∧
          ∀ x ∈ s'.signals, x.sig.alive = false
      | .pending => MapSignalInv ok g s' ts' zs ∧ s'.pending = [] ∧ Settled w s'.signal ∧
          (∀ x ∈ s'.signals, Settled w x.sig) ∧
          ¬ (s'.signal.alive = false ∧ ∀ x ∈ s'.signals, x.sig.alive = false) := by
  obtain ⟨sig, signals, pend⟩ := s
  unfold VMapSignal.poll
  obtain ⟨vs, hq, hvs⟩ := h.queue
  cases hp : pend with
  | cons c rest =>
    subst hp
    simp only [replay] at hq
    cases hc : c.apply zs with
    | none => simp [hc] at hq
    | some zs' =>
      simp only [hc] at hq
      have hlv := fun hok => lively_cons (h.lively hok) hc
      exact ⟨_, _, ts, rfl, zs', hc, ⟨h.inp, h.valid, h.tags, h.inner, ⟨vs, hq, hvs⟩,
        fun hok => (hlv hok).2⟩, fun hok => (hlv hok).1⟩
  | nil =>
    subst hp
    simp only
    cases hq
    obtain ⟨st, ⟨signals', np⟩, i', ts', h1, h2, h3, h4⟩ := Inp.vloop_rule (ok := ok) (w := w)
      (body := mapSignalBody g w)
      (fun q ts => q.1.map (·.tag) = ts ∧ (∀ x ∈ q.1, MOk g x) ∧
        (∃ vs, replay q.2 zs = some vs ∧ q.1.map (·.latest) = vs.map some) ∧
        ((∀ d xs, ok d xs → ¬ Trivial d xs) → Lively q.2 zs))
      (fun _ _ _ => False)
      (by
        rintro ⟨signals, np⟩ ts d ts' ⟨a, b, ⟨vs, c1, c2⟩, c3⟩ hokd hd
        simp only at a b c1 c2 c3
        obtain ⟨D, e, e1, e2, e3, e4⟩ := mapSignalBody_spec hg w d
        subst a
        rw [← e1] at hd
        obtain ⟨signals', f1, f2⟩ := lift_apply _ hd
        have f3 := map_apply (·.latest) f1
        rw [e2, c2] at f3
        obtain ⟨vs', f4, f5⟩ := lift_apply _ f3
        rw [e4 _ _ _ f1]
        refine ⟨f2, ?_, ⟨vs', ?_, f5.symm⟩, fun hok => lively_append (c3 hok) c1
          (lively_single fun ht => hok _ _ hokd ?_)⟩
        · intro x hx
          rcases apply_mem f1 x hx with hx | hx
          · exact b x hx
          · exact e3 x hx
        · simp only [replay_snoc, c1, Option.bind_some, f4]
        · rw [← e1, trivial_map, ← trivial_map (·.latest), e2, c2]
          exact (trivial_map some).2 ht)
      sig (signals, []) ts h.inp h.valid ⟨h.tags, h.inner, ⟨zs, rfl, hvs⟩, fun _ => lively_nil _⟩
    rw [h1]
    simp only at h4
    have hfin : ∀ top, (top = true → i'.alive = false) →
        (top = false → i'.alive = true ∧ i'.src.armed w) →
        (signals'.map (·.tag) = ts' ∧ (∀ x ∈ signals', MOk g x) ∧
          (∃ vs, replay np zs = some vs ∧ signals'.map (·.latest) = vs.map some) ∧
          ((∀ d xs, ok d xs → ¬ Trivial d xs) → Lively np zs)) →
        ∃ r s' ts', some (VMapSignal.finish w top i' signals' np) = some (r, s') ∧
          match r with
          | .ready (some d) => ∃ zs', d.apply zs = some zs' ∧ MapSignalInv ok g s' ts' zs' ∧
          ((∀ d xs, ok d xs → ¬ Trivial d xs) → ¬ Trivial d zs)
          | .ready none => MapSignalInv ok g s' ts' zs ∧ s'.pending = [] ∧ s'.signal.alive = false ∧
              ∀ x ∈ s'.signals, x.sig.alive = false
          | .pending => MapSignalInv ok g s' ts' zs ∧ s'.pending = [] ∧ Settled w s'.signal ∧
              (∀ x ∈ s'.signals, Settled w x.sig) ∧
              ¬ (s'.signal.alive = false ∧ ∀ x ∈ s'.signals, x.sig.alive = false) := by
      rintro top ht1 ht2 ⟨a, b, ⟨vs, c1, c2⟩, c3⟩
      obtain ⟨hp, add, xs', vs', d1, d2, d3, d4, d5, d6, dl⟩ := pollSignals_spec w signals' b vs c2 [] np
      simp only [List.length_nil, List.nil_append] at d1 d5
      have d7 := replay_append_some c1 d5
      have hlv : (∀ d xs, ok d xs → ¬ Trivial d xs) → Lively (np ++ add) zs := fun hok =>
        lively_append (c3 hok) c1 (lively_local dl _)
      unfold VMapSignal.finish
      rw [d1]
      cases hall : np ++ add with
      | cons d rest =>
        rw [hall] at d7
        simp only [replay] at d7
        cases hc : d.apply zs with
        | none => simp [hc] at d7
        | some zs' =>
          simp only [hc] at d7
          have hlv := fun hok => lively_cons (hall ▸ hlv hok) hc
          exact ⟨_, _, ts', rfl, zs', hc, ⟨h2, h3, d2.trans a, d3, ⟨vs', d7, d4⟩,
            fun hok => (hlv hok).2⟩, fun hok => (hlv hok).1⟩
      | nil =>
        rw [hall] at d7
        have hadd : add = [] := (List.append_eq_nil_iff.1 hall).2
        obtain ⟨d8, d9⟩ := d6 hadd
        by_cases hd : top && !hp
        · simp only [hd, if_true]
          simp only [Bool.and_eq_true, Bool.not_eq_true'] at hd
          exact ⟨_, _, ts', rfl, ⟨h2, h3, d2.trans a, d3, ⟨vs', d7, d4⟩, fun _ => lively_nil _⟩, rfl, ht1 hd.1, d9.1 hd.2⟩
        · simp only [hd]
          refine ⟨_, _, ts', rfl, ⟨h2, h3, d2.trans a, d3, ⟨vs', d7, d4⟩, fun _ => lively_nil _⟩, rfl, ?_, d8, ?_⟩
          · cases top with
            | true => exact .inl (ht1 rfl)
            | false => exact .inr (ht2 rfl).2
          · rintro ⟨k1, k2⟩
            have := d9.2 k2
            subst this
            cases top with
            | true => simp at hd
            | false => have := (ht2 rfl).1; rw [k1] at this; cases this
    cases st with
    | panic => exact h4.elim
    | ret d => exact h4.1.elim
    | ended =>
      obtain ⟨a, e⟩ := h4
      exact hfin true (fun _ => e) (by simp) a
    | pending =>
      obtain ⟨a, e⟩ := h4
      exact hfin false (by simp) (fun _ => e) a

end Verif
