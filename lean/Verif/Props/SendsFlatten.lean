import Verif.SendsFlatten
import Verif.FlattenProofs
import Verif.Props.SignalVecMap
import Verif.Props.SendsSignal

/-!
# The changes `SignalVec::flatten` sends (C98)
-/

namespace Verif

variable {β δ σ ρ ι : Type}

theorem Inp.loop_trace_ret {body : σ → δ → Ctl σ ρ} (I : List δ → σ → Prop) (R : ρ → List δ → σ → Prop)
    (hb : ∀ g s d, I g s → match body s d with
      | .cont s' => I (g ++ [d]) s'
      | .ret s' r => R r (g ++ [d]) s'
      | .panic => True)
    {w : Waker} {i i' : Inp (Option δ)} {s s' : σ} {st : Stop ρ} (h : i.loop w body s = (st, s', i')) (h0 : I i.src.got s) :
    match st with
    | .ret r => R r i'.src.got s'
    | .panic => True
    | _ => I i'.src.got s' := by
  have key : ∀ (todo : List (Poll (Option δ))) (hist : List (Waker × Poll (Option δ))) (s : σ) (st : Stop ρ) (s' : σ)
      (src' : Src (Option δ)), pollLoop w body todo hist s = (st, s', src') → I (Src.got ⟨[], hist⟩) s →
      match st with
      | .ret r => R r src'.got s'
      | .panic => True
      | _ => I src'.got s' := by
    intro todo
    induction todo with
    | nil => intro hist s st s' src' h h0; cases h; simpa [Src.got, items_append] using h0
    | cons r rs ih =>
      intro hist s st s' src' h h0
      rcases r with ((_ | a) | _)
      · cases h; simpa [Src.got, items_append] using h0
      · simp only [pollLoop] at h
        have := hb _ _ a h0
        split at h
        · rename_i s1 h1
          rw [h1] at this
          exact ih _ _ _ _ _ h (by simpa [Src.got, items_append] using this)
        · rename_i s1 r h1
          rw [h1] at this
          cases h
          simpa [Src.got, items_append] using this
        · cases h; trivial
      · cases h; simpa [Src.got, items_append] using h0
  unfold Inp.loop at h
  split at h
  · obtain ⟨⟨todo, hist⟩, al⟩ := i
    split at h
    · rename_i h1; cases h; exact key _ _ _ _ _ _ h1 h0
    · rename_i h1
      cases h
      have := key _ _ _ _ _ _ h1 h0
      cases st <;> exact this
  · cases h; exact h0

/-- An inner vector as the specification describes it. -/
def FState.part (x : FState ι β) : ι × List (VecDiff β) := (x.tag, x.signalVec.src.got)

theorem FOk.described {g : ι → List (Poll (Option (VecDiff β)))} {x : FState ι β} (h : FOk g x) :
    Verif.described x.part.2 = x.contents := rfl

theorem removesDesc_range (m n : Nat) :
    (removesDesc m n : List (VecDiff β)) = (List.range n).reverse.map fun i => .removeAt (m + i) := by
  induction n with
  | zero => rfl
  | succ n ih => simp [removesDesc, ih, List.range_succ]

theorem pollPendingBody_says {m n n' : Nat} {pend pend' : List (VecDiff β)} {d : VecDiff β}
    (h : pollPendingBody m (n, pend) d = .cont (n', pend')) :
    updateLen n d = some n' ∧ pend' = pend ++ innerSays m n d := by
  simp only [pollPendingBody] at h
  split at h
  · cases h
  · rename_i len hl
    cases d <;> cases h <;> simp [hl, innerSays, removesDesc_range, insertsFrom_eq]

section

variable {g : ι → List (Poll (Option (VecDiff β)))}

theorem modify_mid {α : Type} (p q : List α) (a : α) (f : α → α) :
    (p ++ a :: q).modify p.length f = p ++ f a :: q := by
  induction p with
  | nil => rfl
  | cons b p ih => simp [ih]

/-- One inner vector is polled. -/
theorem flatten_pollPending_says {w : Waker} {x x' : FState ι β} (hx : FOk g x) (pre post : List (ι × List (VecDiff β)))
    {pend pend' : List (VecDiff β)} {done : Bool}
    (h : x.pollPending w (pre.flatMap fun p => described p.2).length pend = some (done, pend', x')) :
    FOk g x' ∧ ∃ trace : List (Flattens ι β), trace.filterMap Flattens.taken = [] ∧
      contents (Flattens.apply g) (pre ++ x.part :: post) trace = some (pre ++ x'.part :: post) ∧
      pend' = pend ++ sends (Flattens.apply g) Flattens.says (pre ++ x.part :: post) trace := by
  have hok : FOk g x' := by
    obtain ⟨_, _, _, e1, -, e3, -⟩ := FState.pollPending_spec w hx (pre.flatMap fun p => described p.2) [] pend
    rw [h] at e1; cases e1; exact e3
  refine ⟨hok, ?_⟩
  have key : ∀ st len pe i, x.signalVec.loop w (pollPendingBody (pre.flatMap fun p => described p.2).length) (x.len, pend) =
      (st, (len, pe), i) → st ≠ .panic → ∀ ys, replay i.src.got [] = some ys → len = ys.length ∧
      ∃ trace : List (Flattens ι β), trace.filterMap Flattens.taken = [] ∧
      contents (Flattens.apply g) (pre ++ x.part :: post) trace = some (pre ++ (x.tag, i.src.got) :: post) ∧
      pe = pend ++ sends (Flattens.apply g) Flattens.says (pre ++ x.part :: post) trace := by
    intro st len pe i hl hs
    refine Inp.loop_trace (fun got (s : Nat × List (VecDiff β)) => ∀ ys, replay got [] = some ys → s.1 = ys.length ∧
      ∃ trace : List (Flattens ι β), trace.filterMap Flattens.taken = [] ∧
      contents (Flattens.apply g) (pre ++ x.part :: post) trace = some (pre ++ (x.tag, got) :: post) ∧
      s.2 = pend ++ sends (Flattens.apply g) Flattens.says (pre ++ x.part :: post) trace) ?_ hl hs ?_
    · rintro got ⟨n, pe⟩ d ⟨n', pe'⟩ hI hb ys' hy'
      obtain ⟨b1, b2⟩ := pollPendingBody_says hb
      rw [replay_append] at hy'
      cases hy : replay got [] with
      | none => simp [hy] at hy'
      | some ys =>
        simp only [hy, Option.bind_some, replay_singleton] at hy'
        obtain ⟨t1, tr, t2, t3, t4⟩ := hI ys hy
        dsimp only at t1 t4
        subst t1
        have hl := updateLen_apply hy'
        rw [b1] at hl
        cases hl
        have hap : (Flattens.inner (ι := ι) pre.length d).apply g (pre ++ (x.tag, got) :: post) =
            some (pre ++ (x.tag, got ++ [d]) :: post) := by
          simp [Flattens.apply, modify_mid]
        refine ⟨rfl, tr ++ [.inner pre.length d], by simp [t2, Flattens.taken], (contents_snoc t3 _).trans hap, ?_⟩
        rw [sends_snoc t3 hap, b2, t4]
        simp [Flattens.says, described, hy]
    · intro ys hy
      have : x.contents = ys := contents_eq hy
      exact ⟨by rw [← this]; exact hx.len, [], rfl, rfl, by simp [sends]⟩
  unfold FState.pollPending at h
  have hv := hok.valid.now
  split at h
  · cases h
  · cases h
  all_goals
    rename_i hl
    cases h
    exact (key _ _ _ _ hl (by simp) _ hv).2

/-- All of them. -/
theorem pollAllPending_says {w : Waker} {xs xs' : List (FState ι β)} (hx : ∀ x ∈ xs, FOk g x)
    (pre : List (ι × List (VecDiff β))) {pend pend' : List (VecDiff β)} {done : Bool}
    (h : pollAllPending w (pre.flatMap fun p => described p.2).length pend xs = some (done, pend', xs')) :
    (∀ x ∈ xs', FOk g x) ∧ ∃ trace : List (Flattens ι β), trace.filterMap Flattens.taken = [] ∧
      contents (Flattens.apply g) (pre ++ xs.map (·.part)) trace = some (pre ++ xs'.map (·.part)) ∧
      pend' = pend ++ sends (Flattens.apply g) Flattens.says (pre ++ xs.map (·.part)) trace := by
  induction xs generalizing pre pend done xs' with
  | nil => cases h; exact ⟨by simp, [], rfl, rfl, by simp [sends]⟩
  | cons x xs ih =>
    simp only [pollAllPending] at h
    split at h
    · cases h
    · rename_i done1 pend1 x1 h1
      obtain ⟨a1, tr1, a2, a3, a4⟩ := flatten_pollPending_says (hx x (by simp)) pre (xs.map (·.part)) h1
      split at h
      · cases h
      · rename_i done2 pend2 xs2 h2
        cases h
        have hn : (pre.flatMap fun p => described p.2).length + x1.len =
            ((pre ++ [x1.part]).flatMap fun p => described p.2).length := by
          simp [a1.len, ← a1.described]
        rw [hn] at h2
        obtain ⟨b1, tr2, b2, b3, b4⟩ := ih (fun y hy => hx y (by simp [hy])) (pre ++ [x1.part]) h2
        simp only [List.append_assoc, List.singleton_append] at b3 b4
        refine ⟨?_, tr1 ++ tr2, by simp [a2, b2], ?_, ?_⟩
        · intro y hy
          rcases List.mem_cons.1 hy with rfl | hy
          · exact a1
          · exact b1 y hy
        · simp only [List.map_cons]
          rw [contents_append a3, b3]
        · simp only [List.map_cons]
          rw [sends_append a3, b4, a4, List.append_assoc]

theorem atFirst_loop {body : σ → VecDiff β → Ctl σ Empty} {w : Waker} {script : List (Poll (Option (VecDiff β)))}
    {s s' : σ} {st : Stop Empty} {i : Inp (Option (VecDiff β))} (h : (Inp.mk' script).loop w body s = (st, s', i))
    (hs : st ≠ .panic) : i.src.got = atFirst script := by
  have key : ∀ (todo : List (Poll (Option (VecDiff β)))) (hist : List (Waker × Poll (Option (VecDiff β)))) (s s' : σ)
      (st : Stop Empty) (src' : Src (Option (VecDiff β))), pollLoop w body todo hist s = (st, s', src') → st ≠ .panic →
      src'.got = Src.got ⟨[], hist⟩ ++ atFirst todo := by
    intro todo
    induction todo with
    | nil => intro hist s s' st src' h hs; cases h; simp [Src.got, items_append, atFirst]
    | cons r rs ih =>
      intro hist s s' st src' h hs
      rcases r with ((_ | a) | _)
      · cases h; simp [Src.got, items_append, atFirst]
      · simp only [pollLoop] at h
        split at h
        · rw [ih _ _ _ _ _ h hs]; simp [Src.got, items_append, atFirst]
        · rename_i r _; exact r.elim
        · cases h; exact absurd rfl hs
      · cases h; simp [Src.got, items_append, atFirst]
  unfold Inp.loop at h
  split at h
  · split at h
    all_goals
      rename_i h1
      cases h
      have := key _ _ _ _ _ _ h1 hs
      simpa [Inp.mk', Src.mk', Src.got] using this
  · rename_i hf; exact (hf rfl).elim

/-- The inner vectors of a `Replace`. -/
theorem pollAllValues_says {w : Waker} {ts : List ι} {vs : List β} {xs : List (FState ι β)}
    (h : pollAllValues w (ts.map (FState.new g)) = some (vs, xs)) :
    xs.map (·.part) = ts.map fun t => (t, atFirst (g t)) := by
  induction ts generalizing vs xs with
  | nil => cases h; rfl
  | cons t ts ih =>
    simp only [List.map_cons, pollAllValues] at h
    split at h
    · cases h
    · rename_i v x h1
      split at h
      · cases h
      · rename_i vs' xs' h2
        cases h
        simp only [List.map_cons, ih h2, List.cons.injEq, and_true]
        unfold FState.pollValues at h1
        split at h1
        · cases h1
        · cases h1
        · rename_i hl hn1 hn2
          cases h1
          simp only [FState.part, FState.new]
          rw [atFirst_loop hn2 (by assumption)]

/-- What one change of the outer vector does. -/
theorem flattenBody_says (hg : ∀ t, ∃ z, replay (items (g t)) [] = some z) (w : Waker) {inner : List (FState ι β)}
    (hok : ∀ x ∈ inner, FOk g x) (d : VecDiff ι) :
    match flattenBody g w inner d with
    | .cont inner' => (∀ x ∈ inner', FOk g x) ∧
        (Flattens.outer d).apply g (inner.map (·.part)) = some (inner'.map (·.part)) ∧
        (Flattens.outer d).says (inner.map (·.part)) (inner'.map (·.part)) = []
    | .ret inner' c => (∀ x ∈ inner', FOk g x) ∧
        (Flattens.outer d).apply g (inner.map (·.part)) = some (inner'.map (·.part)) ∧
        (Flattens.outer d).says (inner.map (·.part)) (inner'.map (·.part)) = [c]
    | .panic => True := by
  have hn : ∀ t, (t, []) = (FState.new g t).part := fun t => rfl
  have hm : ∀ d : VecDiff ι, (d.map fun t => (t, ([] : List (VecDiff β)))) = (d.map (FState.new g)).map FState.part := by
    intro d; cases d <;> simp [VecDiff.map, hn]
  cases d with
  | replace ts =>
    obtain ⟨vs, xs, e1, e2, e3, e4⟩ := pollAllValues_spec hg w ts
    simp only [flattenBody, e1]
    refine ⟨e3, by rw [pollAllValues_says e1]; rfl, ?_⟩
    simp only [Flattens.says, e4, List.flatMap_map]
    rfl
  | clear => exact ⟨by simp, rfl, rfl⟩
  | insertAt i t =>
    simp only [flattenBody]
    cases h1 : vInsert inner i (FState.new g t) with
    | none => trivial
    | some inner' =>
      refine ⟨?_, by simp only [Flattens.apply]; rw [hm, C06_map_natural]; simp [VecDiff.map, VecDiff.apply, h1], rfl⟩
      obtain ⟨p, q, rfl, rfl, rfl⟩ := vInsert_eq_some.1 h1
      intro x hx
      simp only [List.mem_append, List.mem_cons] at hx hok
      rcases hx with hx | rfl | hx
      · exact hok x (.inl hx)
      · exact FOk.new hg t
      · exact hok x (.inr hx)
  | updateAt i t =>
    simp only [flattenBody]
    cases h1 : vSet inner i (FState.new g t) with
    | none => trivial
    | some inner' =>
      refine ⟨?_, by simp only [Flattens.apply]; rw [hm, C06_map_natural]; simp [VecDiff.map, VecDiff.apply, h1], rfl⟩
      obtain ⟨p, b, q, rfl, rfl, rfl⟩ := vSet_eq_some.1 h1
      intro x hx
      simp only [List.mem_append, List.mem_cons] at hx hok
      rcases hx with hx | rfl | hx
      · exact hok x (.inl hx)
      · exact FOk.new hg t
      · exact hok x (.inr (.inr hx))
  | removeAt i =>
    simp only [flattenBody]
    cases h1 : vRemove inner i with
    | none => trivial
    | some y =>
      obtain ⟨y, inner'⟩ := y
      refine ⟨?_, by simp only [Flattens.apply]; rw [hm, C06_map_natural]; simp [VecDiff.map, VecDiff.apply, h1], rfl⟩
      obtain ⟨p, q, rfl, rfl, rfl⟩ := vRemove_eq_some.1 h1
      intro x hx
      exact hok x (by simp only [List.mem_append, List.mem_cons] at hx ⊢; grind)
  | move i j =>
    simp only [flattenBody]
    cases h1 : vRemove inner i with
    | none => trivial
    | some y =>
      obtain ⟨y, inner1⟩ := y
      dsimp only
      cases h2 : vInsert inner1 j y with
      | none => trivial
      | some inner' =>
        refine ⟨?_, by simp only [Flattens.apply]; rw [hm, C06_map_natural]; simp [VecDiff.map, VecDiff.apply, h1, h2], rfl⟩
        obtain ⟨p, q, rfl, rfl, rfl⟩ := vRemove_eq_some.1 h1
        obtain ⟨p', q', e, rfl, rfl⟩ := vInsert_eq_some.1 h2
        intro x hx
        refine hok x ?_
        have : x ∈ p ++ q ∨ x = y := by
          rw [e]
          simp only [List.mem_append, List.mem_cons] at hx ⊢
          grind
        simp only [List.mem_append, List.mem_cons] at this ⊢
        grind
  | push t =>
    simp only [flattenBody]
    refine ⟨?_, by simp only [Flattens.apply]; rw [hm, C06_map_natural]; simp [VecDiff.map, VecDiff.apply], rfl⟩
    intro x hx
    simp only [List.mem_append, List.mem_singleton] at hx
    rcases hx with hx | rfl
    · exact hok x hx
    · exact FOk.new hg t
  | pop =>
    simp only [flattenBody]
    rcases h1 : vPop inner with ⟨_ | y, inner'⟩
    · trivial
    · dsimp only
      refine ⟨?_, by simp only [Flattens.apply]; rw [hm, C06_map_natural]; simp [VecDiff.map, VecDiff.apply, h1], rfl⟩
      obtain rfl := vPop_eq_some.1 h1
      intro x hx
      exact hok x (by simp [hx])

end

/-- **C98**, `SignalVec::flatten`, for all changes of the outer vector and of the inner vectors, C14's among them.  It
notices the changes of the outer vector in order, and in between changes of the inner vectors, each by its place among
those it has.  What it sends is what `Flattens.says` says for each of these, and nothing else: the elements of a `Replace`
at once, `Clear` as it is, for any other change of the outer vector nothing, and a change of an inner vector moved on by
the elements the vectors before it have given.  At the end the inner vectors are those that follow from these notices, and
each has given what was noticed, a prefix of all its changes. -/
theorem C98_flatten (g : ι → List (Poll (Option (VecDiff β)))) (hg : ∀ t, ∃ z, replay (items (g t)) [] = some z)
    (script : List (Poll (Option (VecDiff ι)))) (ws : List Waker) (outs : List (Poll (Option (VecDiff β))))
    (s : VFlatten ι β) (h : run (VFlatten.poll g) ws (VFlatten.init script) = some (outs, s)) :
    ∃ trace : List (Flattens ι β), trace.filterMap Flattens.taken = s.signal.src.got ∧
      contents (Flattens.apply g) [] trace = some (s.inner.map fun x => (x.tag, x.signalVec.src.got)) ∧
      (∀ x ∈ s.inner, x.signalVec.src.got <+: items (g x.tag)) ∧
      items outs ++ s.pending = sends (Flattens.apply g) Flattens.says [] trace := by
  have := run_trace (fun outs (s : VFlatten ι β) => (∀ x ∈ s.inner, FOk g x) ∧
      ∃ trace : List (Flattens ι β), trace.filterMap Flattens.taken = s.signal.src.got ∧
      contents (Flattens.apply g) [] trace = some (s.inner.map (·.part)) ∧
      items outs ++ s.pending = sends (Flattens.apply g) Flattens.says [] trace)
    (outs0 := []) (by
      intro w outs s r s' hI h
      unfold VFlatten.poll at h
      split at h
      · rename_i diff rest hp
        cases h
        rw [hp] at hI
        simpa [items_append] using hI
      · rename_i hp
        rw [hp, List.append_nil] at hI
        have key := fun st inner i (hl : s.signal.loop w (flattenBody g w) s.inner = (st, inner, i)) =>
          Inp.loop_trace_ret (fun got (inner : List (FState ι β)) => (∀ x ∈ inner, FOk g x) ∧
            ∃ trace : List (Flattens ι β), trace.filterMap Flattens.taken = got ∧
            contents (Flattens.apply g) [] trace = some (inner.map (·.part)) ∧
            items outs = sends (Flattens.apply g) Flattens.says [] trace)
          (fun c got (inner : List (FState ι β)) => (∀ x ∈ inner, FOk g x) ∧
            ∃ trace : List (Flattens ι β), trace.filterMap Flattens.taken = got ∧
            contents (Flattens.apply g) [] trace = some (inner.map (·.part)) ∧
            items outs ++ [c] = sends (Flattens.apply g) Flattens.says [] trace) (by
              rintro got inner d ⟨hok, tr, t1, t2, t3⟩
              have hb := flattenBody_says hg w hok d
              split at hb
              · rename_i inner' e
                rw [e]
                obtain ⟨b1, b2, b3⟩ := hb
                refine ⟨b1, tr ++ [.outer d], by simp [t1, Flattens.taken], (contents_snoc t2 _).trans b2, ?_⟩
                rw [sends_snoc t2 b2, ← t3, b3, List.append_nil]
              · rename_i inner' c e
                rw [e]
                obtain ⟨b1, b2, b3⟩ := hb
                refine ⟨b1, tr ++ [.outer d], by simp [t1, Flattens.taken], (contents_snoc t2 _).trans b2, ?_⟩
                rw [sends_snoc t2 b2, ← t3, b3]
              · rename_i e
                rw [e]
                trivial) hl hI
        have fin : ∀ b inner i, ((∀ x ∈ inner, FOk g x) ∧
            ∃ trace : List (Flattens ι β), trace.filterMap Flattens.taken = i.src.got ∧
            contents (Flattens.apply g) [] trace = some (inner.map (·.part)) ∧
            items outs = sends (Flattens.apply g) Flattens.says [] trace) →
            VFlatten.finish w b i inner = some (r, s') → (∀ x ∈ s'.inner, FOk g x) ∧
            ∃ trace : List (Flattens ι β), trace.filterMap Flattens.taken = s'.signal.src.got ∧
            contents (Flattens.apply g) [] trace = some (s'.inner.map (·.part)) ∧
            items (outs ++ [r]) ++ s'.pending = sends (Flattens.apply g) Flattens.says [] trace := by
          rintro b inner i ⟨hok, tr, t1, t2, t3⟩ hf
          unfold VFlatten.finish at hf
          split at hf
          · cases hf
          · rename_i done first rest inner' hp
            cases hf
            obtain ⟨b1, ts, b2, b3, b4⟩ := pollAllPending_says hok [] hp
            simp only [List.nil_append] at b3 b4
            refine ⟨b1, tr ++ ts, by simp [t1, b2], (contents_append t2 _).trans b3, ?_⟩
            rw [sends_append t2, ← b4, ← t3]
            simp [items_append]
          · rename_i done inner' hp
            obtain ⟨b1, ts, b2, b3, b4⟩ := pollAllPending_says hok [] hp
            simp only [List.nil_append] at b3 b4
            split at hf
            all_goals
              cases hf
              refine ⟨b1, tr ++ ts, by simp [t1, b2], (contents_append t2 _).trans b3, ?_⟩
              rw [sends_append t2, ← b4, ← t3]
              simp [items_append]
        split at h
        · cases h
        · rename_i c inner i hl
          cases h
          have := key _ _ _ hl
          simpa [items_append] using this
        · rename_i inner i hl
          exact fin _ _ _ (key _ _ _ hl) h
        · rename_i inner i hl
          exact fin _ _ _ (key _ _ _ hl) h) h
    ⟨by simp [VFlatten.init], [], by simp [VFlatten.init, Inp.mk', Src.mk', Src.got], rfl,
      by simp [VFlatten.init, sends]⟩
  obtain ⟨h1, tr, h2, h3, h4⟩ := this
  refine ⟨tr, h2, h3, fun x hx => ?_, by simpa using h4⟩
  rw [← (h1 x hx).all]
  exact List.prefix_append _ _

/-- Two inner vectors; the first one grows while the second one is shown, then the outer vector drops the first one, for
which nothing is sent, so that the next change of the second one is sent for a place that is no longer its own. -/
example : ∃ s, run (VFlatten.poll fun n : Nat => [.ready (some (.push n)), .pending, .ready (some (.push (n + 1))),
        .pending, .ready (some (.updateAt 0 (n + 2)))]) [0, 0, 0, 0, 0]
      (VFlatten.init [.ready (some (.replace [10, 20])), .pending, .ready (some (.removeAt 0))]) =
    some ([.ready (some (.replace [10, 20])), .ready (some (.insertAt 1 11)), .ready (some (.insertAt 3 21)),
      .ready (some (.updateAt 0 22)), .pending], s) :=
  ⟨_, rfl⟩

end Verif
