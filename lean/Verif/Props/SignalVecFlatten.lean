import Verif.FlattenProofs

/-!
# `SignalVec::flatten` (property C14 and C57–C59 for `flatten`)
-/

namespace Verif

variable {β ι : Type}

/-- **C14** (partial).  `flatten`: for every well-formed history of the outer vector in which
inner vectors are added (`Replace`, `InsertAt`, `Push`) or all dropped (`Clear`), for all
well-formed histories of the inner vectors (`g t` is the script of inner vector `t`) and every
schedule of polls: no poll panics, the emitted diffs are applicable, and whenever the last answer is
`Pending` or the end, they describe the concatenation, in the order of the outer vector, of what the
diffs consumed from the inner vectors describe.

Missing for the full claim: `UpdateAt`, `RemoveAt`, `Move` and `Pop` of the outer vector, for which
it is false (`C14_flatten_fails`). -/
theorem C14_flatten_partial (g : ι → List (Poll (Option (VecDiff β))))
    (hg : ∀ t, ∃ z, replay (items (g t)) [] = some z)
    (script : List (Poll (Option (VecDiff ι)))) (hwf : Feed OuterOk (items script) [])
    (ws : List Waker) :
    ∃ outs s zs, run (VFlatten.poll g) ws (VFlatten.init script) = some (outs, s) ∧
      replay (items outs) [] = some zs ∧
      replay s.signal.src.got [] = some (s.inner.map (·.tag)) ∧
      (∀ x ∈ s.inner, x.signalVec.src.all = items (g x.tag)) ∧
      (outs.getLast? = some .pending ∨ .ready none ∈ outs →
        ∃ parts : List (List β),
          s.inner.map (fun x => replay x.signalVec.src.got []) = parts.map some ∧
          zs = parts.flatten) := by
  obtain ⟨outs, s, zs, h1, h2, h3, h4, h5⟩ := vec_run (poll := VFlatten.poll g)
    (fun s zs => ∃ ts, FlattenInv g s ts zs)
    (fun s zs => (∃ ts, FlattenInv g s ts zs) ∧ s.pending = [])
    (fun s zs => (∃ ts, FlattenInv g s ts zs) ∧ s.pending = [])
    (fun _ _ h => h.1)
    (by
      rintro w s zs ⟨ts, h⟩
      obtain ⟨r, s', ts', g1, g2⟩ := VFlatten.step hg w h
      refine ⟨r, s', g1, ?_⟩
      match r with
      | .ready (some d) => obtain ⟨zs', g3, g4⟩ := g2; exact ⟨zs', g3, ts', g4⟩
      | .ready none => exact ⟨⟨ts', g2.1⟩, g2.2.1⟩
      | .pending => exact ⟨⟨ts', g2.1⟩, g2.2.1⟩)
    ws (VFlatten.init script) ⟨[], Inp.ok_mk' _, valid_mk' hwf, rfl, by simp [VFlatten.init], rfl⟩
  have hinv : ∃ ts, FlattenInv g s ts zs := by
    by_cases he : .ready none ∈ outs
    · exact (h5 he).1
    · exact h3 he
  obtain ⟨ts, hi⟩ := hinv
  refine ⟨outs, s, zs, h1, h2, by rw [hi.tags]; exact hi.valid.now, fun x hx => (hi.inner x hx).all,
    fun h => ⟨s.inner.map (·.contents), ?_, ?_⟩⟩
  · rw [List.map_map]
    exact List.map_congr_left fun x hx => (hi.inner x hx).valid.now
  · have hp : s.pending = [] := by
      rcases h with h | h
      · exact (h4 h).2
      · exact (h5 h).2
    have := hi.queue
    rw [hp] at this
    simpa [replay, List.flatMap_def] using this

/-- Inner vectors of the example: 0 ends, 1 changes in steps, everything else stays empty. -/
def demoInner : Nat → List (Poll (Option (VecDiff Nat)))
  | 0 => [.ready (some (.replace [10, 11])), .pending, .ready (some .clear), .ready none]
  | 1 => [.pending, .ready (some (.push 20)), .pending, .ready (some (.insertAt 0 21)),
          .ready (some (.replace [22, 23])), .ready none]
  | _ => [.ready none]
def demoOuter : List (Poll (Option (VecDiff Nat))) :=
  [.ready (some (.replace [0])), .ready (some (.push 1)), .pending, .ready (some (.insertAt 1 0)),
   .pending, .ready none]

theorem demoInner_wf : ∀ t, ∃ z, replay (items (demoInner t)) [] = some z := by
  intro t
  match t with
  | 0 => exact ⟨[], rfl⟩
  | 1 => exact ⟨[22, 23], rfl⟩
  | n + 2 => exact ⟨[], rfl⟩

example : Feed OuterOk (items demoOuter) [] := by
  simp [demoOuter, items, Feed, OuterOk, VecDiff.apply, vInsert]

example : (run (VFlatten.poll demoInner) (List.replicate 6 0) (VFlatten.init demoOuter)).bind
    (fun q => replay (items q.1) []) = some [10, 11, 20] := by decide
example : (run (VFlatten.poll demoInner) (List.replicate 40 0) (VFlatten.init demoOuter)).bind
    (fun q => replay (items q.1) []) = some [22, 23] := by decide

/-- **C14 is false**: the outer vector holds one inner vector with one element and removes it.
`flatten` reports nothing: it answers `Pending` while the emitted diffs still describe the element
of the removed vector. -/
theorem C14_flatten_fails :
    ∃ (g : Nat → List (Poll (Option (VecDiff Nat)))) (script : List (Poll (Option (VecDiff Nat)))),
      (∀ t, ∃ z, replay (items (g t)) [] = some z) ∧
      (∃ z, replay (items script) [] = some z) ∧
      ∃ outs s, run (VFlatten.poll g) [0, 0] (VFlatten.init script) = some (outs, s) ∧
        outs.getLast? = some .pending ∧
        replay s.signal.src.got [] = some [] ∧
        replay (items outs) [] = some [10] := by
  exact ⟨fun _ => [.ready (some (.push 10))],
    [.ready (some (.push 0)), .pending, .ready (some (.removeAt 0))],
    fun _ => ⟨[10], rfl⟩, ⟨[], rfl⟩, _, _, rfl, rfl, rfl, rfl⟩

/-- After `C14_flatten_fails`, later diffs of other inner vectors are sent with wrong indices, and a
consumer that applies them to what it has gets something that is no state of the vectors at all:
outer `[a, b]`, `a = [1]`, `b = [2]`, then `a` is removed and `b` becomes `[2, 3]`; the consumer ends
up with `[1, 3, 2]`. -/
theorem C14_flatten_wrong_index :
    ∃ (g : Nat → List (Poll (Option (VecDiff Nat)))) (script : List (Poll (Option (VecDiff Nat)))),
      (∀ t, ∃ z, replay (items (g t)) [] = some z) ∧ replay (items script) [] = some [1] ∧
      replay (items (g 1)) [] = some [2, 3] ∧
      ∃ outs s, run (VFlatten.poll g) [0, 0, 0] (VFlatten.init script) = some (outs, s) ∧
        outs.getLast? = some .pending ∧ replay (items outs) [] = some [1, 3, 2] := by
  refine ⟨fun t => if t = 0 then [.ready (some (.push 1))] else
      [.ready (some (.push 2)), .pending, .ready (some (.push 3))],
    [.ready (some (.replace [0, 1])), .ready (some (.removeAt 0))],
    fun t => ?_, rfl, rfl, _, _, rfl, rfl, rfl⟩
  by_cases h : t = 0
  · subst h; exact ⟨[1], rfl⟩
  · simp only [h, if_false]; exact ⟨[2, 3], rfl⟩

/-! ## Wakers and the end -/

theorem FState.pollPending_any (w : Waker) {x x' : FState ι β} (h : x.signalVec.Ok) {n : Nat}
    {pending pending' : List (VecDiff β)} {done : Bool}
    (hp : x.pollPending w n pending = some (done, pending', x')) :
    x'.signalVec.Ok ∧ (done = true → x'.signalVec.alive = false) ∧
      (done = false → x'.signalVec.src.armed w) := by
  obtain ⟨st, s', i', h1, h2, h3, h4⟩ := Inp.loop_any w (pollPendingBody (β := β) n) x.signalVec
    (x.len, pending) h
  unfold FState.pollPending at hp
  rw [h1] at hp
  obtain ⟨len, out⟩ := s'
  cases st with
  | panic => cases hp
  | ret r => cases hp
  | ended => cases hp; exact ⟨h2, fun _ => h3.2 rfl, by simp⟩
  | pending => cases hp; exact ⟨h2, by simp, fun _ => h4 rfl⟩

theorem pollAllPending_any (w : Waker) {xs xs' : List (FState ι β)}
    (h : ∀ x ∈ xs, x.signalVec.Ok) {n : Nat} {pending pending' : List (VecDiff β)} {done : Bool}
    (hp : pollAllPending w n pending xs = some (done, pending', xs')) :
    (∀ x ∈ xs', x.signalVec.Ok ∧ Settled w x.signalVec) ∧
      (done = true → ∀ x ∈ xs', x.signalVec.alive = false) ∧
      (done = false → ∃ x ∈ xs', x.signalVec.src.armed w) := by
  induction xs generalizing n pending pending' xs' done with
  | nil => cases hp; simp
  | cons x xs ih =>
    simp only [pollAllPending] at hp
    split at hp
    · cases hp
    · rename_i d1 p1 x1 e1
      obtain ⟨a1, a2, a3⟩ := FState.pollPending_any w (h x (by simp)) e1
      split at hp
      · cases hp
      · rename_i d2 p2 xs2 e2
        obtain ⟨b1, b2, b3⟩ := ih (fun y hy => h y (by simp [hy])) e2
        cases hp
        refine ⟨?_, ?_, ?_⟩
        · intro y hy
          rcases List.mem_cons.1 hy with rfl | hy
          · refine ⟨a1, ?_⟩
            cases d1 with
            | true => exact .inl (a2 rfl)
            | false => exact .inr (a3 rfl)
          · exact b1 y hy
        · intro hd y hy
          simp only [Bool.and_eq_true] at hd
          rcases List.mem_cons.1 hy with rfl | hy
          · exact a2 hd.1
          · exact b2 hd.2 y hy
        · intro hd
          simp only [Bool.and_eq_false_iff] at hd
          rcases hd with hd | hd
          · exact ⟨x1, by simp, a3 hd⟩
          · obtain ⟨y, hy, e⟩ := b3 hd
            exact ⟨y, by simp [hy], e⟩

theorem pollAllValues_any (w : Waker) {xs xs' : List (FState ι β)}
    (h : ∀ x ∈ xs, x.signalVec.Ok) {vs : List β} (hp : pollAllValues w xs = some (vs, xs')) :
    ∀ x ∈ xs', x.signalVec.Ok := by
  induction xs generalizing vs xs' with
  | nil => cases hp; simp
  | cons x xs ih =>
    simp only [pollAllValues] at hp
    split at hp
    · cases hp
    · rename_i v1 x1 e1
      split at hp
      · cases hp
      · rename_i v2 xs2 e2
        cases hp
        intro y hy
        rcases List.mem_cons.1 hy with rfl | hy
        · obtain ⟨st, s', i', h1, h2, -⟩ := Inp.loop_any w (pollValuesBody (β := β)) x.signalVec
            (x.len, []) (h x (by simp))
          unfold FState.pollValues at e1
          rw [h1] at e1
          obtain ⟨len, out⟩ := s'
          cases st <;> cases e1 <;> exact h2
        · exact ih (fun y hy => h y (by simp [hy])) e2 y hy

/-- **C57, C58, C59 for `flatten`.**  For all inputs whatsoever (outer and inner) and every schedule
of polls, for as long as no poll panics:
* neither the outer vector nor any of the inner vectors held is polled again after its end;
* the end is reported only after the outer vector and all inner vectors held ended, and all diffs
  were delivered;
* after `Pending`, each of them has ended, or its last answer was `Pending`, given to a poll with
  the waker of the last poll; at least one of them has not ended. -/
theorem C57_flatten (g : ι → List (Poll (Option (VecDiff β))))
    (script : List (Poll (Option (VecDiff ι)))) (ws : List Waker)
    (outs : List (Poll (Option (VecDiff β)))) (s : VFlatten ι β)
    (h : run (VFlatten.poll g) ws (VFlatten.init script) = some (outs, s)) :
    (s.signal.src.fused ∧ ∀ x ∈ s.inner, x.signalVec.src.fused) ∧
    (.ready none ∈ outs → s.pending = [] ∧ s.signal.src.ended ∧ ∀ x ∈ s.inner, x.signalVec.src.ended) ∧
    (∀ w, ws.getLast? = some w → outs.getLast? = some .pending →
      (s.signal.src.ended ∨ s.signal.src.armed w) ∧
      (∀ x ∈ s.inner, x.signalVec.src.ended ∨ x.signalVec.src.armed w) ∧
      (s.signal.src.armed w ∨ ∃ x ∈ s.inner, x.signalVec.src.armed w)) := by
  have hstep : ∀ w (s : VFlatten ι β) r s', (s.signal.Ok ∧ ∀ x ∈ s.inner, x.signalVec.Ok) →
      VFlatten.poll g w s = some (r, s') →
      Outcome (fun s => s.signal.Ok ∧ ∀ x ∈ s.inner, x.signalVec.Ok)
        (fun s => (Settled w s.signal ∧ ∀ x ∈ s.inner, Settled w x.signalVec) ∧
          (s.signal.src.armed w ∨ ∃ x ∈ s.inner, x.signalVec.src.armed w))
        (fun s => s.pending = [] ∧ s.signal.alive = false ∧ ∀ x ∈ s.inner, x.signalVec.alive = false) r s' := by
    rintro w ⟨sig, inner, pend⟩ r s' ⟨hs, hi⟩ hp
    unfold VFlatten.poll at hp
    cases pend with
    | cons c rest => cases hp; exact ⟨hs, hi⟩
    | nil =>
      simp only at hp
      have hb : ∀ (inner : List (FState ι β)) d, (∀ x ∈ inner, x.signalVec.Ok) →
          match flattenBody g w inner d with
          | .cont inner' => ∀ x ∈ inner', x.signalVec.Ok
          | .ret inner' _ => ∀ x ∈ inner', x.signalVec.Ok
          | .panic => True := by
        intro inner d hi
        have hnew : ∀ t, (FState.new g t).signalVec.Ok := fun t => Inp.ok_mk' _
        cases d with
        | replace vs =>
          simp only [flattenBody]
          cases hv : pollAllValues w (vs.map (FState.new g)) with
          | none => trivial
          | some q =>
            refine pollAllValues_any w ?_ hv
            intro x hx
            obtain ⟨t, -, rfl⟩ := List.mem_map.1 hx
            exact hnew t
        | insertAt i t =>
          simp only [flattenBody]
          cases hv : vInsert inner i (FState.new g t) with
          | none => trivial
          | some q =>
            obtain ⟨p, q, rfl, -, rfl⟩ := vInsert_eq_some.1 hv
            intro x hx
            simp only [List.mem_append, List.mem_cons] at hx
            rcases hx with hx | rfl | hx
            · exact hi x (by simp [hx])
            · exact hnew t
            · exact hi x (by simp [hx])
        | updateAt i t =>
          simp only [flattenBody]
          cases hv : vSet inner i (FState.new g t) with
          | none => trivial
          | some q =>
            obtain ⟨p, b, q, rfl, -, rfl⟩ := vSet_eq_some.1 hv
            intro x hx
            simp only [List.mem_append, List.mem_cons] at hx
            rcases hx with hx | rfl | hx
            · exact hi x (by simp [hx])
            · exact hnew t
            · exact hi x (by simp [hx])
        | removeAt i =>
          simp only [flattenBody]
          cases hv : vRemove inner i with
          | none => trivial
          | some q =>
            obtain ⟨a, q⟩ := q
            obtain ⟨p, q, rfl, -, rfl⟩ := vRemove_eq_some.1 hv
            intro x hx
            exact hi x (by simp at hx ⊢; rcases hx with hx | hx <;> simp [hx])
        | move i j =>
          simp only [flattenBody]
          cases hv : vRemove inner i with
          | none => trivial
          | some q =>
            obtain ⟨a, q⟩ := q
            obtain ⟨p, q, rfl, -, rfl⟩ := vRemove_eq_some.1 hv
            simp only
            cases hv' : vInsert (p ++ q) j a with
            | none => trivial
            | some q' =>
              obtain ⟨p', q', e, -, rfl⟩ := vInsert_eq_some.1 hv'
              intro x hx
              have : x = a ∨ x ∈ p ++ q := by
                rw [e]; simp only [List.mem_append, List.mem_cons] at hx ⊢
                rcases hx with hx | rfl | hx <;> simp [*]
              refine hi x ?_
              simp only [List.mem_append, List.mem_cons] at this ⊢
              rcases this with h | h | h <;> simp [h]
        | push t =>
          simp only [flattenBody]
          intro x hx
          simp only [List.mem_append, List.mem_singleton] at hx
          rcases hx with hx | rfl
          · exact hi x hx
          · exact hnew t
        | pop =>
          simp only [flattenBody]
          cases hv : vPop inner with
          | mk a q =>
            cases a with
            | none => trivial
            | some a =>
              have := vPop_eq_some.1 hv
              subst this
              intro x hx
              exact hi x (by simp at hx ⊢; simp [hx])
        | clear => simp [flattenBody]
      obtain ⟨st, inner', i', h1, h2, h3, h4, h5⟩ := Inp.loop_any_inv w (flattenBody g w)
        (fun inner => ∀ x ∈ inner, x.signalVec.Ok) (fun _ inner => ∀ x ∈ inner, x.signalVec.Ok)
        (fun s a s' hp he => by have := hb s a hp; rw [he] at this; exact this)
        (fun s a s' r hp he => by have := hb s a hp; rw [he] at this; exact this)
        sig inner hs hi
      rw [h1] at hp
      have hfin : ∀ top, (top = true → i'.alive = false) → (top = false → i'.src.armed w) →
          (∀ x ∈ inner', x.signalVec.Ok) → VFlatten.finish w top i' inner' = some (r, s') →
          Outcome (fun s => s.signal.Ok ∧ ∀ x ∈ s.inner, x.signalVec.Ok)
        (fun s => (Settled w s.signal ∧ ∀ x ∈ s.inner, Settled w x.signalVec) ∧
          (s.signal.src.armed w ∨ ∃ x ∈ s.inner, x.signalVec.src.armed w))
        (fun s => s.pending = [] ∧ s.signal.alive = false ∧ ∀ x ∈ s.inner, x.signalVec.alive = false) r s' := by
        intro top ht1 ht2 hi' hf
        unfold VFlatten.finish at hf
        cases hq : pollAllPending w 0 [] inner' with
        | none => simp [hq] at hf
        | some q =>
          obtain ⟨done, add, xs⟩ := q
          obtain ⟨b1, b2, b3⟩ := pollAllPending_any w hi' hq
          rw [hq] at hf
          cases add with
          | cons d rest => cases hf; exact ⟨h2, fun x hx => (b1 x hx).1⟩
          | nil =>
            simp only at hf
            by_cases hd : done && top
            · simp only [hd, if_true] at hf
              cases hf
              simp only [Bool.and_eq_true] at hd
              exact ⟨⟨h2, fun x hx => (b1 x hx).1⟩, rfl, ht1 hd.2, b2 hd.1⟩
            · simp only [hd] at hf
              cases hf
              refine ⟨⟨h2, fun x hx => (b1 x hx).1⟩, ⟨?_, fun x hx => (b1 x hx).2⟩, ?_⟩
              · cases top with
                | true => exact .inl (ht1 rfl)
                | false => exact .inr (ht2 rfl)
              · cases top with
                | true => exact .inr (b3 (by simpa using hd))
                | false => exact .inl (ht2 rfl)
      cases st with
      | panic => cases hp
      | ret d => cases hp; exact ⟨h2, h5⟩
      | ended => exact hfin true (fun _ => h3.2 rfl) (by simp) h5 hp
      | pending => exact hfin false (by simp) (fun _ => h4 rfl) h5 hp
  obtain ⟨⟨a1, a2⟩, b, c⟩ := any_run (poll := VFlatten.poll g)
    (fun s => s.signal.Ok ∧ ∀ x ∈ s.inner, x.signalVec.Ok)
    (fun w s => (Settled w s.signal ∧ ∀ x ∈ s.inner, Settled w x.signalVec) ∧
          (s.signal.src.armed w ∨ ∃ x ∈ s.inner, x.signalVec.src.armed w))
    (fun s => s.pending = [] ∧ s.signal.alive = false ∧ ∀ x ∈ s.inner, x.signalVec.alive = false)
    hstep ⟨Inp.ok_mk' _, by simp [VFlatten.init]⟩ h
  refine ⟨⟨a1.fused, fun x hx => (a2 x hx).fused⟩, fun he => ?_, fun w hw hl => ?_⟩
  · exact ⟨(b he).1, a1.dead.2 (b he).2.1, fun x hx => (a2 x hx).dead.2 ((b he).2.2 x hx)⟩
  · obtain ⟨⟨d1, d2⟩, d3⟩ := c w hw hl
    exact ⟨d1.imp a1.dead.2 id, fun x hx => (d2 x hx).imp (a2 x hx).dead.2 id, d3⟩

example : ∃ outs s, run (VFlatten.poll demoInner) (List.replicate 40 0)
    (VFlatten.init demoOuter) = some (outs, s) ∧ .ready none ∈ outs ∧ s.inner.length = 3 :=
  ⟨_, _, rfl, by decide, by decide⟩

end Verif
