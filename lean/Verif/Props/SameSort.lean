import Verif.Props.SameSink
import Verif.Props.SignalVecSort
import Verif.Props.Polite1

/-!
# C101, continued: `map` and `sort_by_cloned`, `map` and `enumerate`
-/

namespace Verif

variable {α β γ δ A B σ τ ρ π : Type}

/-- What a loop body does, with other loop variables and another answer. -/
def Ctl.both (F : σ → τ) (k : ρ → π) : Ctl σ ρ → Ctl τ π
  | .cont s => .cont (F s)
  | .ret s r => .ret (F s) (k r)
  | .panic => .panic

/-- Why a loop stopped, with another answer. -/
def Stop.over (k : ρ → π) : Stop ρ → Stop π
  | .ended => .ended
  | .pending => .pending
  | .ret r => .ret (k r)
  | .panic => .panic

theorem pollLoop_both {h : A → B} {F : σ → τ} {k : ρ → π} {b1 : σ → A → Ctl σ ρ} {b2 : τ → B → Ctl τ π}
    (hb : ∀ s a, b2 (F s) (h a) = (b1 s a).both F k) (w : Waker) :
    ∀ (todo : List (Poll (Option A))) (hist : List (Waker × Poll (Option A))) (s : σ),
      pollLoop w b2 (todo.map (Poll.mapItem h)) (hist.map fun q => (q.1, q.2.mapItem h)) (F s) =
        ((pollLoop w b1 todo hist s).1.over k, F (pollLoop w b1 todo hist s).2.1,
          (pollLoop w b1 todo hist s).2.2.over h)
  | [], hist, s => by simp [pollLoop, Src.over, Poll.mapItem, Stop.over]
  | .pending :: rs, hist, s => by simp [pollLoop, Src.over, Poll.mapItem, Stop.over]
  | .ready none :: rs, hist, s => by simp [pollLoop, Src.over, Poll.mapItem, Stop.over]
  | .ready (some a) :: rs, hist, s => by
    have e : Poll.mapItem h (.ready (some a)) = .ready (some (h a)) := rfl
    simp only [pollLoop, List.map_cons, e, hb]
    cases hc : b1 s a with
    | cont s' =>
      simp only [Ctl.both]
      have := pollLoop_both hb w rs (hist ++ [(w, .ready (some a))]) s'
      rw [List.map_append] at this
      exact this
    | ret s' r => simp [Ctl.both, Src.over, Poll.mapItem, Stop.over]
    | panic => simp [Ctl.both, Src.over, Poll.mapItem, Stop.over]

/-- A poll and the same poll with other states and another answer. -/
theorem run_both {M N : Type} {poll : Waker → M → Option (Poll (Option γ) × M)}
    {poll' : Waker → N → Option (Poll (Option δ) × N)} {G : M → N} {k : γ → δ}
    (h : ∀ w m, poll' w (G m) = (poll w m).map fun r => (r.1.mapItem k, G r.2)) :
    ∀ (ws : List Waker) (m : M),
      run poll' ws (G m) = (run poll ws m).map fun r => (r.1.map (Poll.mapItem k), G r.2)
  | [], _ => rfl
  | w :: ws, m => by
    simp only [run, h]
    rcases poll w m with _ | ⟨(_ | a) | _, m1⟩
    · rfl
    · rfl
    · simp only [Option.map_some, Poll.mapItem, run_both h ws m1]
      cases run poll ws m1 <;> rfl
    · simp only [Option.map_some, Poll.mapItem, run_both h ws m1]
      cases run poll ws m1 <;> rfl

theorem over_inj {h : A → B} {hist u : List (Waker × Poll (Option A))} (h1 : hist.map (·.2) = u.map (·.2))
    (h2 : (hist.map fun q => (q.1, q.2.mapItem h)) = u.map fun q => (q.1, q.2.mapItem h)) : hist = u := by
  have h2 : hist.map (·.1) = u.map (·.1) := by
    simpa [Function.comp_def] using congrArg (List.map (·.1)) h2
  apply List.ext_getElem?
  intro i
  have g1 := congrArg (·[i]?) h1
  have g2 := congrArg (·[i]?) h2
  simp only [List.getElem?_map] at g1 g2
  generalize hist[i]? = x at g1 g2 ⊢
  generalize u[i]? = y at g1 g2 ⊢
  rcases x with _ | ⟨a, b⟩ <;> rcases y with _ | ⟨c, d⟩
  · rfl
  · cases g1
  · cases g1
  · cases g1
    cases g2
    rfl

/-- A stage that is the same with other states, other changes at the input and other changes at the output: to change
the input is to change the output. -/
theorem stage_over {M N : Type} {poll : Waker → M → Option (Poll (Option (VecDiff γ)) × M)}
    {init : List (Poll (Option (VecDiff α))) → M} {input : M → Src (Option (VecDiff α))}
    {poll' : Waker → N → Option (Poll (Option (VecDiff δ)) × N)} {init' : List (Poll (Option (VecDiff β))) → N}
    {input' : N → Src (Option (VecDiff β))} (f : α → β) (k : γ → δ) (G : M → N)
    (hp : ∀ w m, poll' w (G m) = (poll w m).map fun r => (r.1.mapItem (VecDiff.map k), G r.2))
    (hi : ∀ x, init' (x.map (Poll.mapItem (VecDiff.map f))) = G (init x))
    (hs : ∀ m, input' (G m) = (input m).over (VecDiff.map f))
    (h0 : ∀ x, input (init x) = Src.mk' x)
    (hk : ∀ x, Polite poll input (init x))
    (hpl : ∀ w m r m' x, Plays x (input m) → poll w m = some (r, m') → Plays x (input m'))
    (u : Trace α) (t : Trace δ) :
    (∃ v, Thru (fun (_ : Unit) d => .ret () (VecDiff.map f d)) () u v ∧ StageRel poll' init' input' v t) ↔
      ∃ v, StageRel poll init input u v ∧ Thru (fun (_ : Unit) d => .ret () (VecDiff.map k d)) () v t := by
  have e : Trace.answers (List.map (fun q => (q.1, q.2.mapItem (VecDiff.map f))) u) =
      (Trace.answers u).map (Poll.mapItem (VecDiff.map f)) := by
    simp [Trace.answers, Function.comp_def]
  simp only [Expr.thru_map]
  constructor
  · rintro ⟨_, ⟨rfl, hf⟩, s, hr, hh⟩
    rw [e, hi, run_both hp] at hr
    rcases hr' : run poll t.wakers (init (Trace.answers u)) with _ | ⟨rs, m⟩
    · rw [hr'] at hr
      cases hr
    · rw [hr'] at hr
      simp only [Option.map_some, Option.some.injEq, Prod.mk.injEq] at hr
      obtain ⟨hr, rfl⟩ := hr
      have hl : rs.length = t.wakers.length := by
        simpa [Trace.answers, Trace.wakers] using congrArg List.length hr
      have z1 : Trace.wakers (t.wakers.zip rs) = t.wakers := List.map_fst_zip (by omega)
      have z2 : Trace.answers (t.wakers.zip rs) = rs := List.map_snd_zip (by omega)
      have hrun : run poll (Trace.wakers (t.wakers.zip rs)) (init (Trace.answers u)) =
          some (Trace.answers (t.wakers.zip rs), m) := by rw [z1, z2]; exact hr'
      refine ⟨t.wakers.zip rs, ⟨m, hrun, ?_⟩, ?_, fused_of_run hrun⟩
      · rw [hs] at hh
        have hlen : (input m).hist.length = u.length := by simpa [Src.over] using congrArg List.length hh
        refine over_inj ?_ hh
        refine Plays.all (run_keeps (I := fun m => Plays (Trace.answers u) (input m))
          (fun w m r m' h h' => hpl w m r m' _ h h') hr' ?_) (by simpa [Trace.answers] using hlen)
        rw [h0]
        exact plays_mk' _
      · have z : t = t.wakers.zip t.answers := by
          simp [Trace.wakers, Trace.answers, List.zip_map']
        rw [← hr] at z
        exact z.trans (by rw [List.zip_map_right]; rfl)
  · rintro ⟨v, ⟨m, hr, hh⟩, rfl, hv⟩
    refine ⟨_, ⟨rfl, ?_⟩, G m, ?_, ?_⟩
    · have := (hk _ _ _ _ hr).1
      unfold Src.fused at this
      rw [hh] at this
      exact this
    · have e1 : Trace.wakers (List.map (fun q => (q.1, q.2.mapItem (VecDiff.map k))) v) = Trace.wakers v := by
        simp [Trace.wakers, Function.comp_def]
      have e2 : Trace.answers (List.map (fun q => (q.1, q.2.mapItem (VecDiff.map k))) v) =
          (Trace.answers v).map (Poll.mapItem (VecDiff.map k)) := by
        simp [Trace.answers, Function.comp_def]
      rw [e, hi, run_both hp, e1, e2, hr]
      rfl
    · rw [hs]
      simp [Src.over, hh]

/-! ## `sort_by_cloned` -/

/-- The comparison by what `f` makes of the elements: `|a, b| compare(&f(a), &f(b))`. -/
def cmpBy (f : α → β) (cmp : β → β → Ordering) (a b : α) : Ordering := cmp (f a) (f b)

theorem sortCmp_over (f : α → β) (cmp : β → β → Ordering) (l : List α) :
    sortCmp cmp (l.map f) = sortCmp (cmpBy f cmp) l := by
  funext a b
  simp only [sortCmp, List.getElem?_map]
  cases l[a]? <;> cases l[b]? <;> rfl

theorem gather_over (f : α → β) (l : List α) : ∀ is, gather (l.map f) is = (gather l is).map (List.map f)
  | [] => rfl
  | i :: is => by
    simp only [gather, gather_over f l is, List.getElem?_map]
    cases l[i]? <;> cases gather l is <;> rfl

theorem sortSearch_over (S : SliceFns) (f : α → β) (cmp : β → β → Ordering) (l : List α) (is : List Nat) (i : Nat) :
    sortSearch S cmp (l.map f) is i = sortSearch S (cmpBy f cmp) l is i := by
  simp only [sortSearch, sortCmp_over, List.length_map]

theorem sortInsertAt_over (f : α → β) (is : List Nat) (j i : Nat) (a : α) :
    sortInsertAt is j i (f a) = (sortInsertAt is j i a).map fun r => (r.1, r.2.map f) := by
  simp only [sortInsertAt]
  split
  · rfl
  · cases vInsert is j i <;> rfl

theorem sortRemoveAt_over (f : α → β) (is : List Nat) (j : Nat) :
    (sortRemoveAt is j : Option (List Nat × VecDiff β)) =
      (sortRemoveAt is j : Option (List Nat × VecDiff α)).map fun r => (r.1, r.2.map f) := by
  simp only [sortRemoveAt]
  split
  · rfl
  · split
    · rfl
    · cases vRemove is j <;> rfl

/-- The answer of the sorting loop and what is still to be sent. -/
def sortOver (f : α → β) (r : VecDiff α × Option (VecDiff α)) : VecDiff β × Option (VecDiff β) :=
  (r.1.map f, r.2.map (VecDiff.map f))

theorem sortBody_over (S : SliceFns) (f : α → β) (cmp : β → β → Ordering) (s : List α × List Nat) (d : VecDiff α) :
    sortBody S cmp (s.1.map f, s.2) (d.map f) =
      (sortBody S (cmpBy f cmp) s d).both (fun s => (s.1.map f, s.2)) (sortOver f) := by
  obtain ⟨l, is⟩ := s
  have hsi : ∀ (l : List α) is i, sortSearchInsert S cmp (l.map f) is i = sortSearchInsert S (cmpBy f cmp) l is i := by
    intro l is i
    simp only [sortSearchInsert, sortSearch_over]
  have hsr : ∀ (l : List α) is i, sortSearchRemove S cmp (l.map f) is i = sortSearchRemove S (cmpBy f cmp) l is i := by
    intro l is i
    simp only [sortSearchRemove, sortSearch_over]
  cases d with
  | replace xs =>
    simp only [sortBody, VecDiff.map, sortCmp_over, List.length_map, gather_over]
    cases gather xs (S.sort (sortCmp (cmpBy f cmp) xs) (List.range xs.length)) <;> rfl
  | insertAt i a =>
    simp only [sortBody, VecDiff.map, vInsert_over]
    cases vInsert l i a with
    | none => rfl
    | some l' =>
      simp only [Option.map_some, hsi]
      cases sortSearchInsert S (cmpBy f cmp) l' (incIndexes is i) i with
      | none => rfl
      | some j =>
        simp only [sortInsertAt_over]
        rcases sortInsertAt (incIndexes is i) j i a with _ | ⟨is', d'⟩ <;> rfl
  | push a =>
    have e : l.map f ++ [f a] = (l ++ [a]).map f := by simp
    simp only [sortBody, VecDiff.map, e, hsi, List.length_map]
    cases sortSearchInsert S (cmpBy f cmp) (l ++ [a]) is l.length with
    | none => rfl
    | some j =>
      simp only [sortInsertAt_over]
      rcases sortInsertAt is j l.length a with _ | ⟨is', d'⟩ <;> rfl
  | updateAt i a =>
    simp only [sortBody, VecDiff.map, hsr]
    cases sortSearchRemove S (cmpBy f cmp) l is i with
    | none => rfl
    | some j =>
      simp only [sortRemoveAt_over f is j]
      rcases (sortRemoveAt is j : Option (List Nat × VecDiff α)) with _ | ⟨is', d'⟩
      · rfl
      · simp only [Option.map_some, vSet_over]
        cases vSet l i a with
        | none => rfl
        | some l' =>
          simp only [Option.map_some, hsi]
          cases sortSearchInsert S (cmpBy f cmp) l' is' i with
          | none => rfl
          | some n =>
            simp only []
            split
            · cases vInsert is' n i <;> rfl
            · simp only [sortInsertAt_over]
              rcases sortInsertAt is' n i a with _ | ⟨is'', d''⟩ <;> rfl
  | removeAt i =>
    simp only [sortBody, VecDiff.map, hsr]
    cases sortSearchRemove S (cmpBy f cmp) l is i with
    | none => rfl
    | some j =>
      simp only [vRemove_over]
      rcases vRemove l i with _ | ⟨a, l'⟩
      · rfl
      · simp only [Option.map_some, sortRemoveAt_over f (decIndexes is i) j]
        rcases (sortRemoveAt (decIndexes is i) j : Option (List Nat × VecDiff α)) with _ | ⟨is', d'⟩ <;> rfl
  | move i n =>
    simp only [sortBody, VecDiff.map, hsr]
    cases sortSearchRemove S (cmpBy f cmp) l is i with
    | none => rfl
    | some j =>
      simp only [vRemove_over]
      rcases vRemove l i with _ | ⟨a, l'⟩
      · rfl
      · simp only [Option.map_some]
        rcases vRemove (decIndexes is i) j with _ | ⟨x, is'⟩
        · rfl
        · simp only [vInsert_over]
          cases vInsert l' n a with
          | none => rfl
          | some l'' =>
            simp only [Option.map_some, hsi]
            cases sortSearchInsert S (cmpBy f cmp) l'' (incIndexes is' n) n with
            | none => rfl
            | some m =>
              simp only []
              cases vInsert (incIndexes is' n) m n with
              | none => rfl
              | some is'' =>
                simp only []
                split <;> rfl
  | pop =>
    simp only [sortBody, VecDiff.map, List.length_map, hsr, vPop_over]
    split
    · rfl
    · cases sortSearchRemove S (cmpBy f cmp) l is (l.length - 1) with
      | none => rfl
      | some j =>
        simp only [sortRemoveAt_over f is j]
        rcases (sortRemoveAt is j : Option (List Nat × VecDiff α)) with _ | ⟨is', d'⟩ <;> rfl
  | clear => rfl

/-- The state of `sort_by_cloned` after a `map`. -/
def VSort.over (f : α → β) (m : VSort α) : VSort β :=
  ⟨m.pending.map (VecDiff.map f), m.values.map f, m.indexes, m.signal.over (VecDiff.map f)⟩

theorem sort_over (S : SliceFns) (f : α → β) (cmp : β → β → Ordering) (w : Waker) (m : VSort α) :
    VSort.poll S cmp w (m.over f) =
      (VSort.poll S (cmpBy f cmp) w m).map fun r => (r.1.mapItem (VecDiff.map f), r.2.over f) := by
  obtain ⟨p, l, is, src⟩ := m
  cases p with
  | some d => rfl
  | none =>
    have := pollLoop_both (h := VecDiff.map f) (F := fun s : List α × List Nat => (s.1.map f, s.2)) (k := sortOver f)
      (b1 := sortBody S (cmpBy f cmp)) (b2 := sortBody S cmp) (sortBody_over S f cmp) w src.todo src.hist (l, is)
    simp only [VSort.poll, VSort.over, Option.map_none, Src.loop, Src.over] at this ⊢
    rw [this]
    rcases pollLoop w (sortBody S (cmpBy f cmp)) src.todo src.hist (l, is) with ⟨_ | _ | ⟨d, _ | q⟩ | _, ⟨l', is'⟩, src'⟩ <;>
      rfl

theorem sort_plays {S : SliceFns} {cmp : α → α → Ordering} {w : Waker} {m m' : VSort α}
    {r : Poll (Option (VecDiff α))} {x : List (Poll (Option (VecDiff α)))} (h : Plays x m.signal)
    (hp : VSort.poll S cmp w m = some (r, m')) : Plays x m'.signal := by
  obtain ⟨p, l, is, src⟩ := m
  cases p with
  | some d => cases hp; exact h
  | none =>
    have := pollLoop_plays (w := w) (body := sortBody S cmp) src.todo src.hist (l, is) h
    simp only [VSort.poll, Src.loop] at hp
    rcases hl : pollLoop w (sortBody S cmp) src.todo src.hist (l, is) with ⟨_ | _ | ⟨d, q⟩ | _, ⟨l', is'⟩, src'⟩ <;>
      rw [hl] at hp this <;> cases hp <;> exact this

/-! ## `enumerate` -/

theorem enumValues_over (f : α → β) : ∀ (l : List α) (cells : Cells) (i : Nat),
    enumValues cells i (l.map f) =
      ((enumValues cells i l).1.map (Prod.map id f), (enumValues cells i l).2)
  | [], cells, i => rfl
  | a :: l, cells, i => by simp [enumValues, enumValues_over f l]

theorem enumChange_over (f : α → β) (ms : List Nat) (cells : Cells) (d : VecDiff α) :
    enumChange ms cells (d.map f) = (enumChange ms cells d).map fun r => (r.1.map (Prod.map id f), r.2) := by
  cases d with
  | replace l => simp [enumChange, VecDiff.map, enumValues_over]
  | insertAt i a =>
    simp only [enumChange, VecDiff.map]
    cases vInsert ms i cells.length <;> rfl
  | updateAt i a =>
    simp only [enumChange, VecDiff.map]
    cases ms[i]? <;> rfl
  | push a => rfl
  | move i j =>
    simp only [enumChange, VecDiff.map]
    rcases vRemove ms i with _ | ⟨x, ms'⟩
    · rfl
    · simp only []
      rcases vInsert ms' j x with _ | ms''
      · rfl
      · simp only []
        split
        · cases decrementIndexes cells ((ms''.take j).drop i) <;> rfl
        · split <;> rfl
  | removeAt i =>
    simp only [enumChange, VecDiff.map]
    rcases vRemove ms i with _ | ⟨x, ms'⟩
    · rfl
    · simp only []
      cases decrementIndexes cells (ms'.drop i) <;> rfl
  | pop =>
    simp only [enumChange, VecDiff.map]
    rcases vPop ms with ⟨_ | x, ms'⟩ <;> rfl
  | clear => rfl

/-- The state of `enumerate` after a `map`. -/
def VEnumerate.over (f : α → β) (m : VEnumerate α) : VEnumerate β :=
  ⟨m.signal.over (VecDiff.map f), m.mutables, m.cells⟩

theorem enumerate_over (f : α → β) (w : Waker) (m : VEnumerate α) :
    VEnumerate.poll w (m.over f) =
      (VEnumerate.poll w m).map fun r => (r.1.mapItem (VecDiff.map (Prod.map id f)), r.2.over f) := by
  obtain ⟨⟨todo, hist⟩, ms, cells⟩ := m
  rcases todo with _ | ⟨(_ | d) | _, rs⟩
  · simp [VEnumerate.poll, VEnumerate.over, Src.over, Src.poll, Poll.mapItem]
  · simp [VEnumerate.poll, VEnumerate.over, Src.over, Src.poll, Poll.mapItem]
  · simp only [VEnumerate.poll, VEnumerate.over, Src.over, Src.poll, List.map_cons, Poll.mapItem, enumChange_over]
    rcases enumChange ms cells d with _ | ⟨d', ms', cells'⟩
    · rfl
    · simp [Poll.mapItem]
  · simp [VEnumerate.poll, VEnumerate.over, Src.over, Src.poll, Poll.mapItem]

theorem enumerate_plays {w : Waker} {m m' : VEnumerate α} {r : Poll (Option (VecDiff (Nat × α)))}
    {x : List (Poll (Option (VecDiff α)))} (h : Plays x m.signal) (hp : VEnumerate.poll w m = some (r, m')) :
    Plays x m'.signal := by
  simp only [VEnumerate.poll] at hp
  rcases hq : m.signal.poll w with ⟨(_ | d) | _, s⟩ <;> rw [hq] at hp
  · cases hp; exact h.poll hq
  · simp only [] at hp
    rcases hc : enumChange m.mutables m.cells d with _ | ⟨d', ms', cells'⟩ <;> rw [hc] at hp <;> cases hp
    exact h.poll hq
  · cases hp; exact h.poll hq

namespace Pipe

/-- **C101** (`map` and `sort_by_cloned`).  `.map(f).sort_by_cloned(compare)` is
`.sort_by_cloned(|a, b| compare(&f(a), &f(b))).map(f)`: every change comes at the same poll, whatever the comparison is
and whatever the library functions do. -/
theorem C101_map_sort (S : SliceFns) (f : β → γ) (cmp : γ → γ → Ordering) (p : Pipe α β) :
    Same (sort S cmp (map f p)) (map f (sort S (fun a b => cmp (f a) (f b)) p)) := by
  intro src t
  have key := fun u => stage_over (poll := VSort.poll S (cmpBy f cmp)) (poll' := VSort.poll S cmp) (init := VSort.init)
    (init' := VSort.init) (input := (·.signal)) (input' := (·.signal)) f f (VSort.over f) (sort_over S f cmp)
    (fun _ => rfl) (fun _ => rfl) (fun _ => rfl) (C57_sort_by_cloned S (cmpBy f cmp))
    (fun _ _ _ _ _ h hp => sort_plays h hp) u t
  simp only [Pipe.Exec, rel_vMap]
  constructor
  · rintro ⟨v, ⟨u, hu, h1⟩, h2⟩
    obtain ⟨v', h3, h4⟩ := (key u).1 ⟨v, h1, h2⟩
    exact ⟨v', ⟨u, hu, h3⟩, h4⟩
  · rintro ⟨v, ⟨u, hu, h1⟩, h2⟩
    obtain ⟨v', h3, h4⟩ := (key u).2 ⟨v, h1, h2⟩
    exact ⟨v', ⟨u, hu, h3⟩, h4⟩

/-- **C101** (`map` and `enumerate`).  `.map(f).enumerate()` is `.enumerate().map(|(i, x)| (i, f(x)))`: the same elements
with the same indexes, at the same polls. -/
theorem C101_map_enumerate (f : β → γ) (p : Pipe α β) :
    Same (enumerate (map f p)) (map (fun x => (x.1, f x.2)) (enumerate p)) := by
  intro src t
  have key := fun u => stage_over (poll := VEnumerate.poll) (poll' := VEnumerate.poll) (init := VEnumerate.init)
    (init' := VEnumerate.init) (input := (·.signal)) (input' := (·.signal)) f (Prod.map id f) (VEnumerate.over f)
    (enumerate_over f) (fun _ => rfl) (fun _ => rfl) (fun _ => rfl) C57_enumerate
    (fun _ _ _ _ _ h hp => enumerate_plays h hp) u t
  simp only [Pipe.Exec, rel_vMap]
  constructor
  · rintro ⟨v, ⟨u, hu, h1⟩, h2⟩
    obtain ⟨v', h3, h4⟩ := (key u).1 ⟨v, h1, h2⟩
    exact ⟨v', ⟨u, hu, h3⟩, h4⟩
  · rintro ⟨v, ⟨u, hu, h1⟩, h2⟩
    obtain ⟨v', h3, h4⟩ := (key u).2 ⟨v, h1, h2⟩
    exact ⟨v', ⟨u, hu, h3⟩, h4⟩

/-- Sorted by the last digit; one update becomes two changes. -/
example : (sort demoFns byDigit (map (· + 1) (.source 0))).Exec (fun _ =>
      [(9, .ready (some (.replace [14, 2, 11]))), (9, .ready (some (.updateAt 0 0))), (9, .pending)])
    [(9, .ready (some (.replace [12, 3, 15]))), (9, .ready (some .pop)), (7, .ready (some (.insertAt 0 1))),
      (9, .pending)] :=
  (C101_map_sort demoFns (· + 1) byDigit (.source 0) _ _).2
    ⟨[(9, .ready (some (.replace [11, 2, 14]))), (9, .ready (some .pop)), (7, .ready (some (.insertAt 0 0))), (9, .pending)],
      ⟨_, rfl, _, rfl, rfl⟩, _, rfl, rfl⟩

example : (enumerate (map (· + 1) (.source 0))).Exec (fun _ =>
      [(9, .ready (some (.replace [4, 2]))), (9, .ready (some (.insertAt 0 0))), (9, .pending), (9, .ready none)])
    [(9, .ready (some (.replace [(0, 5), (1, 3)]))), (9, .ready (some (.insertAt 0 (2, 1)))), (9, .pending),
      (9, .ready none)] :=
  (C101_map_enumerate (· + 1) (.source 0) _ _).2
    ⟨[(9, .ready (some (.replace [(0, 4), (1, 2)]))), (9, .ready (some (.insertAt 0 (2, 0)))), (9, .pending),
      (9, .ready none)], ⟨_, rfl, _, rfl, rfl⟩, _, rfl, rfl⟩

end Pipe

end Verif
