import Verif.FnMut
import Verif.FlowProofs

/-!
# Callbacks with state: relation to the models with a pure callback

Each value is annotated with the calls before the call on it.  On annotated inputs, a callback with state is a pure
function of the annotated value (`byCall`).
-/

namespace Verif

variable {α β ι τ σ ρ D D' : Type}

/-! ## Annotations -/

/-- The calls on `vs`, one after the other, after calls on `c`. -/
def callsOn : List ι → List ι → List (List ι × ι)
  | _, [] => []
  | c, v :: vs => (c, v) :: callsOn (c ++ [v]) vs

/-- The values of a change with the calls before theirs. -/
def VecDiff.number (c : List ι) : VecDiff ι → VecDiff (List ι × ι)
  | .replace values => .replace (callsOn c values)
  | .insertAt index value => .insertAt index (c, value)
  | .updateAt index value => .updateAt index (c, value)
  | .push value => .push (c, value)
  | .removeAt index => .removeAt index
  | .move oldIndex newIndex => .move oldIndex newIndex
  | .pop => .pop
  | .clear => .clear

/-- The entries with the calls before theirs. -/
def callsOnEntries {K V : Type} : List V → List (K × V) → List (K × (List V × V))
  | _, [] => []
  | c, e :: es => (e.1, (c, e.2)) :: callsOnEntries (c ++ [e.2]) es

/-- The values of a change with the calls before theirs. -/
def MapDiff.number {K V : Type} (c : List V) : MapDiff K V → MapDiff K (List V × V)
  | .replace entries => .replace (callsOnEntries c entries)
  | .insert key value => .insert key (c, value)
  | .update key value => .update key (c, value)
  | .remove key => .remove key
  | .clear => .clear

/-- The items of a sequence, annotated. -/
def numItems (num : List ι → D → D') (inc : D → List ι) : List ι → List D → List D'
  | _, [] => []
  | c, d :: ds => num c d :: numItems num inc (c ++ inc d) ds

/-- A script, annotated. -/
def numScript (num : List ι → D → D') (inc : D → List ι) : List ι → List (Poll (Option D)) → List (Poll (Option D'))
  | _, [] => []
  | c, .pending :: rs => .pending :: numScript num inc c rs
  | c, .ready none :: rs => .ready none :: numScript num inc c rs
  | c, .ready (some d) :: rs => .ready (some (num c d)) :: numScript num inc (c ++ inc d) rs

theorem numItems_append (num : List ι → D → D') (inc : D → List ι) (c : List ι) (xs ys : List D) :
    numItems num inc c (xs ++ ys) = numItems num inc c xs ++ numItems num inc (c ++ xs.flatMap inc) ys := by
  induction xs generalizing c with
  | nil => simp [numItems]
  | cons x xs ih => simp [numItems, ih, List.append_assoc]

theorem items_numScript (num : List ι → D → D') (inc : D → List ι) (c : List ι) (rs : List (Poll (Option D))) :
    items (numScript num inc c rs) = numItems num inc c (items rs) := by
  induction rs generalizing c with
  | nil => rfl
  | cons r rs ih => rcases r with ((_ | d) | _) <;> simp [numScript, numItems, items, ih] <;> exact ih _

/-- An answer without its item. -/
def Poll.kind : Poll (Option D) → Poll (Option Unit) := Poll.mapItem (fun _ => ())

/-- An input and the same input annotated, after the given calls. -/
structure Numd (num : List ι → D → D') (inc : D → List ι) (c : List ι) (s : Src (Option D)) (s' : Src (Option D')) :
    Prop where
  todo : s'.todo = numScript num inc c s.todo
  got : s'.got = numItems num inc [] s.got
  calls : c = s.got.flatMap inc
  hist : s'.hist.map (fun x => (x.1, x.2.kind)) = s.hist.map (fun x => (x.1, x.2.kind))

theorem Numd.ended {num : List ι → D → D'} {inc : D → List ι} {c : List ι} {s : Src (Option D)}
    {s' : Src (Option D')} (h : Numd num inc c s s') : s'.ended ↔ s.ended := by
  have key : ∀ {E : Type} (t : Src (Option E)),
      t.ended ↔ ∃ w, (w, Poll.ready none) ∈ t.hist.map (fun x => (x.1, x.2.kind)) := by
    intro E t
    simp only [Src.ended, List.mem_map, Prod.mk.injEq]
    constructor
    · rintro ⟨w, hw⟩
      exact ⟨w, _, hw, rfl, rfl⟩
    · rintro ⟨w, ⟨w', r⟩, hw, rfl, hr⟩
      rcases r with ((_ | d) | _) <;> simp [Poll.kind, Poll.mapItem] at hr
      exact ⟨_, hw⟩
  rw [key, key, h.hist]

theorem Numd.armed {num : List ι → D → D'} {inc : D → List ι} {c : List ι} {s : Src (Option D)}
    {s' : Src (Option D')} (h : Numd num inc c s s') (w : Waker) : s'.armed w ↔ s.armed w := by
  have key : ∀ {E : Type} (t : Src (Option E)),
      t.armed w ↔ (t.hist.map (fun x => (x.1, x.2.kind))).getLast? = some (w, .pending) := by
    intro E t
    simp only [Src.armed, List.getLast?_map]
    rcases t.hist.getLast? with _ | ⟨w', ((_ | d) | _)⟩ <;> simp [Poll.kind, Poll.mapItem]
  rw [key, key, h.hist]

theorem numd_mk' (num : List ι → D → D') (inc : D → List ι) (script : List (Poll (Option D))) :
    Numd num inc [] (Src.mk' script) (Src.mk' (numScript num inc [] script)) := ⟨rfl, rfl, rfl, rfl⟩

theorem Numd.snoc {num : List ι → D → D'} {inc : D → List ι} {c : List ι} {d : D} {rs : List (Poll (Option D))}
    {rs' : List (Poll (Option D'))} {hist hist'} {w : Waker}
    (h : Numd num inc c ⟨.ready (some d) :: rs, hist⟩ ⟨rs', hist'⟩) :
    Numd num inc (c ++ inc d) ⟨rs, hist ++ [(w, .ready (some d))]⟩
      ⟨numScript num inc (c ++ inc d) rs, hist' ++ [(w, .ready (some (num c d)))]⟩ := by
  obtain ⟨-, h2, h3, h4⟩ := h
  simp only [Src.got] at h2 h3
  refine ⟨rfl, ?_, ?_, ?_⟩
  · rw [got_snoc, got_snoc, h2, numItems_append, ← h3]
    simp [items, numItems]
  · rw [got_snoc, List.flatMap_append, ← h3]
    simp [items]
  · simp only [List.map_append, h4, List.map_cons, List.map_nil]
    rfl

theorem Numd.idle {num : List ι → D → D'} {inc : D → List ι} {c : List ι} {rs t : List (Poll (Option D))}
    {rs' : List (Poll (Option D'))} {hist hist'} {w : Waker}
    (h : Numd num inc c ⟨t, hist⟩ ⟨rs', hist'⟩) :
    Numd num inc c ⟨rs, hist ++ [(w, .pending)]⟩ ⟨numScript num inc c rs, hist' ++ [(w, .pending)]⟩ := by
  obtain ⟨-, h2, h3, h4⟩ := h
  simp only [Src.got] at h2 h3
  refine ⟨rfl, ?_, ?_, ?_⟩
  · rw [got_snoc, got_snoc, h2]
    simp [items]
  · rw [got_snoc]
    simpa [items] using h3
  · simp only [List.map_append, h4, List.map_cons, List.map_nil]
    rfl

theorem Numd.over {num : List ι → D → D'} {inc : D → List ι} {c : List ι} {rs t : List (Poll (Option D))}
    {rs' : List (Poll (Option D'))} {hist hist'} {w : Waker}
    (h : Numd num inc c ⟨t, hist⟩ ⟨rs', hist'⟩) :
    Numd num inc c ⟨rs, hist ++ [(w, .ready none)]⟩ ⟨numScript num inc c rs, hist' ++ [(w, .ready none)]⟩ := by
  obtain ⟨-, h2, h3, h4⟩ := h
  simp only [Src.got] at h2 h3
  refine ⟨rfl, ?_, ?_, ?_⟩
  · rw [got_snoc, got_snoc, h2]
    simp [items]
  · rw [got_snoc]
    simpa [items] using h3
  · simp only [List.map_append, h4, List.map_cons, List.map_nil]
    rfl

/-! ## Loops -/

/-- What a loop body does, with the calls it leaves. -/
def Ctl.withCalls (c : List ι) : Ctl σ ρ → Ctl (σ × List ι) ρ
  | .cont s => .cont (s, c)
  | .ret s r => .ret (s, c) r
  | .panic => .panic

/-- A loop body with calls is the loop body without them on annotated items. -/
def Calls (num : List ι → D → D') (inc : D → List ι) (bodyF : σ × List ι → D → Ctl (σ × List ι) ρ)
    (body : σ → D' → Ctl σ ρ) : Prop :=
  ∀ s c d, bodyF (s, c) d = (body s (num c d)).withCalls (c ++ inc d)

theorem pollLoop_calls {num : List ι → D → D'} {inc : D → List ι}
    {bodyF : σ × List ι → D → Ctl (σ × List ι) ρ} {body : σ → D' → Ctl σ ρ} (hb : Calls num inc bodyF body)
    (w : Waker) (rs : List (Poll (Option D))) (c : List ι) (hist hist') (s : σ)
    (h : Numd num inc c ⟨rs, hist⟩ ⟨numScript num inc c rs, hist'⟩) :
    ∃ st s1 src1 c1 srcF, pollLoop w body (numScript num inc c rs) hist' s = (st, s1, src1) ∧
      pollLoop w bodyF rs hist (s, c) = (st, (s1, c1), srcF) ∧ (st ≠ .panic → Numd num inc c1 srcF src1) := by
  induction rs generalizing c hist hist' s with
  | nil => exact ⟨_, _, _, _, _, rfl, rfl, fun _ => h.idle (rs := [])⟩
  | cons r rs ih =>
    rcases r with ((_ | d) | _)
    · exact ⟨_, _, _, _, _, rfl, rfl, fun _ => h.over⟩
    · have hbd := hb s c d
      simp only [numScript, pollLoop]
      rw [hbd]
      cases hd : body s (num c d) with
      | cont s1 => exact ih _ _ _ _ h.snoc
      | ret s1 r => exact ⟨_, _, _, _, _, rfl, rfl, fun _ => h.snoc⟩
      | panic => exact ⟨_, _, _, _, _, rfl, rfl, fun h => absurd rfl h⟩
    · exact ⟨_, _, _, _, _, rfl, rfl, fun _ => h.idle⟩

/-- An optional input and the same input annotated. -/
structure INumd (num : List ι → D → D') (inc : D → List ι) (c : List ι) (i : Inp (Option D)) (i' : Inp (Option D')) :
    Prop where
  src : Numd num inc c i.src i'.src
  alive : i'.alive = i.alive

theorem inumd_mk' (num : List ι → D → D') (inc : D → List ι) (script : List (Poll (Option D))) :
    INumd num inc [] (Inp.mk' script) (Inp.mk' (numScript num inc [] script)) := ⟨numd_mk' num inc script, rfl⟩

theorem Inp.loop_calls {num : List ι → D → D'} {inc : D → List ι}
    {bodyF : σ × List ι → D → Ctl (σ × List ι) ρ} {body : σ → D' → Ctl σ ρ} (hb : Calls num inc bodyF body)
    (w : Waker) {i : Inp (Option D)} {i' : Inp (Option D')} {c : List ι} (s : σ) (h : INumd num inc c i i') :
    ∃ st s1 i1 c1 iF, i'.loop w body s = (st, s1, i1) ∧ i.loop w bodyF (s, c) = (st, (s1, c1), iF) ∧
      (st ≠ .panic → INumd num inc c1 iF i1) := by
  obtain ⟨⟨todo, hist⟩, alive⟩ := i
  obtain ⟨⟨todo', hist'⟩, alive'⟩ := i'
  obtain ⟨hs, ha⟩ := h
  simp only at hs ha
  subst ha
  have ht := hs.todo
  simp only at ht
  subst ht
  cases alive' with
  | false => exact ⟨_, _, _, _, _, rfl, rfl, fun _ => ⟨hs, rfl⟩⟩
  | true =>
    obtain ⟨st, s1, src1, c1, srcF, h1, h2, h3⟩ := pollLoop_calls hb w todo c hist hist' s hs
    simp only [Inp.loop, Src.loop, h1, h2, if_true]
    cases st with
    | ended => exact ⟨_, _, _, _, _, rfl, rfl, fun h => ⟨h3 h, rfl⟩⟩
    | pending => exact ⟨_, _, _, _, _, rfl, rfl, fun h => ⟨h3 h, rfl⟩⟩
    | ret r => exact ⟨_, _, _, _, _, rfl, rfl, fun h => ⟨h3 h, rfl⟩⟩
    | panic => exact ⟨_, _, _, _, _, rfl, rfl, fun h => absurd rfl h⟩

/-! ## Runs -/

/-- The same answer up to `f`, and related states. -/
def SameUpTo {S S' β β' : Type} (f : β' → β) (R : S → S' → Prop) (o : Option (Poll (Option β) × S)) :
    Option (Poll (Option β') × S') → Prop
  | none => o = none
  | some (r, t') => ∃ t, o = some (r.mapItem f, t) ∧ R t t'

/-- Two poll functions that do the same up to `f` on the items and a relation of the states. -/
def Mimics {S S' β β' : Type} (f : β' → β) (R : S → S' → Prop) (poll : Waker → S → Option (Poll (Option β) × S))
    (poll' : Waker → S' → Option (Poll (Option β') × S')) : Prop :=
  ∀ w s s', R s s' → SameUpTo f R (poll w s) (poll' w s')

theorem run_mimics {S S' β β' : Type} {f : β' → β} {R : S → S' → Prop}
    {poll : Waker → S → Option (Poll (Option β) × S)} {poll' : Waker → S' → Option (Poll (Option β') × S')}
    (hm : Mimics f R poll poll') (ws : List Waker) (s : S) (s' : S') (h : R s s') :
    match run poll' ws s' with
    | none => run poll ws s = none
    | some (outs, t') => ∃ t, run poll ws s = some (outs.map (Poll.mapItem f), t) ∧ R t t' := by
  induction ws generalizing s s' with
  | nil => exact ⟨s, rfl, h⟩
  | cons w ws ih =>
    have := hm w s s' h
    simp only [run]
    rcases hp : poll' w s' with _ | ⟨r, t'⟩
    · rw [hp] at this
      simp only [SameUpTo] at this
      rw [this]
    · rw [hp] at this
      obtain ⟨t, h1, h2⟩ := this
      rw [h1]
      have ih := ih t t' h2
      rcases r with ((_ | b) | _)
      · exact ⟨t, rfl, h2⟩
      all_goals
        simp only [Poll.mapItem]
        rcases hr : run poll' ws t' with _ | ⟨outs, u'⟩
        · rw [hr] at ih
          simp only at ih
          rw [ih]
        · rw [hr] at ih
          obtain ⟨u, k1, k2⟩ := ih
          rw [k1]
          exact ⟨u, rfl, k2⟩

/-! ## The bodies -/

theorem MState.newF_eq (f : List ι → ι → List (Poll (Option β))) (w : Waker) (c : List ι) (v : ι) :
    MState.newF f w c v = (MState.new (byCall f) w (c, v)).map (fun x => (x.1, x.2, c ++ [v])) := by
  unfold MState.newF MState.new byCall
  dsimp only
  cases unwrapPoll (Src.poll w (Src.mk' (f c v))).1 <;> rfl

theorem mapNewAllF_eq (f : List ι → ι → List (Poll (Option β))) (w : Waker) (c vs : List ι) :
    mapNewAllF f w c vs = (mapNewAll (byCall f) w (callsOn c vs)).map (fun x => (x.1, x.2, c ++ vs)) := by
  induction vs generalizing c with
  | nil => simp [mapNewAllF, mapNewAll, callsOn]
  | cons v vs ih =>
    simp only [mapNewAllF, mapNewAll, callsOn, MState.newF_eq]
    cases MState.new (byCall f) w (c, v) with
    | none => rfl
    | some x =>
      simp only [Option.map_some, ih]
      cases mapNewAll (byCall f) w (callsOn (c ++ [v]) vs) with
      | none => rfl
      | some y => simp

theorem mapSignalBody_calls (f : List ι → ι → List (Poll (Option β))) (w : Waker) :
    Calls VecDiff.number VecDiff.payload (mapSignalBodyF f w) (mapSignalBody (byCall f) w) := by
  rintro ⟨signals, np⟩ c d
  cases d with
  | replace vs =>
    simp only [mapSignalBodyF, mapSignalBody, VecDiff.number, VecDiff.payload, mapNewAllF_eq]
    cases mapNewAll (byCall f) w (callsOn c vs) <;> rfl
  | insertAt i v =>
    simp only [mapSignalBodyF, mapSignalBody, VecDiff.number, VecDiff.payload, MState.newF_eq]
    cases MState.new (byCall f) w (c, v) with
    | none => rfl
    | some x =>
      simp only [Option.map_some]
      cases vInsert signals i x.2 <;> rfl
  | updateAt i v =>
    simp only [mapSignalBodyF, mapSignalBody, VecDiff.number, VecDiff.payload, MState.newF_eq]
    cases MState.new (byCall f) w (c, v) with
    | none => rfl
    | some x =>
      simp only [Option.map_some]
      cases vSet signals i x.2 <;> rfl
  | push v =>
    simp only [mapSignalBodyF, mapSignalBody, VecDiff.number, VecDiff.payload, MState.newF_eq]
    cases MState.new (byCall f) w (c, v) <;> rfl
  | move o n =>
    simp only [mapSignalBodyF, mapSignalBody, VecDiff.number, VecDiff.payload, List.append_nil]
    cases vRemove signals o with
    | none => rfl
    | some x =>
      dsimp only
      cases vInsert x.2 n x.1 <;> rfl
  | removeAt i =>
    simp only [mapSignalBodyF, mapSignalBody, VecDiff.number, VecDiff.payload, List.append_nil]
    cases vRemove signals i <;> rfl
  | pop =>
    simp only [mapSignalBodyF, mapSignalBody, VecDiff.number, VecDiff.payload, List.append_nil]
    rcases vPop signals with ⟨_ | x, l⟩ <;> rfl
  | clear => simp only [mapSignalBodyF, mapSignalBody, VecDiff.number, VecDiff.payload, List.append_nil, Ctl.withCalls]

theorem FCState.newF_eq (f : List α → α → List (Poll (Option Bool))) (w : Waker) (c : List α) (v : α) :
    FCState.newF f w c v = (FCState.new (byCall f) w (c, v)).map (fun x => (x, c ++ [v])) := by
  unfold FCState.newF FCState.new byCall
  dsimp only
  cases unwrapPoll (Src.poll w (Src.mk' (f c v))).1 <;> rfl

theorem FCState.new_value {g : α → List (Poll (Option Bool))} {w : Waker} {v : α} {x : FCState α}
    (h : FCState.new g w v = some x) : x.value = v := by
  unfold FCState.new at h
  dsimp only at h
  split at h <;> cases h
  rfl

theorem fcNewAllF_eq (f : List α → α → List (Poll (Option Bool))) (w : Waker) (c vs : List α) :
    fcNewAllF f w c vs = (fcNewAll (byCall f) w (callsOn c vs)).map (fun x => (x.1, x.2, c ++ vs)) := by
  induction vs generalizing c with
  | nil => simp [fcNewAllF, fcNewAll, callsOn]
  | cons v vs ih =>
    simp only [fcNewAllF, fcNewAll, callsOn, FCState.newF_eq]
    cases hx : FCState.new (byCall f) w (c, v) with
    | none => rfl
    | some x =>
      simp only [Option.map_some, ih, FCState.new_value hx]
      cases fcNewAll (byCall f) w (callsOn (c ++ [v]) vs) with
      | none => rfl
      | some y => simp

theorem filterSignalBody_calls (f : List α → α → List (Poll (Option Bool))) (w : Waker) :
    Calls VecDiff.number VecDiff.payload (filterSignalBodyF f w) (filterSignalBody (byCall f) w) := by
  rintro ⟨signals, np⟩ c d
  cases d with
  | replace vs =>
    simp only [filterSignalBodyF, filterSignalBody, VecDiff.number, VecDiff.payload, fcNewAllF_eq]
    cases fcNewAll (byCall f) w (callsOn c vs) <;> rfl
  | insertAt i v =>
    simp only [filterSignalBodyF, filterSignalBody, VecDiff.number, VecDiff.payload, FCState.newF_eq]
    cases hx : FCState.new (byCall f) w (c, v) with
    | none => rfl
    | some x =>
      simp only [Option.map_some, FCState.new_value hx]
      cases vInsert signals i x with
      | none => rfl
      | some l =>
        dsimp only
        cases x.isIn with
        | false => rfl
        | true =>
          simp only [if_true]
          cases fcFindIndex l i <;> rfl
  | updateAt i v =>
    simp only [filterSignalBodyF, filterSignalBody, VecDiff.number, VecDiff.payload, FCState.newF_eq]
    cases hx : FCState.new (byCall f) w (c, v) with
    | none => rfl
    | some x =>
      simp only [Option.map_some, FCState.new_value hx]
      cases signals[i]? with
      | none => rfl
      | some old =>
        dsimp only
        cases x.isIn <;> cases old.isIn <;> first | rfl |
          (simp only [if_true, if_false, Bool.false_eq_true]; cases fcFindIndex (signals.set i x) i <;> rfl)
  | push v =>
    simp only [filterSignalBodyF, filterSignalBody, VecDiff.number, VecDiff.payload, FCState.newF_eq]
    cases hx : FCState.new (byCall f) w (c, v) with
    | none => rfl
    | some x =>
      simp only [Option.map_some, FCState.new_value hx]
      cases x.isIn <;> rfl
  | move o n =>
    simp only [filterSignalBodyF, filterSignalBody, VecDiff.number, VecDiff.payload, List.append_nil]
    cases vRemove signals o with
    | none => rfl
    | some x =>
      dsimp only
      cases vInsert x.2 n x.1 with
      | none => rfl
      | some l =>
        dsimp only
        cases x.1.isIn with
        | false => rfl
        | true =>
          simp only [if_true]
          cases fcFindIndex l o <;> cases fcFindIndex l n <;> rfl
  | removeAt i =>
    simp only [filterSignalBodyF, filterSignalBody, VecDiff.number, VecDiff.payload, List.append_nil]
    cases vRemove signals i with
    | none => rfl
    | some x =>
      dsimp only
      cases x.1.isIn with
      | false => rfl
      | true =>
        simp only [if_true]
        cases fcFindIndex x.2 i <;> rfl
  | pop =>
    simp only [filterSignalBodyF, filterSignalBody, VecDiff.number, VecDiff.payload, List.append_nil]
    rcases vPop signals with ⟨_ | x, l⟩
    · rfl
    · dsimp only
      cases x.isIn <;> rfl
  | clear =>
    simp only [filterSignalBodyF, filterSignalBody, VecDiff.number, VecDiff.payload, List.append_nil, Ctl.withCalls]

theorem mapFutureBody_calls (f : List α → α → List (Poll β)) :
    Calls (fun c v => (c, v)) (fun v => [v]) (mapFutureBodyF f) (mapFutureBody (byCall f)) := fun _ _ _ => rfl

theorem delayNewAllF_eq (f : List α → α → List (Poll Unit)) (c vs : List α) :
    delayNewAllF f c vs = ((callsOn c vs).map (DState.new (byCall f)), c ++ vs) := by
  induction vs generalizing c with
  | nil => simp [delayNewAllF, callsOn]
  | cons v vs ih =>
    simp only [delayNewAllF, callsOn, ih]
    simp [DState.newF, DState.new, byCall]

theorem goOnF_eq (c : List α) (o : Option σ) : goOnF c o = (goOn o).withCalls c := by
  cases o <;> rfl

theorem map_tag_new (g : α → List (Poll Unit)) (vs : List α) : (vs.map (DState.new g)).map (·.tag) = vs := by
  induction vs with
  | nil => rfl
  | cons v vs ih => simpa [DState.new] using ih

theorem delayBody_calls (f : List α → α → List (Poll Unit)) (w : Waker) :
    Calls VecDiff.number VecDiff.payload (delayBodyF f w) (delayBody (byCall f) w) := by
  rintro v c d
  cases d with
  | replace vs =>
    simp only [delayBodyF, delayBody, VecDiff.number, VecDiff.payload, delayNewAllF_eq]
    split
    · simp only [Ctl.withCalls, map_tag_new]
    · cases v.removeExisting w with
      | none => rfl
      | some v =>
        have := map_tag_new (byCall f) (callsOn c vs)
        simp only [Ctl.withCalls, List.map_map, Function.comp_def, DState.new]
  | insertAt i x =>
    simp only [delayBodyF, delayBody, VecDiff.number, VecDiff.payload]
    have : DState.newF f c x = DState.new (byCall f) (c, x) := rfl
    rw [this]
    cases vInsert v.futures ((findLive v.futures i).getD v.futures.length) (DState.new (byCall f) (c, x)) <;> rfl
  | push x => rfl
  | updateAt i x =>
    simp only [delayBodyF, delayBody, VecDiff.number, VecDiff.payload]
    have : DState.newF f c x = DState.new (byCall f) (c, x) := rfl
    rw [this]
    cases findLive v.futures i with
    | none => rfl
    | some j =>
      dsimp only
      cases vSet v.futures j (DState.new (byCall f) (c, x)) <;> rfl
  | move o n =>
    simp only [delayBodyF, delayBody, VecDiff.number, VecDiff.payload, List.append_nil]
    cases findLive v.futures o with
    | none => rfl
    | some j =>
      dsimp only
      cases vRemove v.futures j with
      | none => rfl
      | some x =>
        dsimp only
        cases vInsert x.2 ((findLive x.2 n).getD x.2.length) x.1 <;> rfl
  | removeAt i =>
    simp only [delayBodyF, delayBody, VecDiff.number, VecDiff.payload, List.append_nil, goOnF_eq]
    cases findLive v.futures i <;> rfl
  | pop =>
    simp only [delayBodyF, delayBody, VecDiff.number, VecDiff.payload, List.append_nil, goOnF_eq]
    cases findLastLive v.futures <;> rfl
  | clear => simp only [delayBodyF, delayBody, VecDiff.number, VecDiff.payload, List.append_nil, goOnF_eq]

theorem newEntriesF_eq {K V : Type} [LinearOrder K] (f : List V → V → List (Poll (Option β))) (w : Waker) (c : List V)
    (es : List (K × V)) (ss : List (K × MState (List V × V) β)) :
    newEntriesF f w c es ss =
      (newEntries (byCall f) w (callsOnEntries c es) ss).map (fun x => (x.1, x.2, c ++ es.map (·.2))) := by
  induction es generalizing c ss with
  | nil => simp [newEntriesF, newEntries, callsOnEntries]
  | cons e es ih =>
    simp only [newEntriesF, newEntries, callsOnEntries, MState.newF_eq]
    cases MState.new (byCall f) w (c, e.2) with
    | none => rfl
    | some x =>
      simp only [Option.map_some, ih]
      cases newEntries (byCall f) w (callsOnEntries (c ++ [e.2]) es) (bInsert e.1 x.2 ss).2 with
      | none => rfl
      | some y => simp

theorem mapValueBody_calls {K V : Type} [LinearOrder K] (f : List V → V → List (Poll (Option β))) (w : Waker) :
    Calls (D := MapDiff K V) MapDiff.number MapDiff.payload (mapValueBodyF f w) (mapValueBody (byCall f) w) := by
  rintro ⟨signals, np⟩ c d
  cases d with
  | replace es =>
    simp only [mapValueBodyF, mapValueBody, MapDiff.number, MapDiff.payload, newEntriesF_eq]
    cases newEntries (byCall f) w (callsOnEntries c es) [] <;> rfl
  | insert k v =>
    simp only [mapValueBodyF, mapValueBody, MapDiff.number, MapDiff.payload, MState.newF_eq]
    cases MState.new (byCall f) w (c, v) <;> rfl
  | update k v =>
    simp only [mapValueBodyF, mapValueBody, MapDiff.number, MapDiff.payload, MState.newF_eq]
    cases MState.new (byCall f) w (c, v) with
    | none => rfl
    | some x =>
      simp only [Option.map_some]
      cases bUpdate k x.2 signals <;> rfl
  | remove k => simp only [mapValueBodyF, mapValueBody, MapDiff.number, MapDiff.payload, List.append_nil, Ctl.withCalls]
  | clear => simp only [mapValueBodyF, mapValueBody, MapDiff.number, MapDiff.payload, List.append_nil, Ctl.withCalls]

/-! ## The polls -/

/-- The states of `map_signal` with and without calls. -/
structure VMapSignalF.Sim (s : VMapSignalF ι β) (s' : VMapSignal (List ι × ι) β) : Prop where
  signal : INumd VecDiff.number VecDiff.payload s.calls s.signal s'.signal
  signals : s'.signals = s.signals
  pending : s'.pending = s.pending

theorem Poll.mapItem_id (r : Poll (Option β)) : r.mapItem id = r := by
  rcases r with ((_ | b) | _) <;> rfl

theorem VMapSignalF.mimics (f : List ι → ι → List (Poll (Option β))) :
    Mimics id VMapSignalF.Sim (VMapSignalF.poll f) (VMapSignal.poll (byCall f)) := by
  rintro w ⟨i, signals, pending, c⟩ ⟨i', signals', pending'⟩ ⟨h1, h2, h3⟩
  simp only at h1 h2 h3
  subst h2 h3
  unfold VMapSignalF.poll VMapSignal.poll
  cases pending' with
  | cons d rest => exact ⟨_, rfl, h1, rfl, rfl⟩
  | nil =>
    obtain ⟨st, ⟨ss, np⟩, i1, c1, iF, k1, k2, k3⟩ := Inp.loop_calls (mapSignalBody_calls f w) w (signals', []) h1
    simp only [k1, k2]
    cases st with
    | panic => rfl
    | ret r => exact r.elim
    | ended =>
      have k3 := k3 (by simp)
      simp only [VMapSignal.finish, VMapSignalF.finish]
      rcases pollSignals w 0 np ss with ⟨hp, _ | ⟨a, l⟩, ss'⟩
      · cases hp <;> exact ⟨_, rfl, k3, rfl, rfl⟩
      · exact ⟨_, rfl, k3, rfl, rfl⟩
    | pending =>
      have k3 := k3 (by simp)
      simp only [VMapSignal.finish, VMapSignalF.finish]
      rcases pollSignals w 0 np ss with ⟨hp, _ | ⟨a, l⟩, ss'⟩
      · cases hp <;> exact ⟨_, rfl, k3, rfl, rfl⟩
      · exact ⟨_, rfl, k3, rfl, rfl⟩

/-- The states of `filter_signal_cloned` with and without calls. -/
structure VFilterSignalF.Sim (s : VFilterSignalF α) (s' : VFilterSignal (List α × α)) : Prop where
  signal : INumd VecDiff.number VecDiff.payload s.calls s.signal s'.signal
  signals : s'.signals = s.signals
  pending : s'.pending = s.pending

theorem VFilterSignalF.mimics (f : List α → α → List (Poll (Option Bool))) :
    Mimics VecDiff.bare VFilterSignalF.Sim (VFilterSignalF.poll f) (VFilterSignal.poll (byCall f)) := by
  rintro w ⟨i, signals, pending, c⟩ ⟨i', signals', pending'⟩ ⟨h1, h2, h3⟩
  simp only at h1 h2 h3
  subst h2 h3
  unfold VFilterSignalF.poll VFilterSignal.poll
  cases pending' with
  | cons d rest => exact ⟨_, rfl, h1, rfl, rfl⟩
  | nil =>
    obtain ⟨st, ⟨ss, np⟩, i1, c1, iF, k1, k2, k3⟩ := Inp.loop_calls (filterSignalBody_calls f w) w (signals', []) h1
    simp only [k1, k2]
    cases st with
    | panic => rfl
    | ret r => exact r.elim
    | ended =>
      have k3 := k3 (by simp)
      simp only [VFilterSignal.finish, VFilterSignalF.finish]
      rcases drainSignals w 0 np ss with ⟨hp, _ | ⟨a, l⟩, ss'⟩
      · cases hp <;> exact ⟨_, rfl, k3, rfl, rfl⟩
      · exact ⟨_, rfl, k3, rfl, rfl⟩
    | pending =>
      have k3 := k3 (by simp)
      simp only [VFilterSignal.finish, VFilterSignalF.finish]
      rcases drainSignals w 0 np ss with ⟨hp, _ | ⟨a, l⟩, ss'⟩
      · cases hp <;> exact ⟨_, rfl, k3, rfl, rfl⟩
      · exact ⟨_, rfl, k3, rfl, rfl⟩

/-- The states of `map_future` with and without calls. -/
structure SMapFutureF.Sim (s : SMapFutureF α β) (s' : SMapFuture (List α × α) β) : Prop where
  signal : INumd (fun c v => (c, v)) (fun v => [v]) s.calls s.signal s'.signal
  future : s'.future = s.future
  first : s'.first = s.first
  old : s'.old = s.old

theorem SMapFutureF.finish_sim (w : Waker) (done : Bool) {s : SMapFutureF α β} {s' : SMapFuture (List α × α) β}
    (h : SMapFutureF.Sim s s') : ∃ r t t', SMapFuture.finish w done s' = (r, t') ∧
      SMapFutureF.finish w done s = (r, t) ∧ SMapFutureF.Sim t t' := by
  obtain ⟨i, future, first, old, c⟩ := s
  obtain ⟨i', future', first', old'⟩ := s'
  obtain ⟨h1, h2, h3, h4⟩ := h
  simp only at h1 h2 h3 h4
  subst h2 h3 h4
  unfold SMapFuture.finish SMapFutureF.finish
  cases future' with
  | none => cases first' <;> cases done <;> exact ⟨_, _, _, rfl, rfl, h1, rfl, rfl, rfl⟩
  | some x =>
    dsimp only
    rcases x.src.poll w with ⟨b | _, src⟩
    · exact ⟨_, _, _, rfl, rfl, h1, rfl, rfl, rfl⟩
    · cases first' <;> exact ⟨_, _, _, rfl, rfl, h1, rfl, rfl, rfl⟩

theorem SMapFutureF.mimics (f : List α → α → List (Poll β)) :
    Mimics id SMapFutureF.Sim (SMapFutureF.poll f) (SMapFuture.poll (byCall f)) := by
  rintro w ⟨i, future, first, old, c⟩ ⟨i', future', first', old'⟩ ⟨h1, h2, h3, h4⟩
  simp only at h1 h2 h3 h4
  subst h2 h3 h4
  unfold SMapFutureF.poll SMapFuture.poll
  obtain ⟨st, ⟨fu, ol⟩, i1, c1, iF, k1, k2, k3⟩ :=
    Inp.loop_calls (mapFutureBody_calls f) w (future', old') h1
  simp only [k1, k2]
  have go : ∀ done, INumd (fun c v => (c, v)) (fun v => [v]) c1 iF i1 →
      ∃ t, some (SMapFutureF.finish w done ⟨iF, fu, first', ol, c1⟩) =
        some ((SMapFuture.finish w done ⟨i1, fu, first', ol⟩).1.mapItem id, t) ∧
        SMapFutureF.Sim t (SMapFuture.finish w done ⟨i1, fu, first', ol⟩).2 := by
    intro done hi
    obtain ⟨r, t, t', g1, g2, g3⟩ := SMapFutureF.finish_sim w done (s := ⟨iF, fu, first', ol, c1⟩)
      (s' := ⟨i1, fu, first', ol⟩) ⟨hi, rfl, rfl, rfl⟩
    rw [g1, g2]
    exact ⟨t, by rw [Poll.mapItem_id], g3⟩
  cases st with
  | panic => rfl
  | ret r => exact r.elim
  | ended => exact go true (k3 (by simp))
  | pending => exact go false (k3 (by simp))

/-- The states of `delay_remove` with and without calls. -/
structure VDelayF.Sim (s : VDelayF α) (s' : VDelay (List α × α)) : Prop where
  signal : INumd VecDiff.number VecDiff.payload s.calls s.signal s'.signal
  futures : s'.futures = s.futures
  pending : s'.pending = s.pending
  gone : s'.gone = s.gone

theorem VDelayF.finish_sim (w : Waker) (done : Bool) {i : Inp (Option (VecDiff α))}
    {i' : Inp (Option (VecDiff (List α × α)))} {c : List α}
    (h : INumd VecDiff.number VecDiff.payload c i i') (v : DVars (List α × α)) :
    SameUpTo VecDiff.bare VDelayF.Sim (VDelayF.finish w done i v c) (VDelay.finish w done i' v) := by
  unfold VDelay.finish VDelayF.finish
  dsimp only
  generalize DVars.removeAll ⟨(pollRemoving w v.futures).1.map (·.1), v.newPending, v.gone⟩
    (indexesOf 0 (pollRemoving w v.futures).1).reverse = o
  rcases o with _ | ⟨fs, _ | ⟨d, np⟩, gone⟩
  · rfl
  · dsimp only
    cases done && !(pollRemoving w v.futures).2 <;> exact ⟨_, rfl, h, rfl, rfl, rfl⟩
  · exact ⟨_, rfl, h, rfl, rfl, rfl⟩

theorem VDelayF.mimics (f : List α → α → List (Poll Unit)) :
    Mimics VecDiff.bare VDelayF.Sim (VDelayF.poll f) (VDelay.poll (byCall f)) := by
  rintro w ⟨i, futures, pending, gone, c⟩ ⟨i', futures', pending', gone'⟩ ⟨h1, h2, h3, h4⟩
  simp only at h1 h2 h3 h4
  subst h2 h3 h4
  unfold VDelayF.poll VDelay.poll
  cases pending' with
  | cons d rest => exact ⟨_, rfl, h1, rfl, rfl, rfl⟩
  | nil =>
    obtain ⟨st, v, i1, c1, iF, k1, k2, k3⟩ := Inp.loop_calls (delayBody_calls f w) w ⟨futures', [], gone'⟩ h1
    simp only [k1, k2]
    cases st with
    | panic => rfl
    | ret r => exact r.elim
    | ended =>
      have := VDelayF.finish_sim w true (k3 (by simp)) v
      dsimp only
      exact this
    | pending =>
      have := VDelayF.finish_sim w false (k3 (by simp)) v
      dsimp only
      exact this

/-- The states of `map_value_signal` with and without calls. -/
structure MMapSignalF.Sim {K V : Type} (s : MMapSignalF K V β) (s' : MMapSignal K (List V × V) β) : Prop where
  signal : INumd MapDiff.number MapDiff.payload s.calls s.signal s'.signal
  signals : s'.signals = s.signals
  pending : s'.pending = s.pending

theorem MMapSignalF.mimics {K V : Type} [LinearOrder K] (f : List V → V → List (Poll (Option β))) :
    Mimics id MMapSignalF.Sim (MMapSignalF.poll (K := K) f) (MMapSignal.poll (byCall f)) := by
  rintro w ⟨i, signals, pending, c⟩ ⟨i', signals', pending'⟩ ⟨h1, h2, h3⟩
  simp only at h1 h2 h3
  subst h2 h3
  unfold MMapSignalF.poll MMapSignal.poll
  cases pending' with
  | cons d rest => exact ⟨_, rfl, h1, rfl, rfl⟩
  | nil =>
    obtain ⟨st, ⟨ss, np⟩, i1, c1, iF, k1, k2, k3⟩ := Inp.loop_calls (mapValueBody_calls f w) w (signals', []) h1
    simp only [k1, k2]
    cases st with
    | panic => rfl
    | ret r => exact r.elim
    | ended =>
      have k3 := k3 (by simp)
      simp only [MMapSignal.finish, MMapSignalF.finish]
      rcases pollEntries w np ss with ⟨hp, _ | ⟨a, l⟩, ss'⟩
      · cases hp <;> exact ⟨_, rfl, k3, rfl, rfl⟩
      · exact ⟨_, rfl, k3, rfl, rfl⟩
    | pending =>
      have k3 := k3 (by simp)
      simp only [MMapSignal.finish, MMapSignalF.finish]
      rcases pollEntries w np ss with ⟨hp, _ | ⟨a, l⟩, ss'⟩
      · cases hp <;> exact ⟨_, rfl, k3, rfl, rfl⟩
      · exact ⟨_, rfl, k3, rfl, rfl⟩

/-! ## `switch_signal_vec`

The callback is called on the last of the values that arrive together. -/

/-- The calls made, and the last value since, after an answer of the input. -/
def afterAnswer (x : List τ × Option τ) : Poll (Option τ) → List τ × Option τ
  | .ready (some v) => (x.1, some v)
  | .ready none => (x.1 ++ x.2.toList, none)
  | .pending => (x.1 ++ x.2.toList, none)

/-- For answers of an input: the last one of the values between two `Pending`s. -/
def lastOfEach (rs : List (Poll (Option τ))) : List τ := (rs.foldl afterAnswer ([], none)).1

/-- A script whose values are annotated with the last values of the batches before. -/
def batchScript : List τ → Option τ → List (Poll (Option τ)) → List (Poll (Option (List τ × τ)))
  | _, _, [] => []
  | c, last, .pending :: rs => .pending :: batchScript (c ++ last.toList) none rs
  | c, last, .ready none :: rs => .ready none :: batchScript (c ++ last.toList) none rs
  | c, _, .ready (some v) :: rs => .ready (some (c, v)) :: batchScript c (some v) rs

/-- An input and the same input annotated by batches. -/
structure Batched (c : List τ) (l : Option τ) (s : Src (Option τ)) (s' : Src (Option (List τ × τ))) : Prop where
  todo : s'.todo = batchScript c l s.todo
  got : s'.got.map Prod.snd = s.got
  hist : s'.hist.map (fun x => (x.1, x.2.kind)) = s.hist.map (fun x => (x.1, x.2.kind))
  calls : (s.hist.map (·.2)).foldl afterAnswer ([], none) = (c, l)

theorem Batched.item {c : List τ} {l : Option τ} {v : τ} {rs : List (Poll (Option τ))} {rs' hist hist'} {w : Waker}
    (h : Batched c l ⟨.ready (some v) :: rs, hist⟩ ⟨rs', hist'⟩) :
    Batched c (some v) ⟨rs, hist ++ [(w, .ready (some v))]⟩
      ⟨batchScript c (some v) rs, hist' ++ [(w, .ready (some (c, v)))]⟩ := by
  obtain ⟨-, h2, h3, h4⟩ := h
  simp only [Src.got] at h2
  refine ⟨rfl, ?_, ?_, ?_⟩
  · rw [got_snoc, got_snoc, List.map_append, h2]
    simp [items]
  · simp only [List.map_append, h3, List.map_cons, List.map_nil]
    rfl
  · simp only [List.map_append, List.foldl_append, h4]
    rfl

theorem Batched.idle {c : List τ} {l : Option τ} {rs t : List (Poll (Option τ))} {rs' hist hist'} {w : Waker}
    (h : Batched c l ⟨t, hist⟩ ⟨rs', hist'⟩) :
    Batched (c ++ l.toList) none ⟨rs, hist ++ [(w, .pending)]⟩
      ⟨batchScript (c ++ l.toList) none rs, hist' ++ [(w, .pending)]⟩ := by
  obtain ⟨-, h2, h3, h4⟩ := h
  simp only [Src.got] at h2
  refine ⟨rfl, ?_, ?_, ?_⟩
  · rw [got_snoc, got_snoc, List.map_append, h2]
    simp [items]
  · simp only [List.map_append, h3, List.map_cons, List.map_nil]
    rfl
  · simp only [List.map_append, List.foldl_append, h4]
    rfl

theorem Batched.over {c : List τ} {l : Option τ} {rs t : List (Poll (Option τ))} {rs' hist hist'} {w : Waker}
    (h : Batched c l ⟨t, hist⟩ ⟨rs', hist'⟩) :
    Batched (c ++ l.toList) none ⟨rs, hist ++ [(w, .ready none)]⟩
      ⟨batchScript (c ++ l.toList) none rs, hist' ++ [(w, .ready none)]⟩ := by
  obtain ⟨-, h2, h3, h4⟩ := h
  simp only [Src.got] at h2
  refine ⟨rfl, ?_, ?_, ?_⟩
  · rw [got_snoc, got_snoc, List.map_append, h2]
    simp [items]
  · simp only [List.map_append, h3, List.map_cons, List.map_nil]
    rfl
  · simp only [List.map_append, List.foldl_append, h4]
    rfl

theorem pollLoop_batch (w : Waker) (rs : List (Poll (Option τ))) (c : List τ) (l : Option τ) (hist hist')
    (h : Batched c l ⟨rs, hist⟩ ⟨batchScript c l rs, hist'⟩) :
    ∃ (st : Stop Empty) (v : Option τ) (src : Src (Option τ)) (src' : Src (Option (List τ × τ))),
      pollLoop w lastValue rs hist l = (st, v, src) ∧
      pollLoop w lastValue (batchScript c l rs) hist' (l.map fun v => (c, v)) = (st, v.map (fun v => (c, v)), src') ∧
      (st = .ended ∨ st = .pending) ∧ Batched (c ++ v.toList) none src src' := by
  induction rs generalizing l hist hist' with
  | nil => exact ⟨_, _, _, _, rfl, rfl, .inr rfl, h.idle (rs := [])⟩
  | cons r rs ih =>
    rcases r with ((_ | v) | _)
    · exact ⟨_, _, _, _, rfl, rfl, .inl rfl, h.over⟩
    · simp only [batchScript, pollLoop, lastValue]
      exact ih _ _ _ h.item
    · exact ⟨_, _, _, _, rfl, rfl, .inr rfl, h.idle⟩

/-- The states of `switch_signal_vec` with and without calls. -/
structure VSwitchF.Sim (s : VSwitchF τ α) (s' : VSwitch (List τ × τ) α) : Prop where
  signal : Batched s.calls none s.signal.src s'.signal.src
  alive : s'.signal.alive = s.signal.alive
  inner : s'.inner = s.inner
  len : s'.len = s.len
  cur : s'.cur = s.cur
  calls : s.calls = match s.cur with
    | none => []
    | some (c, v) => c ++ [v]

theorem VSwitchF.finish_sim (f : List τ → τ → List (Poll (Option (VecDiff α)))) (w : Waker) (done : Bool)
    {s : VSwitchF τ α} {s' : VSwitch (List τ × τ) α} (h : VSwitchF.Sim s s') (v : Option τ)
    {i : Inp (Option τ)} {i' : Inp (Option (List τ × τ))} (hi : Batched (s.calls ++ v.toList) none i.src i'.src)
    (ha : i'.alive = i.alive) :
    SameUpTo id VSwitchF.Sim (VSwitchF.finish f w done v i s)
      (VSwitch.finish (byCall f) w done (v.map fun v => (s.calls, v)) i' s') := by
  obtain ⟨j, inner, len, cur, calls⟩ := s
  obtain ⟨j', inner', len', cur'⟩ := s'
  obtain ⟨-, -, h3, h4, h5, h6⟩ := h
  simp only at h3 h4 h5 h6
  subst h3 h4 h5
  cases v with
  | none =>
    simp only [Option.toList_none, List.append_nil] at hi
    simp only [VSwitch.finish, VSwitchF.finish, Option.map_none]
    rcases inner'.poll w with ⟨_ | ((_ | d) | _), inn⟩
    · cases done <;> exact ⟨_, rfl, hi, ha, rfl, rfl, rfl, h6⟩
    · cases done <;> exact ⟨_, rfl, hi, ha, rfl, rfl, rfl, h6⟩
    · dsimp only
      cases calculateLen len' d with
      | none => rfl
      | some n => exact ⟨_, rfl, hi, ha, rfl, rfl, rfl, h6⟩
    · exact ⟨_, rfl, hi, ha, rfl, rfl, rfl, h6⟩
  | some v =>
    simp only [Option.toList_some] at hi
    simp only [VSwitch.finish, VSwitchF.finish, Option.map_some, byCall]
    rcases (Inp.mk' (f calls v)).poll w with ⟨_ | ((_ | d) | _), inn⟩
    · cases done
      · exact ⟨_, by rw [Poll.mapItem_id]; rfl, hi, ha, rfl, rfl, rfl, rfl⟩
      · exact ⟨_, rfl, hi, ha, rfl, rfl, rfl, rfl⟩
    · cases done
      · exact ⟨_, by rw [Poll.mapItem_id]; rfl, hi, ha, rfl, rfl, rfl, rfl⟩
      · exact ⟨_, rfl, hi, ha, rfl, rfl, rfl, rfl⟩
    · dsimp only
      by_cases hl : len' = 0
      · simp only [if_pos hl]
        cases calculateLen len' d with
        | none => rfl
        | some n => exact ⟨_, rfl, hi, ha, rfl, rfl, rfl, rfl⟩
      · simp only [if_neg hl]
        cases d.apply [] with
        | none => rfl
        | some n => exact ⟨_, rfl, hi, ha, rfl, rfl, rfl, rfl⟩
    · exact ⟨_, by rw [Poll.mapItem_id], hi, ha, rfl, rfl, rfl, rfl⟩

theorem VSwitchF.mimics (f : List τ → τ → List (Poll (Option (VecDiff α)))) :
    Mimics id VSwitchF.Sim (VSwitchF.poll f) (VSwitch.poll (byCall f)) := by
  intro w s s' h
  have hs := h.signal
  have ha := h.alive
  unfold VSwitchF.poll VSwitch.poll
  have ht := hs.todo
  rcases hs1 : s.signal with ⟨⟨todo, hist⟩, alive⟩
  rcases hs2 : s'.signal with ⟨⟨todo', hist'⟩, alive'⟩
  rw [hs1, hs2] at hs ha ht
  simp only at hs ha ht
  subst ha ht
  cases alive' with
  | false =>
    simp only [Inp.loop, Bool.false_eq_true, if_false]
    have := VSwitchF.finish_sim f w true h none (i := ⟨⟨todo, hist⟩, false⟩)
      (i' := ⟨⟨batchScript s.calls none todo, hist'⟩, false⟩) (by simpa using hs) rfl
    exact this
  | true =>
    obtain ⟨st, v, src, src', k1, k2, k3, k4⟩ := pollLoop_batch w todo s.calls none hist hist' hs
    simp only [Option.map_none] at k2
    simp only [Inp.loop, if_true, Src.loop, k1, k2]
    rcases k3 with rfl | rfl
    · exact VSwitchF.finish_sim f w true h v (i := ⟨src, false⟩) (i' := ⟨src', false⟩) k4 rfl
    · exact VSwitchF.finish_sim f w false h v (i := ⟨src, true⟩) (i' := ⟨src', true⟩) k4 rfl

end Verif
