import Verif.Expr
import Verif.FlowProofs
import Verif.FlattenStage
import Verif.ChainStage
import Verif.EnumStage
import Verif.SourceBc
import Verif.SinkProofs
import Verif.Props.SignalA
import Verif.Props.SignalB
import Verif.Props.SignalB2
import Verif.Props.SignalMap
import Verif.Props.SignalVecSwitch

/-!
# Proofs about expressions made of combinators of all three kinds: the combinators
-/

namespace Verif

variable {α β γ ι σ : Type}

/-! ## Traces -/

theorem run_head {poll : Waker → σ → Option (Poll (Option β) × σ)} {w : Waker} {ws : List Waker}
    {s0 s : σ} {r : Poll (Option β)} {outs : List (Poll (Option β))}
    (h : run poll (w :: ws) s0 = some (r :: outs, s)) : ∃ s1, poll w s0 = some (r, s1) := by
  simp only [run] at h
  split at h
  · cases h
  · rename_i hp; cases h; exact ⟨_, hp⟩
  · rename_i r' s1 hr hp
    split at h
    · cases h
    · cases h; exact ⟨s1, hp⟩

theorem items_nil_mem {l : List (Poll (Option α))} {a : α} (h : items l = []) :
    .ready (some a) ∉ l := by
  induction l with
  | nil => simp
  | cons r l ih =>
    match r with
    | .ready (some b) => simp at h
    | .ready none => simpa using ih (by simpa using h)
    | .pending => simpa using ih (by simpa using h)

/-- If an input gives a value at its first poll, so does the combinator. -/
theorem good_of_first {t : SigTrace β} {u : SigTrace α} (hu : (Ty.sig α).Good u)
    (hrest : ∀ o, Rest o t → u ≠ [])
    (hitems : u = [] → items (t.map (·.2)) = [])
    (hfirst : ∀ w a u' w' r t', u = (w, .ready (some a)) :: u' → t = (w', r) :: t' →
      ∃ b, r = .ready (some b)) : (Ty.sig β).Good t := by
  match t with
  | [] => exact .inl rfl
  | (w, r) :: t' =>
    right
    rcases hu with rfl | ⟨a, hu⟩
    · exfalso
      have hi := hitems rfl
      obtain ⟨⟨x, q⟩, hq⟩ : ∃ q, ((w, r) :: t').getLast? = some q := ⟨_, List.getLast?_cons⟩
      match q with
      | .pending => exact hrest (some x) (.inl ⟨x, rfl, hq⟩) rfl
      | .ready none => exact hrest none (.inr ⟨x, hq⟩) rfl
      | .ready (some b) =>
        exact items_nil_mem hi (List.mem_of_getLast? (by rw [List.getLast?_map, hq]; rfl))
    · match u with
      | [] => simp at hu
      | (w', r') :: u' =>
        simp only [List.head?_cons, Option.map_some, Option.some.injEq] at hu
        subst hu
        obtain ⟨b, rfl⟩ := hfirst _ _ _ _ _ _ rfl rfl
        exact ⟨b, rfl⟩

section

variable {A B : Type} {poll : Waker → σ → Option (Poll (Option B) × σ)}
  {init : List (Poll (Option A)) → σ} {input : σ → Src (Option A)}
  {u : List (Waker × Poll (Option A))} {t : List (Waker × Poll (Option B))}

theorem Rel.rest (h : Rel poll init input u t) (hp : Polite poll input (init (u.map (·.2))))
    {o : Option Waker} (hr : Rest o t) : Rest o u := by
  obtain ⟨s, h1, h2⟩ := h
  obtain ⟨f1, f2, f3⟩ := hp _ _ _ h1
  rw [← h2]
  refine Src.rest f1 ?_
  rcases rest_cases hr with ⟨x, ho, c1, c2⟩ | c
  · exact .inr ⟨x, ho, f3 x c1 c2⟩
  · exact .inl (f2 c)

end

theorem rest_ne {o : Option Waker} {u : List (Waker × Poll (Option α))} (h : Rest o u) : u ≠ [] := by
  rintro rfl
  rcases h with ⟨x, -, h⟩ | ⟨y, h⟩ <;> simp at h

/-- A combinator with one signal as its input and one signal as its output. -/
theorem sig_stage {poll : Waker → σ → Option (Poll (Option β) × σ)}
    {init : List (Poll (Option α)) → σ} {input : σ → Src (Option α)}
    {u : SigTrace α} {t : SigTrace β} (h : Rel poll init input u t)
    (hp : Polite poll input (init (u.map (·.2)))) {F : α → β}
    (hlast : ∀ s, run poll (t.map (·.1)) (init (u.map (·.2))) = some (t.map (·.2), s) →
      t.last = (input s).got.getLast?.map F)
    (hfirst : ∀ a rest w r s, poll w (init (.ready (some a) :: rest)) = some (r, s) →
      ∃ b, r = .ready (some b))
    (hu : (Ty.sig α).Good u) :
    (Ty.sig β).Good t ∧ t.last = u.last.map F ∧ ∀ o, Rest o t → Rest o u := by
  have hr : ∀ o, Rest o t → Rest o u := fun o => h.rest hp
  obtain ⟨s, h1, h2⟩ := h
  have hl : t.last = u.last.map F := by
    rw [hlast s h1, Src.got, h2]; rfl
  refine ⟨good_of_first hu (fun o ho => rest_ne (hr o ho)) ?_ ?_, hl, hr⟩
  · rintro rfl
    simpa [SigTrace.last] using hl
  · rintro w a u' w' r t' rfl rfl
    obtain ⟨s1, hs⟩ := run_head h1
    exact hfirst _ _ _ _ _ hs

/-- A combinator that makes one poll for each poll. -/
theorem mapped_stage {u : SigTrace α} {t : SigTrace β} {F : α → β}
    (h : t = u.mapped F) (hu : (Ty.sig α).Good u) :
    (Ty.sig β).Good t ∧ t.last = u.last.map F ∧ ∀ o, Rest o t → Rest o u := by
  subst h
  refine ⟨?_, mapped_last F u, fun o => (rest_map F o u).1⟩
  rcases hu with rfl | ⟨a, hu⟩
  · exact .inl rfl
  · match u with
    | [] => simp at hu
    | (w', r') :: u' =>
      simp only [List.head?_cons, Option.map_some, Option.some.injEq] at hu
      subst hu
      exact .inr ⟨F a, rfl⟩

theorem pairs_ext {X Y : Type} {t u : List (X × Y)} (h1 : t.map (·.1) = u.map (·.1))
    (h2 : t.map (·.2) = u.map (·.2)) : t = u := by
  induction t generalizing u with
  | nil => exact (List.map_eq_nil_iff.1 h1.symm).symm
  | cons q t ih =>
    match u with
    | [] => simp at h1
    | q' :: u =>
      simp only [List.map_cons, List.cons.injEq] at h1 h2
      rw [Prod.ext h1.1 h2.1, ih h1.2 h2.2]

theorem take_wakers (t : List (Waker × Poll (Option γ))) :
    (t.map (·.1)).take (t.map (·.2)).length = t.map (·.1) := by
  rw [List.length_map, ← List.length_map (·.1), List.take_length]

theorem map_stage {f : α → β} {u : SigTrace α} {t : SigTrace β}
    (h : Rel (SMap.poll (logging f)) (SMap.init []) (·.signal) u t) : t = u.mapped f := by
  obtain ⟨s, h1, h2⟩ := h
  obtain ⟨outs, s', g1, g2, g3, -⟩ := C48_map f (u.map (·.2)) (t.map (·.1))
  rw [h1] at g1; cases g1
  simp only at h2
  rw [h2] at g2 g3
  refine pairs_ext ?_ ?_
  · rw [take_wakers] at g3
    simp [SigTrace.mapped, ← g3, Function.comp_def]
  · simp [SigTrace.mapped, g2, Function.comp_def]

theorem not_stage {u t : SigTrace Bool}
    (h : Rel SNot.poll (SMap.init ()) (·.signal) u t) : t = u.mapped (fun b => !b) := by
  obtain ⟨s, h1, h2⟩ := h
  obtain ⟨outs, s', g1, g2, g3⟩ := C48_not (u.map (·.2)) (t.map (·.1))
  rw [h1] at g1; cases g1
  simp only at h2
  rw [h2] at g2 g3
  refine pairs_ext ?_ ?_
  · rw [take_wakers] at g3
    simp [SigTrace.mapped, ← g3, Function.comp_def]
  · simp [SigTrace.mapped, g2, Function.comp_def]

theorem inspect_stage {u t : SigTrace α}
    (h : Rel (SInspect.poll observing) (SMap.init []) (·.signal) u t) : t = u := by
  obtain ⟨s, h1, h2⟩ := h
  obtain ⟨outs, s', g1, g2, g3, -⟩ := C48_inspect (u.map (·.2)) (t.map (·.1))
  rw [h1] at g1; cases g1
  simp only at h2
  rw [h2] at g2 g3
  refine pairs_ext ?_ g2
  rw [take_wakers] at g3
  exact g3.symm

theorem eq_stage [BEq α] {value : α} {u : SigTrace α} {t : SigTrace Bool}
    (h : Rel SEq.poll (SEq.init value) (·.signal) u t) (hu : (Ty.sig α).Good u) :
    (Ty.sig Bool).Good t ∧ t.last = u.last.map (· == value) ∧ ∀ o, Rest o t → Rest o u := by
  refine sig_stage h (C57_eq _ _) ?_ ?_ hu
  · intro s hs
    obtain ⟨outs, s', g1, g2⟩ := C50_eq value (u.map (·.2)) (t.map (·.1))
    rw [hs] at g1; cases g1
    rw [SigTrace.last, g2, dedup_getLast?, List.getLast?_map]
  · intro a rest w r s hs
    simp [SEq.poll, SEq.init, Src.mk', Src.loop, pollLoop, eqBody] at hs
    exact ⟨_, hs.1.symm⟩

theorem neq_stage [BEq α] {value : α} {u : SigTrace α} {t : SigTrace Bool}
    (h : Rel SNeq.poll (SEq.init value) (·.signal) u t) (hu : (Ty.sig α).Good u) :
    (Ty.sig Bool).Good t ∧ t.last = u.last.map (fun a => !(a == value)) ∧
      ∀ o, Rest o t → Rest o u := by
  refine sig_stage h (C57_neq _ _) ?_ ?_ hu
  · intro s hs
    obtain ⟨outs, s', g1, g2⟩ := C50_neq value (u.map (·.2)) (t.map (·.1))
    rw [hs] at g1; cases g1
    rw [SigTrace.last, g2, dedup_getLast?, List.getLast?_map]
  · intro a rest w r s hs
    simp [SNeq.poll, SEq.init, Src.mk', Src.loop, pollLoop, neqBody] at hs
    exact ⟨_, hs.1.symm⟩

theorem dedupe_stage [BEq α] [LawfulBEq α] {u : SigTrace α} {t : SigTrace α}
    (h : Rel SDedupe.poll (SDedupe.init ()) (·.signal) u t) (hu : (Ty.sig α).Good u) :
    (Ty.sig α).Good t ∧ t.last = u.last.map id ∧ ∀ o, Rest o t → Rest o u := by
  refine sig_stage h (C57_dedupe _) ?_ ?_ hu
  · intro s hs
    obtain ⟨outs, s', g1, -, g2⟩ := C50_dedupe_consecutive (u.map (·.2)) (t.map (·.1))
    rw [hs] at g1; cases g1
    rw [SigTrace.last, g2]; simp
  · intro a rest w r s hs
    simp [SDedupe.poll, SDedupeMap.poll, SDedupe.init, Src.mk', Src.loop, pollLoop, dedupeBody] at hs
    exact ⟨_, hs.1.symm⟩

theorem dedupeMap_stage [BEq α] [LawfulBEq α] {f : α → β} {u : SigTrace α} {t : SigTrace β}
    (h : Rel (SDedupeMap.poll (logging fun a => (f a, a))) (SDedupe.init []) (·.signal) u t)
    (hu : (Ty.sig α).Good u) :
    (Ty.sig β).Good t ∧ t.last = u.last.map f ∧ ∀ o, Rest o t → Rest o u := by
  refine sig_stage h (C57_dedupe_map _ _ _) ?_ ?_ hu
  · intro s hs
    obtain ⟨outs, s', g1, g2, -⟩ := C50_dedupe_map (fun a => (f a, a)) (u.map (·.2)) (t.map (·.1))
    rw [hs] at g1; cases g1
    rw [SigTrace.last, g2, List.getLast?_map]
    exact congrArg (Option.map f) (dedup_getLast? _)
  · intro a rest w r s hs
    simp [SDedupeMap.poll, SDedupe.init, Src.mk', Src.loop, pollLoop, dedupeBody, logging] at hs
    exact ⟨_, hs.1.symm⟩

/-! ## `map_ref!` -/

theorem say_eager [Inhabited γ] {t : SigTrace γ} (ht : (Ty.sig γ).Good t) :
    ∃ b rest, t.say = .ready (some b) :: rest := by
  match t with
  | [] => exact ⟨_, _, rfl⟩
  | (w, r) :: t =>
    rcases ht with ht | ⟨b, ht⟩
    · cases ht
    · simp only [List.head?_cons, Option.map_some, Option.some.injEq] at ht
      subst ht
      exact ⟨b, _, rfl⟩

theorem mapRef_stage [Inhabited α] {n : Nat} (hn : n ≠ 0) {f : List α → β} {us : Fin n → SigTrace α}
    (hg : ∀ i, (Ty.sig α).Good (us i)) {t : SigTrace β} {s : List (MapRef1 α)}
    (h1 : run (SMapRef.poll f) (t.map (·.1)) (SMapRef.init (List.ofFn fun i => (us i).say)) =
      some (t.map (·.2), s)) (h2 : s.map (·.signal.src.hist) = List.ofFn us) :
    (Ty.sig β).Good t ∧ ∀ o, Rest o t → (∀ i, Rest o (us i)) ∧
      ∀ as : Fin n → α, (∀ i, (us i).last = some (as i)) → t.last = some (f (List.ofFn as)) := by
  have hne : (List.ofFn fun i => (us i).say) ≠ [] := by
    intro h
    have := congrArg List.length h
    simp at this
    exact hn this
  have hg' : ∀ script ∈ (List.ofFn fun i => (us i).say), ∃ a rest, script = .ready (some a) :: rest := by
    intro script hs
    obtain ⟨i, rfl⟩ := List.mem_ofFn.1 hs
    exact say_eager (hg i)
  obtain ⟨outs, s', g1, g2, g3, g4, g5⟩ := C49_map_ref f _ hne hg' (t.map (·.1))
  rw [h1] at g1
  cases g1
  constructor
  · rcases t with _ | ⟨⟨w, r⟩, t'⟩
    · exact .inl rfl
    · right
      obtain ⟨s1, hs⟩ := run_head h1
      obtain ⟨outs, s2, k1, -, k3, -⟩ := C49_map_ref f _ hne hg' [w]
      obtain ⟨vs, -, k4⟩ := k3 (by simp)
      match r with
      | .ready (some b) => exact ⟨b, rfl⟩
      | .ready none => simp only [run, hs] at k1; cases k1; simp at k4
      | .pending => simp only [run, hs] at k1; cases k1; simp at k4
  · intro o hr
    have hfu : ∀ m ∈ s, m.signal.src.fused := by
      obtain ⟨scripts, hsc⟩ : ∃ scripts, scripts = List.ofFn fun i => (us i).say := ⟨_, rfl⟩
      rw [← hsc] at g2
      clear h1 h2 g3 g4 g5 hsc
      induction g2 with
      | nil => simp
      | cons h _ ih => simpa using ⟨h.2, ih⟩
    refine ⟨fun i => ?_, fun as has => ?_⟩
    · have : us i ∈ s.map (·.signal.src.hist) := by rw [h2]; exact List.mem_ofFn.2 ⟨i, rfl⟩
      obtain ⟨m, hm, hmu⟩ := List.mem_map.1 this
      rw [← hmu]
      refine Src.rest (hfu m hm) ?_
      rcases rest_cases hr with ⟨x, ho, c1, c2⟩ | c
      · exact ((g5 x c1 c2).1 m hm).imp id fun h => ⟨x, ho, h⟩
      · exact .inl (g4 c m hm)
    · obtain ⟨vs, k1, k2⟩ := g3 (by simpa using rest_ne hr)
      have e1 : s.map (·.signal.src.got.getLast?) = (List.ofFn as).map some := by
        have : s.map (·.signal.src.got.getLast?) =
            (s.map (·.signal.src.hist)).map fun h => (items (h.map (·.2))).getLast? := by
          simp only [List.map_map]; rfl
        rw [this, h2, List.map_ofFn, List.map_ofFn]
        congr 1
        funext i
        exact has i
      rw [e1] at k1
      rw [(List.map_inj_right fun _ _ e => Option.some.inj e).1 k1]
      exact k2

/-! ## `and`, `or`, `option`, `result`, `broadcast` -/

theorem pair_stage {f : List Bool → Bool} {u u' : SigTrace Bool} (hg : (Ty.sig Bool).Good u)
    (hg' : (Ty.sig Bool).Good u') {t : SigTrace Bool} {s : List (MapRef1 Bool)}
    (h1 : run (SMapRef.poll f) (t.map (·.1)) (SMapRef.init [u.say, u'.say]) = some (t.map (·.2), s))
    (h2 : s.map (·.signal.src.hist) = [u, u']) :
    (Ty.sig Bool).Good t ∧ ∀ o, Rest o t → (Rest o u ∧ Rest o u') ∧
      ∀ a b, u.last = some a → u'.last = some b → t.last = some (f [a, b]) := by
  obtain ⟨k1, k2⟩ := mapRef_stage (n := 2) (f := f) (us := fun i => if i = 0 then u else u') (by simp)
    (by intro i; split <;> assumption) (t := t) (s := s)
    (by simpa [List.ofFn_succ] using h1) (by simpa [List.ofFn_succ] using h2)
  refine ⟨k1, fun o ho => ?_⟩
  obtain ⟨k3, k4⟩ := k2 o ho
  refine ⟨⟨by simpa using k3 0, by simpa using k3 1⟩, fun a b ha hb => ?_⟩
  have := k4 (fun i => if i = 0 then a else b) (by
    intro i; split <;> assumption)
  simpa [List.ofFn_succ] using this

theorem maybe_run {ε : Type} {mapSignal : α → γ} {mapValue : ε → γ} {ws : List Waker}
    {src : Src (Option α)} {outs : List (Poll (Option γ))} {s : SMaybe α ε}
    (h : run (SMaybe.poll mapSignal mapValue) ws (.signal src) = some (outs, s)) :
    ∃ rs, s.hist = src.hist ++ (ws.take outs.length).zip rs ∧ rs.length = outs.length ∧
      outs = rs.map (Poll.mapItem mapSignal) := by
  induction ws generalizing src outs s with
  | nil => cases h; exact ⟨[], by simp [SMaybe.hist], rfl, rfl⟩
  | cons w ws ih =>
    simp only [run] at h
    obtain ⟨r, src', e⟩ : ∃ r src', src.poll w = (r, src') := ⟨_, _, rfl⟩
    have hh : src'.hist = src.hist ++ [(w, r)] := by
      have := Src.poll_hist w src
      rw [e] at this
      exact this
    have step : SMaybe.poll mapSignal mapValue w (.signal src) =
        some (r.mapItem mapSignal, .signal src') := by
      simp only [SMaybe.poll, e]
      rcases r with (_ | v) | _ <;> rfl
    rw [step] at h
    rcases r with (_ | v) | _
    · cases h
      exact ⟨[.ready none], by simp [SMaybe.hist, hh], rfl, rfl⟩
    · simp only [Poll.mapItem] at h
      split at h
      · cases h
      · rename_i h1
        obtain ⟨rs, h1, h2, h3⟩ := ih h1
        cases h
        exact ⟨.ready (some v) :: rs, by rw [h1, hh]; simp, by simp [h2], by simp [h3, Poll.mapItem]⟩
    · simp only [Poll.mapItem] at h
      split at h
      · cases h
      · rename_i h1
        obtain ⟨rs, h1, h2, h3⟩ := ih h1
        cases h
        exact ⟨.pending :: rs, by rw [h1, hh]; simp, by simp [h2], by simp [h3, Poll.mapItem]⟩

theorem maybe_stage {ε : Type} {mapSignal : α → γ} {mapValue : ε → γ} {u : SigTrace α}
    {t : SigTrace γ} {s : SMaybe α ε}
    (h : run (SMaybe.poll mapSignal mapValue) (t.map (·.1)) (.signal (Src.mk' (u.map (·.2)))) =
      some (t.map (·.2), s)) (hs : s.hist = u) : t = u.mapped mapSignal := by
  obtain ⟨rs, h1, h2, h3⟩ := maybe_run h
  rw [hs] at h1
  have e : (t.map (·.1)).take (t.map (·.2)).length = t.map (·.1) := by
    rw [List.length_map, ← List.length_map (f := (·.1)), List.take_length]
  rw [e, Src.mk', List.nil_append] at h1
  rw [h1]
  refine pairs_ext ?_ ?_
  · simp only [SigTrace.mapped, List.map_map]
    rw [show ((fun x : Waker × Poll (Option γ) => x.1) ∘ fun q : Waker × Poll (Option α) =>
      (q.1, q.2.mapItem mapSignal)) = Prod.fst from rfl, List.map_fst_zip]
    simpa using Nat.le_of_eq h2.symm
  · rw [h3]
    simp only [SigTrace.mapped, List.map_map]
    rw [show ((fun x : Waker × Poll (Option γ) => x.2) ∘ fun q : Waker × Poll (Option α) =>
      (q.1, q.2.mapItem mapSignal)) = Poll.mapItem mapSignal ∘ Prod.snd from rfl, ← List.map_map,
      List.map_snd_zip]
    simpa using Nat.le_of_eq h2

theorem broadcast_stage {f : α → β} {u : SigTrace α} (hu : (Ty.sig α).Good u) {F : Nat → α → β}
    {es : List Bc.Ev} {os : List (Bc.Out α β)} {m : Bc.World α} {k : Nat} (hF : F k = f)
    (hr : runE (Bc.World.step F) (Bc.World.new (u.map fun q => (false, q.2))) es = some (os, m))
    (hm : m.hist = (u.map fun q => (false, q.2))) :
    (Ty.sig β).Good (Bc.polled k (es.zip os)) ∧
    (Bc.Kept k (es.zip os) → ∀ o, Rest o (Bc.polled k (es.zip os)) →
      (∃ x, o = some x ∧ Bc.WokenSince k (es.zip os) x) ∨
      SigTrace.last (Bc.polled k (es.zip os)) = u.last.map f ∧
        ((∃ x y, o = some x ∧ u.getLast? = some (y, .pending) ∧ (Bc.due (es.zip os)).1 = false) ∨
          ∃ y, u.getLast? = some (y, .ready none))) := by
  have hK := Bc.known hr k
  constructor
  · by_cases h0 : u = []
    · left
      apply Classical.byContradiction
      intro h
      exact hK.polls h (by rw [hm, h0]; rfl)
    · refine hK.good ?_ (by simpa using h0)
      intro x hx
      rcases hu with hu | ⟨b, hb⟩
      · exact absurd hu h0
      · cases u with
        | nil => exact absurd rfl h0
        | cons q u =>
          cases hx
          exact ⟨b, by simpa using hb⟩
  · intro hk o ho
    have hl : ∀ r, m.hist.getLast?.map (·.2) = some r → ∃ y, u.getLast? = some (y, r) := by
      intro r h
      rw [hm, List.getLast?_map] at h
      cases hq : u.getLast? with
      | none => rw [hq] at h; cases h
      | some q => rw [hq] at h; cases h; exact ⟨q.1, rfl⟩
    rcases Bc.polled_rest (by simp) hr hk ho with h | ⟨h1, h2⟩
    · exact .inl h
    · right
      refine ⟨?_, ?_⟩
      · rw [h1, hF]
        congr 1
        rw [SigTrace.last, Bc.values, hm, List.map_map]
        rfl
      · rcases h2 with ⟨x, hx, h2, h3⟩ | h2
        · obtain ⟨y, hy⟩ := hl _ h2
          exact .inl ⟨x, y, hx, hy, h3⟩
        · exact .inr (hl _ h2)

/-! ## `switch` -/

theorem flatten_live {g : ι → List (Poll (Option β))} {script : List (Poll (Option ι))}
    {ws : List Waker} {outs : List (Poll (Option β))} {s : SFlatten ι β}
    (h : run (SFlatten.poll g) ws (SFlatten.init script) = some (outs, s)) : FlatLive g s := by
  obtain ⟨outs, s', h1, h2, -, -⟩ := full_run (poll := SFlatten.poll g)
    (fun _ s => FlatLive g s) (fun _ _ _ => True)
    (by
      rintro w outs s hl -
      obtain ⟨r, s', k1, k2, -⟩ := SFlatten.step hl w
      exact ⟨r, s', k1, k2, trivial⟩)
    ws (SFlatten.init script) ⟨Inp.ok_mk' _, rfl, by simp [SFlatten.made, SFlatten.init],
      by simp [SFlatten.made, SFlatten.init], by simp [SFlatten.init], by simp [SFlatten.init]⟩
  rw [h] at h1
  cases h1
  exact h2

theorem flatten_first {g : ι → List (Poll (Option β))} (hg : Eager g) {w : Waker} {a : ι}
    {rest : List (Poll (Option ι))} {r : Poll (Option β)} {s : SFlatten ι β}
    (h : SFlatten.poll g w (SFlatten.init (.ready (some a) :: rest)) = some (r, s)) :
    ∃ b, r = .ready (some b) := by
  obtain ⟨b, t, hb⟩ := hg a
  simp [SFlatten.poll, SFlatten.init, Inp.mk', Inp.poll, Src.poll, Src.mk', SFlatten.pollInner,
    Made.new, hb] at h
  exact ⟨b, h.1.symm⟩

theorem switch_stage [Inhabited β] {inst : ι → Nat → SigTrace β}
    (hi : ∀ b n, (Ty.sig β).Good (inst b n)) {u : SigTrace (ι × Nat)} (hu : (Ty.sig ι).Good u.bare)
    {t : SigTrace β} {s : SFlatten (ι × Nat) β}
    (h1 : run (SFlatten.poll fun q => (inst q.1 q.2).say) (t.map (·.1))
      (SFlatten.init (u.map (·.2))) = some (t.map (·.2), s)) (h2 : s.signal.src.hist = u)
    (h3 : ∀ x, (s.old ++ s.inner.toList).getLast? = some x →
      x.src.hist = inst x.tag.1 x.tag.2) :
    (Ty.sig β).Good t ∧ ∀ o, Rest o t → Rest o u.bare ∧
      ∀ a, u.bare.last = some a → ∃ x, (s.old ++ s.inner.toList).getLast? = some x ∧ x.tag.1 = a ∧
        Rest o (inst x.tag.1 x.tag.2) ∧ t.last = (inst x.tag.1 x.tag.2).last := by
  have hg : Eager (fun q : ι × Nat => (inst q.1 q.2).say) := fun q => say_eager (hi _ _)
  obtain ⟨outs, s', g1, g2, g3, g4, g5, g6⟩ := C52_flatten (fun q : ι × Nat => (inst q.1 q.2).say)
    (u.map (·.2)) (t.map (·.1))
  rw [h1] at g1
  cases g1
  obtain ⟨outs, s', k1, k2, k3, k4⟩ := C52_flatten_current _ hg (u.map (·.2)) (t.map (·.1))
  rw [h1] at k1
  cases k1
  have hL := flatten_live h1
  have hru : ∀ o, Rest o t → Rest o u := by
    intro o hr
    rw [← h2]
    refine Src.rest g5 ?_
    rcases rest_cases hr with ⟨x, ho, c1, c2⟩ | c
    · exact (k4 x c1 c2).1.imp id fun h => ⟨x, ho, h⟩
    · exact .inl (g6 c).1
  have hgu : (Ty.sig (ι × Nat)).Good u := by
    rcases hu with hu | ⟨b, hu⟩
    · exact .inl (List.map_eq_nil_iff.1 hu)
    · match u with
      | [] => exact .inl rfl
      | (w, r) :: u' =>
        match r with
        | .ready (some q) => exact .inr ⟨q, rfl⟩
        | .ready none => simp [SigTrace.bare, SigTrace.mapped, Poll.mapItem] at hu
        | .pending => simp [SigTrace.bare, SigTrace.mapped, Poll.mapItem] at hu
  refine ⟨good_of_first hgu (fun o ho => rest_ne (hru o ho)) ?_ ?_, fun o hr => ⟨(rest_map _ o u).2 (hru o hr), ?_⟩⟩
  · rintro rfl
    rw [Src.got, h2] at g3
    rw [g2, List.map_eq_nil_iff.1 g3]
    rfl
  · rintro w a u' w' r t' rfl rfl
    obtain ⟨s1, hs⟩ := run_head h1
    exact flatten_first hg hs
  · intro a ha
    have hlast : (s.old ++ s.inner.toList).getLast?.map (·.tag.1) = some a := by
      have : u.bare.last = (s.old ++ s.inner.toList).getLast?.map (·.tag.1) := by
        rw [SigTrace.bare, SigTrace.last, mapped_last, SigTrace.last, ← h2]
        show (Option.map _ s.signal.src.got.getLast?) = _
        rw [← g3, List.getLast?_map, Option.map_map]
        rfl
      rw [← this, ha]
    obtain ⟨x, hx, hxa⟩ := Option.map_eq_some_iff.1 hlast
    refine ⟨x, hx, hxa, ?_, ?_⟩
    · rw [← h3 x hx]
      have hm : x ∈ s.old ++ s.inner.toList := List.mem_of_getLast? hx
      refine Src.rest (g4 x hm).2 ?_
      rcases rest_cases hr with ⟨y, ho, c1, c2⟩ | c
      · cases hin : s.inner with
        | none =>
          rw [hin] at hx
          exact .inl (hL.gone hin x (by simpa using hx))
        | some z =>
          rw [hin] at hx
          simp at hx
          subst hx
          exact .inr ⟨y, ho, (k4 y c1 c2).2.1 z hin⟩
      · exact .inl ((g6 c).2 x hx)
    · rw [SigTrace.last, k2, hx, Option.bind_some, Src.got, h3 x hx]
      rfl

/-! ## `key_cloned` -/

theorem keyCloned_stage {K V : Type} [LinearOrder K] {key : K} {u : Tr (.map K V)}
    {t : SigTrace (Option V)} (h : Rel MWatch.poll (MWatch.init key) (·.signal) u t)
    (hu : (Ty.map K V).Good u) :
    (Ty.sig (Option V)).Good t ∧ ∀ o, Rest o t → Rest o u ∧
      ∀ m, (Ty.map K V).Shows u m → t.last = some (m key) := by
  obtain ⟨s, h1, h2⟩ := h
  simp only at h2
  have hu' : ∃ m, mreplay (items (u.map (·.2))) noKeys = some m := hu
  constructor
  · by_cases ht : t = []
    · exact .inl ht
    · obtain ⟨outs, s', m, g1, ⟨v, g2⟩, -⟩ := C30_key_cloned key (u.map (·.2)) hu' (t.map (·.1))
        (by simpa using ht)
      rw [h1] at g1
      cases g1
      exact .inr ⟨v, by rw [← List.head?_map]; exact g2⟩
  · intro o hr
    obtain ⟨outs, s', m, g1, -, g3, g4⟩ := C30_key_cloned key (u.map (·.2)) hu' (t.map (·.1))
      (by simpa using rest_ne hr)
    rw [h1] at g1
    cases g1
    refine ⟨?_, fun m' hm => ?_⟩
    · rcases rest_cases hr with ⟨x, ho, c1, c2⟩ | c
      · exact .inl ⟨x, ho, by rw [← h2]; exact (C57_key_cloned _ _ _ _ _ h1).2 x c1 c2⟩
      · right
        rcases run_last (fun _ => True) (fun _ _ _ _ _ _ _ => trivial) h1 trivial with
          ⟨e, -⟩ | ⟨w, s1, r, -, k2, -, -, k5⟩
        · rw [e] at c; simp at c
        · have := k5 c
          subst this
          obtain ⟨st, c', src', e⟩ : ∃ st c' src', s1.signal.loop w (watchBody s1.watchKey) none =
            (st, c', src') := ⟨_, _, _, rfl⟩
          obtain ⟨r', q1, q2⟩ := pollLoop_last _ _ _ e
          simp only [MWatch.poll, e] at k2
          refine ⟨w, ?_⟩
          rw [← h2]
          cases st with
          | panic => cases k2
          | ret q => exact q.elim
          | ended =>
            cases q2
            simp only [MWatch.finish] at k2
            repeat' split at k2
            all_goals cases k2
            exact q1
          | pending =>
            simp only [MWatch.finish] at k2
            repeat' split at k2
            all_goals first | (cases k2; done) | contradiction
    · rw [Src.got, h2] at g3
      cases g3.symm.trans hm
      exact g4

/-! ## Methods that turn a `SignalVec` into a `Signal` -/

theorem sink_stage {k : Sink β γ} (hk : k.Lawful) {u : Trace β} {t : SigTrace γ} (h : k.Exec u t)
    (hu : (Ty.vec β).Good u) :
    (Ty.sig γ).Good t ∧ ∀ o, Rest o t → Rest o u ∧
      ∀ xs, (Ty.vec β).Shows u xs → t.last = some (k.value xs) := by
  obtain ⟨zs, hz⟩ := hu
  constructor
  · by_cases ht : t = []
    · exact .inl ht
    · exact .inr (k.last_value hk h hz ht).2
  · intro o hr
    refine ⟨?_, fun xs hx => (k.last_value hk h hx (rest_ne hr)).1⟩
    rcases hr with ⟨x, ho, hl⟩ | ⟨y, hl⟩
    · rcases k.rest h hl with ⟨g, -⟩ | g
      · exact .inl ⟨x, ho, g⟩
      · exact .inr g
    · rcases k.rest h hl with ⟨-, g⟩ | g
      · exact absurd rfl g
      · exact .inr g

/-! ## `map_signal`, `filter_signal_cloned` -/

theorem mapSignal_stage [Inhabited γ] {inst : β → Nat → SigTrace γ}
    (hi : ∀ b n, (Ty.sig γ).Good (inst b n)) {u : Trace (β × Nat)} (hu : (Ty.vec β).Good u.bare)
    {t : Trace γ} {s : VMapSignal (β × Nat) γ}
    (h1 : run (VMapSignal.poll fun q => (inst q.1 q.2).say) (t.map (·.1))
      (VMapSignal.init (u.map (·.2))) = some (t.map (·.2), s)) (h2 : s.signal.src.hist = u)
    (h3 : ∀ x ∈ s.signals, x.sig.src.hist = inst x.tag.1 x.tag.2) :
    (Ty.vec γ).Good t ∧ ∀ o, Rest o t → Rest o u.bare ∧
      (∀ x ∈ s.signals, Rest o (inst x.tag.1 x.tag.2)) ∧
      ∀ P : β → γ → Prop, (∀ x ∈ s.signals, ∃ y, (inst x.tag.1 x.tag.2).last = some y ∧ P x.tag.1 y) →
        ∀ xs, (Ty.vec β).Shows u.bare xs → ∃ zs, (Ty.vec γ).Shows t zs ∧ List.Forall₂ P xs zs := by
  obtain ⟨xs, hx⟩ := hu
  have hx' := hx
  rw [bare_diffs] at hx
  obtain ⟨ls, g1, g2⟩ := replay_lift Prod.fst (xs := []) hx
  obtain ⟨outs, s', zs, k1, k2, k3, -, k5⟩ := C12_map_signal
    (fun q : β × Nat => (inst q.1 q.2).say)
    (fun q => say_eager (hi q.1 q.2)) u.answers ⟨ls, g1⟩ (t.map (·.1))
  cases h1.symm.trans k1
  obtain ⟨⟨f1, f2⟩, f3, f4⟩ := C57_map_signal _ _ _ _ _ h1
  have htags : s.signals.map (·.tag) = ls := by
    have : s.signal.src.got = u.diffs := by rw [Src.got, h2]; rfl
    rw [this, g1] at k3
    exact (Option.some.inj k3).symm
  refine ⟨⟨zs, k2⟩, fun o hr => ?_⟩
  have hset : (s.signal.src.ended ∨ ∃ w, o = some w ∧ s.signal.src.armed w) ∧
      ∀ y ∈ s.signals, y.sig.src.ended ∨ ∃ w, o = some w ∧ y.sig.src.armed w := by
    rcases rest_cases hr with ⟨w, ho, c1, c2⟩ | c
    · exact ⟨(f4 w c1 c2).1.imp id fun h => ⟨w, ho, h⟩,
        fun y hy => ((f4 w c1 c2).2.1 y hy).imp id fun h => ⟨w, ho, h⟩⟩
    · exact ⟨.inl (f3 c).2.1, fun y hy => .inl ((f3 c).2.2 y hy)⟩
  refine ⟨(rest_map _ o u).2 (by rw [← h2]; exact Src.rest f1 hset.1), fun x hm => ?_, ?_⟩
  · rw [← h3 x hm]
    exact Src.rest (f2 x hm) (hset.2 x hm)
  · intro P hP xs' hxs
    cases hxs.symm.trans hx'
    have hz := k5 (by
      rcases rest_cases hr with ⟨w, -, -, c2⟩ | c
      · exact .inl c2
      · exact .inr c)
    refine ⟨zs, k2, ?_⟩
    rw [← g2, ← htags]
    clear htags f2 f3 f4 hset k3 k5
    obtain ⟨l, hl⟩ : ∃ l, l = s.signals := ⟨_, rfl⟩
    rw [← hl] at h3 hP hz ⊢
    clear hl k2 hr
    induction l generalizing zs with
    | nil =>
      cases zs with
      | nil => exact .nil
      | cons => simp at hz
    | cons x l ih =>
      cases zs with
      | nil => simp at hz
      | cons z zs =>
        simp only [List.map_cons, List.cons.injEq] at hz
        obtain ⟨y, hy, hp⟩ := hP x (by simp)
        refine .cons ?_ (ih _ hz.2 (fun y hy => hP y (by simp [hy])) (fun y hy => h3 y (by simp [hy])))
        have : some y = some z := by
          rw [← hz.1, ← hy, Src.got, h3 x (by simp)]; rfl
        cases this
        exact hp

theorem filterSignal_stage {inst : β → Nat → SigTrace Bool}
    (hi : ∀ b n, (Ty.sig Bool).Good (inst b n)) {u v : Trace (β × Nat)}
    (hu : (Ty.vec β).Good u.bare) (hf : (Ty.vec β).Fwds u.bare) {s : VFilterSignal (β × Nat)}
    (h1 : run (VFilterSignal.poll fun q => (inst q.1 q.2).say) (v.map (·.1))
      (VFilterSignal.init (u.map (·.2))) = some (v.map (·.2), s)) (h2 : s.signal.src.hist = u)
    (h3 : ∀ x ∈ s.signals, x.signal.src.hist = inst x.value.1 x.value.2) :
    (Ty.vec β).Good v.bare ∧ (Ty.vec β).Fwds v.bare ∧ ∀ o, Rest o v.bare → Rest o u.bare ∧
      (∀ x ∈ s.signals, Rest o (inst x.value.1 x.value.2)) ∧
      ∀ P : β → Bool → Prop,
        (∀ x ∈ s.signals, ∃ y, (inst x.value.1 x.value.2).last = some y ∧ P x.value.1 y) →
        ∀ xs, (Ty.vec β).Shows u.bare xs → ∃ bs, List.Forall₂ P xs bs ∧
          (Ty.vec β).Shows v.bare (((xs.zip bs).filter (·.2)).map (·.1)) := by
  obtain ⟨xs, hx⟩ := hu
  have hx' := hx
  rw [bare_diffs] at hx
  obtain ⟨ls, g1, g2⟩ := replay_lift Prod.fst (xs := []) hx
  obtain ⟨outs, s', zs, k1, k2, k3, -, k5⟩ := C13_filter_signal_forward_partial
    (fun q : β × Nat => (inst q.1 q.2).say)
    (fun q => say_eager (hi q.1 q.2)) u.answers ⟨ls, g1⟩
    (fun i j hm => bare_fwd.1 hf _ hm i j rfl) (v.map (·.1))
  cases h1.symm.trans k1
  obtain ⟨⟨f1, f2⟩, f3, f4⟩ := C57_filter_signal _ _ _ _ _ h1
  have htags : s.signals.map (·.value) = ls := by
    have : s.signal.src.got = u.diffs := by rw [Src.got, h2]; rfl
    rw [this, g1] at k3
    exact (Option.some.inj k3).symm
  have hrep : replay (Trace.bare v).diffs [] = some (zs.map Prod.fst) := by
    rw [bare_diffs]
    exact replay_map Prod.fst (xs := []) k2
  refine ⟨⟨_, hrep⟩, bare_fwd.2 (filterSignal_fwd h1 (bare_fwd.1 hf)), fun o hr => ?_⟩
  replace hr : Rest o v := (rest_map _ o v).1 hr
  have hset : (s.signal.src.ended ∨ ∃ w, o = some w ∧ s.signal.src.armed w) ∧
      ∀ y ∈ s.signals, y.signal.src.ended ∨ ∃ w, o = some w ∧ y.signal.src.armed w := by
    rcases rest_cases hr with ⟨w, ho, c1, c2⟩ | c
    · exact ⟨(f4 w c1 c2).1.imp id fun h => ⟨w, ho, h⟩,
        fun y hy => ((f4 w c1 c2).2.1 y hy).imp id fun h => ⟨w, ho, h⟩⟩
    · exact ⟨.inl (f3 c).2.1, fun y hy => .inl ((f3 c).2.2 y hy)⟩
  refine ⟨(rest_map _ o u).2 (by rw [← h2]; exact Src.rest f1 hset.1), fun x hm => ?_, ?_⟩
  · rw [← h3 x hm]
    exact Src.rest (f2 x hm) (hset.2 x hm)
  · intro P hP xs' hxs
    cases hxs.symm.trans hx'
    have hz := k5 (by
      rcases rest_cases hr with ⟨w, -, -, c2⟩ | c
      · exact .inl c2
      · exact .inr c)
    have key : ∃ bs, List.Forall₂ P (ls.map Prod.fst) bs ∧
        zs.map Prod.fst = (((ls.map Prod.fst).zip bs).filter (·.2)).map (·.1) := by
      rw [hz, ← htags]
      clear htags f2 f3 f4 hset k3 k5 hrep hz
      obtain ⟨l, hl⟩ : ∃ l, l = s.signals := ⟨_, rfl⟩
      rw [← hl] at h3 hP ⊢
      clear hl k2 hr
      induction l with
      | nil => exact ⟨[], .nil, rfl⟩
      | cons x l ih =>
        obtain ⟨bs, i1, i2⟩ := ih (fun y hy => hP y (by simp [hy])) (fun y hy => h3 y (by simp [hy]))
        obtain ⟨y, hy, hp⟩ := hP x (by simp)
        refine ⟨y :: bs, .cons hp i1, ?_⟩
        have : x.signal.src.got.getLast? = some y := by
          rw [← hy, Src.got, h3 x (by simp)]; rfl
        cases y with
        | false => simp [this]; simpa using i2
        | true => simp [this]; simpa using i2
    obtain ⟨bs, e1, e2⟩ := key
    rw [g2] at e1 e2
    exact ⟨bs, e1, by rw [← e2]; exact hrep⟩

/-! ## `to_signal_vec`, `switch_signal_vec` -/

theorem toVec_stage {u : SigTrace (List α)} {t : Trace α}
    (h : Rel VToVec.poll (fun script => ⟨Src.mk' script⟩) (·.signal) u t) :
    (Ty.vec α).Good t ∧ (Ty.vec α).Fwds t ∧ (∀ o, Rest o t → Rest o u) ∧
      ∀ xs, u.last = some xs → (Ty.vec α).Shows t xs := by
  have hr : ∀ o, Rest o t → Rest o u := fun o => h.rest (C57_to_signal_vec _)
  obtain ⟨s, h1, h2⟩ := h
  simp only at h2
  obtain ⟨outs, s', g1, g2, -⟩ := C23_to_signal_vec (u.map (·.2)) (t.map (·.1))
  rw [h1] at g1
  cases g1
  refine ⟨⟨_, g2⟩, ?_, hr, fun xs hx => ?_⟩
  · refine run_items (fun _ => True) Fwd ?_ h1 trivial
    rintro w s r s' - hp
    refine ⟨trivial, fun d hd => ?_⟩
    subst hd
    unfold VToVec.poll at hp
    repeat' split at hp
    all_goals cases hp
    simp [Fwd]
  · have : s.signal.got.getLast? = some xs := by rw [Src.got, h2]; exact hx
    rw [this] at g2
    exact g2

theorem switchVec_fwd {g : ι → List (Poll (Option (VecDiff α)))}
    (hg : ∀ q, ∀ d ∈ items (g q), Fwd d) {script : List (Poll (Option ι))} {ws : List Waker}
    {outs : List (Poll (Option (VecDiff α)))} {s : VSwitch ι α}
    (h : run (VSwitch.poll g) ws (VSwitch.init script) = some (outs, s)) :
    ∀ d ∈ items outs, Fwd d := by
  refine run_items (fun s => ∀ d ∈ items s.inner.src.todo, Fwd d) Fwd ?_ h (by simp [VSwitch.init, Src.mk'])
  rintro w s r s' hI hp
  have hn : ∀ len, ∀ d, (newSignalVec (α := α) len).1 = .ready (some d) → Fwd d := by
    intro len d hd
    unfold newSignalVec at hd
    split at hd <;> simp at hd
    subst hd
    simp [Fwd]
  have key : ∀ b v i, VSwitch.finish g w b v i s = some (r, s') →
      (∀ d ∈ items s'.inner.src.todo, Fwd d) ∧ ∀ d, r = .ready (some d) → Fwd d := by
    intro b v i hb
    cases v with
    | some q =>
      obtain ⟨c, i', e⟩ : ∃ c i', (Inp.mk' (g q)).poll w = (c, i') := ⟨_, _, rfl⟩
      obtain ⟨p1, p2⟩ := Inp.poll_items Fwd e (hg q)
      simp only [VSwitch.finish, e] at hb
      match c with
      | none =>
        simp only at hb
        split at hb
        · cases hb; exact ⟨p1, by simp⟩
        · cases hb; exact ⟨p1, hn _⟩
      | some (.ready none) =>
        simp only at hb
        split at hb
        · cases hb; exact ⟨p1, by simp⟩
        · cases hb; exact ⟨p1, hn _⟩
      | some .pending =>
        cases hb; exact ⟨p1, hn _⟩
      | some (.ready (some d)) =>
        simp only at hb
        repeat' split at hb
        all_goals first | (cases hb; done) | cases hb
        · exact ⟨p1, fun d hd => by cases hd; exact p2 _ rfl⟩
        · exact ⟨p1, fun d hd => by cases hd; simp [Fwd]⟩
    | none =>
      obtain ⟨c, i', e⟩ : ∃ c i', s.inner.poll w = (c, i') := ⟨_, _, rfl⟩
      obtain ⟨p1, p2⟩ := Inp.poll_items Fwd e hI
      simp only [VSwitch.finish, e] at hb
      match c with
      | none =>
        simp only at hb
        split at hb <;> cases hb <;> exact ⟨p1, by simp⟩
      | some (.ready none) =>
        simp only at hb
        split at hb <;> cases hb <;> exact ⟨p1, by simp⟩
      | some .pending => cases hb; exact ⟨p1, by simp⟩
      | some (.ready (some d)) =>
        simp only at hb
        split at hb
        · cases hb
        · cases hb; exact ⟨p1, fun d hd => by cases hd; exact p2 _ rfl⟩
  unfold VSwitch.poll at hp
  repeat' split at hp
  · exact key _ _ _ hp
  · exact key _ _ _ hp
  · cases hp

theorem switchVec_stage {inst : ι → Nat → Trace α}
    (hi : ∀ b n, (Ty.vec α).Good (inst b n))
    (he : ∀ b n, (inst b n).head?.map (·.2) ≠ some (.ready none))
    {u : SigTrace (ι × Nat)} {t : Trace α} {s : VSwitch (ι × Nat) α}
    (h1 : run (VSwitch.poll fun q => (inst q.1 q.2).map (·.2)) (t.map (·.1))
      (VSwitch.init (u.map (·.2))) = some (t.map (·.2), s)) (h2 : s.signal.src.hist = u)
    (h3 : ∀ q, s.signal.src.got.getLast? = some q → s.inner.src.hist = inst q.1 q.2) :
    (Ty.vec α).Good t ∧ ((∀ b n, (Ty.vec α).Fwds (inst b n)) → (Ty.vec α).Fwds t) ∧
      ∀ o, Rest o t → Rest o u.bare ∧
      ∀ a, u.bare.last = some a → ∃ q, s.signal.src.got.getLast? = some q ∧ q.1 = a ∧
        Rest o (inst q.1 q.2) ∧ ∀ xs, (Ty.vec α).Shows (inst q.1 q.2) xs → (Ty.vec α).Shows t xs := by
  have hi' : ∀ q : ι × Nat, ∃ z, replay (items ((inst q.1 q.2).map (·.2))) [] = some z :=
    fun q => hi q.1 q.2
  obtain ⟨outs, s', zs, ys, g1, g2, g3, -, -, g6⟩ := C22_switch_signal_vec_partial
    (fun q : ι × Nat => (inst q.1 q.2).map (·.2)) (u.map (·.2)) hi' (t.map (·.1))
  rw [h1] at g1
  cases g1
  obtain ⟨outs, s', k1, k2, k3, k4, k5⟩ := C57_switch_signal_vec
    (fun q : ι × Nat => (inst q.1 q.2).map (·.2)) (u.map (·.2)) hi' (t.map (·.1))
  rw [h1] at k1
  cases k1
  refine ⟨⟨zs, g2⟩, fun hF => switchVec_fwd (fun q : ι × Nat => (hF q.1 q.2 : _)) h1, fun o hr => ⟨?_, fun a ha => ?_⟩⟩
  · refine (rest_map _ o u).2 ?_
    rw [← h2]
    refine Src.rest k2 ?_
    rcases rest_cases hr with ⟨x, ho, c1, c2⟩ | c
    · exact (k5 x c1 c2).1.imp id fun h => ⟨x, ho, h⟩
    · exact .inl (k4 c).1
  · have : u.bare.last = s.signal.src.got.getLast?.map Prod.fst := by
      rw [SigTrace.bare, SigTrace.last, mapped_last, SigTrace.last, Src.got, h2]
    rw [this] at ha
    obtain ⟨q, hq, hqa⟩ := Option.map_eq_some_iff.1 ha
    have hne : s.signal.src.got ≠ [] := by rintro h; rw [h] at hq; cases hq
    have hin := h3 q hq
    refine ⟨q, hq, hqa, ?_, fun xs hx => ?_⟩
    · rw [← hin]
      refine Src.rest k3 ?_
      rcases rest_cases hr with ⟨x, ho, c1, c2⟩ | c
      · rcases (k5 x c1 c2).2.1 with h | h | h
        · exact absurd h hne
        · exact .inl h
        · exact .inr ⟨x, ho, h⟩
      · rcases (k4 c).2 with h | h
        · exact absurd h hne
        · exact .inl h
    · rcases g6 with rfl | ⟨-, w, g6⟩
      · rw [Src.got, hin] at g3
        cases g3.symm.trans hx
        exact g2
      · exfalso
        refine he q.1 q.2 ?_
        rw [← hin, g6]
        rfl

/-! ## Stages with a `SignalMap` -/

section

variable {K V W : Type} [LinearOrder K]

theorem keys_stage {bs : List K → K → Except Nat Nat} (hbs : SearchOk bs) {u : Tr (.map K V)}
    {t : Trace K} (h : Rel (MKeys.poll bs) MKeys.init (·.signal) u t) (hu : (Ty.map K V).Good u)
    (hs : ∀ d ∈ items (u.map (·.2)), Sorted d) :
    (Ty.vec K).Good t ∧ (Ty.vec K).Fwds t ∧ (∀ o, Rest o t → Rest o u) ∧
      ∀ m, (Ty.map K V).Shows u m → ∃ ks, (Ty.vec K).Shows t ks ∧ ks.Pairwise (· < ·) ∧
        ∀ k, k ∈ ks ↔ (m k).isSome := by
  have hr : ∀ o, Rest o t → Rest o u := fun o => h.rest (C57_keys _ _)
  obtain ⟨s, h1, h2⟩ := h
  simp only at h2
  have hu' : ∃ m, mreplay (items (u.map (·.2))) noKeys = some m := hu
  obtain ⟨outs, s', m, ks, g1, g2, g3, g4, g5⟩ := C26_keys bs hbs (u.map (·.2)) hu' hs (t.map (·.1))
  rw [h1] at g1
  cases g1
  refine ⟨⟨_, g3⟩, ?_, hr, fun m' hm => ?_⟩
  · refine run_items (fun _ => True) Fwd ?_ h1 trivial
    rintro w s r s' - hp
    refine ⟨trivial, fun d hd => ?_⟩
    subst hd
    obtain ⟨st, c', src', e⟩ : ∃ st c' src', s.signal.loop w (keysBody bs) s.keys =
      (st, c', src') := ⟨_, _, _, rfl⟩
    have key : ∀ (s : List K) (a : MapDiff K V) s' r, True → keysBody bs s a = .ret s' r → Fwd r := by
      rintro s a s' r - hb
      cases a <;> simp only [keysBody] at hb
      all_goals repeat' split at hb
      all_goals first | (cases hb; done) | (cases hb; simp [Fwd])
    have := (pollLoop_items (fun _ => True) Fwd key _ _ _ e (fun _ _ => trivial)).2
    simp only [MKeys.poll, e] at hp
    cases st <;> cases hp
    exact this _ rfl
  · rw [Src.got, h2] at g2
    cases g2.symm.trans hm
    exact ⟨ks, g3, g4, g5⟩

theorem entries_stage {bs : List K → K → Except Nat Nat} (hbs : SearchOk bs) {u : Tr (.map K V)}
    {t : Trace (K × V)} (h : Rel (MEntries.poll bs) MKeys.init (·.signal) u t)
    (hu : (Ty.map K V).Good u) (hs : ∀ d ∈ items (u.map (·.2)), Sorted d) :
    (Ty.vec (K × V)).Good t ∧ (Ty.vec (K × V)).Fwds t ∧ (∀ o, Rest o t → Rest o u) ∧
      ∀ m, (Ty.map K V).Shows u m → ∃ es, (Ty.vec (K × V)).Shows t es ∧
        es.Pairwise (fun a b => a.1 < b.1) ∧ ∀ k v, (k, v) ∈ es ↔ m k = some v := by
  have hr : ∀ o, Rest o t → Rest o u := fun o => h.rest (C57_entries _ _)
  obtain ⟨s, h1, h2⟩ := h
  simp only at h2
  have hu' : ∃ m, mreplay (items (u.map (·.2))) noKeys = some m := hu
  obtain ⟨outs, s', m, ks, g1, g2, g3, g4, g5⟩ := C27_entries bs hbs (u.map (·.2)) hu' hs (t.map (·.1))
  rw [h1] at g1
  cases g1
  refine ⟨⟨_, g3⟩, ?_, hr, fun m' hm => ?_⟩
  · refine run_items (fun _ => True) Fwd ?_ h1 trivial
    rintro w s r s' - hp
    refine ⟨trivial, fun d hd => ?_⟩
    subst hd
    have key : ∀ ks a q, entriesChange (V := V) bs ks a = some q → Fwd q.1 := by
      intro ks a q hb
      cases a <;> simp only [entriesChange] at hb
      all_goals repeat' split at hb
      all_goals first | (cases hb; done) | (cases hb; simp [Fwd])
    unfold MEntries.poll at hp
    repeat' split at hp
    all_goals cases hp
    rename_i hk
    exact key _ _ _ hk
  · rw [Src.got, h2] at g2
    cases g2.symm.trans hm
    exact ⟨ks, g3, g4, g5⟩

theorem mapValue_stage {f : V → W} {u : Tr (.map K V)} {t : Tr (.map K W)}
    (h : Rel (MMapValue.poll (logging f)) (MMapValue.init []) (·.signal) u t)
    (hu : (Ty.map K V).Good u) :
    (Ty.map K W).Good t ∧ (∀ o, Rest o t → Rest o u) ∧
      ∀ m, (Ty.map K V).Shows u m → (Ty.map K W).Shows t fun k => (m k).map f := by
  have hr : ∀ o, Rest o t → Rest o u := fun o => h.rest (C57_map_value _ _ _)
  obtain ⟨s, h1, h2⟩ := h
  simp only at h2
  have hu' : ∃ m, mreplay (items (u.map (·.2))) noKeys = some m := hu
  obtain ⟨outs, s', m, g1, g2, g3, -⟩ := C28_map_value f (u.map (·.2)) hu' (t.map (·.1))
  rw [h1] at g1
  cases g1
  refine ⟨⟨_, g3⟩, hr, fun m' hm => ?_⟩
  rw [Src.got, h2] at g2
  cases g2.symm.trans hm
  exact g3

theorem mreplay_lift (f : V → W) {ds : List (MapDiff K V)} {m : K → Option V} {z : K → Option W}
    (h : mreplay (ds.map (MapDiff.map f)) (fun k => (m k).map f) = some z) :
    ∃ m', mreplay ds m = some m' ∧ z = fun k => (m' k).map f := by
  induction ds generalizing m with
  | nil => cases h; exact ⟨m, rfl, rfl⟩
  | cons d ds ih =>
    simp only [List.map_cons, mreplay, map_apply'] at h
    cases hd : d.apply m with
    | none => simp [hd] at h
    | some m1 =>
      simp only [hd, Option.map_some] at h
      obtain ⟨m', g1, g2⟩ := ih h
      exact ⟨m', by simp [mreplay, hd, g1], g2⟩

theorem mapValueSignal_stage [Inhabited γ] {inst : V → Nat → SigTrace γ}
    (hi : ∀ b n, (Ty.sig γ).Good (inst b n))
    {u : List (Waker × Poll (Option (MapDiff K (V × Nat))))} (hu : (Ty.map K V).Good (bareMap u))
    {t : Tr (.map K γ)} {s : MMapSignal K (V × Nat) γ}
    (h1 : run (MMapSignal.poll fun q => (inst q.1 q.2).say) (t.map (·.1))
      (MMapSignal.init (u.map (·.2))) = some (t.map (·.2), s)) (h2 : s.signal.src.hist = u)
    (h3 : ∀ x ∈ s.signals, x.2.sig.src.hist = inst x.2.tag.1 x.2.tag.2) :
    (Ty.map K γ).Good t ∧ ∀ o, Rest o t → Rest o (bareMap u) ∧
      (∀ x ∈ s.signals, Rest o (inst x.2.tag.1 x.2.tag.2)) ∧
      ∀ P : V → γ → Prop,
        (∀ x ∈ s.signals, ∃ y, (inst x.2.tag.1 x.2.tag.2).last = some y ∧ P x.2.tag.1 y) →
        ∀ m, (Ty.map K V).Shows (bareMap u) m → ∃ z, (Ty.map K γ).Shows t z ∧
          ∀ k, (m k = none → z k = none) ∧ ∀ v, m k = some v → ∃ y, z k = some y ∧ P v y := by
  obtain ⟨mm, hx⟩ := hu
  have hx' := hx
  have hb : items ((bareMap u).map (·.2)) = (items (u.map (·.2))).map (MapDiff.map Prod.fst) := by
    rw [← items_mapItem]
    simp [bareMap, Function.comp_def]
  have hx2 : mreplay ((items (u.map (·.2))).map (MapDiff.map Prod.fst))
      (fun k => ((noKeys k : Option (V × Nat))).map Prod.fst) = some mm := by
    rw [← hb]; exact hx
  obtain ⟨ls, g1, g2⟩ := mreplay_lift Prod.fst hx2
  obtain ⟨outs, s', m', z, k1, k2, k3, k4, -, k6⟩ := C29_map_value_signal
    (fun q : V × Nat => (inst q.1 q.2).say)
    (fun q => say_eager (hi q.1 q.2)) (u.map (·.2)) ⟨ls, g1⟩ (t.map (·.1))
  rw [h1] at k1
  cases k1
  obtain ⟨⟨f1, f2⟩, f3, f4⟩ := C57_map_value_signal _ _ _ _ _ h1
  have hm' : m' = ls := by
    rw [Src.got, h2, g1] at k3
    exact (Option.some.inj k3).symm
  subst hm'
  refine ⟨⟨z, k2⟩, fun o hr => ?_⟩
  have hset : (s.signal.src.ended ∨ ∃ w, o = some w ∧ s.signal.src.armed w) ∧
      ∀ y ∈ s.signals, y.2.sig.src.ended ∨ ∃ w, o = some w ∧ y.2.sig.src.armed w := by
    rcases rest_cases hr with ⟨w, ho, c1, c2⟩ | c
    · exact ⟨(f4 w c1 c2).1.imp id fun h => ⟨w, ho, h⟩,
        fun y hy => ((f4 w c1 c2).2.1 y hy).imp id fun h => ⟨w, ho, h⟩⟩
    · exact ⟨.inl (f3 c).2.1, fun y hy => .inl ((f3 c).2.2 y hy)⟩
  refine ⟨(rest_map _ o u).2 (by rw [← h2]; exact Src.rest f1 hset.1), fun x hm => ?_, ?_⟩
  · rw [← h3 x hm]
    exact Src.rest (f2 x hm) (hset.2 x hm)
  · intro P hP m hm
    cases hm.symm.trans hx'
    have hz := k6 (by
      rcases rest_cases hr with ⟨w, -, -, c2⟩ | c
      · exact .inl c2
      · exact .inr c)
    refine ⟨z, k2, fun k => ?_⟩
    rw [g2]
    simp only [hz k, k4 k]
    cases hk : mapOf s.signals k with
    | none => simp
    | some x =>
      obtain ⟨y, hy, hp⟩ := hP _ (mapOf_mem hk)
      have : x.sig.src.got.getLast? = some y := by
        rw [← hy, Src.got, h3 _ (mapOf_mem hk)]; rfl
      simp only [Option.map_some, Option.bind_some, this]
      refine ⟨by simp, ?_⟩
      rintro v ⟨⟩
      exact ⟨y, rfl, hp⟩

end

/-! ## `chain` -/

theorem brisk_feed {u : Trace α} (hu : (Ty.vec α).Good u) :
    Trace.Brisk u ↔ Feed (fun d xs => ¬ Vacuous d xs) u.diffs [] := by
  rw [feed_iff]
  constructor
  · rintro h
    refine ⟨hu, fun a d b ys he hr hv => ?_⟩
    obtain ⟨hd, rfl⟩ := hv
    have := h a d b he hr
    exact hd.elim this.1 this.2
  · rintro ⟨-, h⟩ a d b he hr
    exact ⟨fun hd => h a d b [] he hr ⟨.inl hd, rfl⟩, fun hd => h a d b [] he hr ⟨.inr hd, rfl⟩⟩

theorem chain_stage {u v : Trace α} (hu : (Ty.vec α).Good u) (hv : (Ty.vec α).Good v)
    (bu : u.Brisk) (bv : v.Brisk) {t : Trace α} {s : VChain α}
    (h1 : run VChain.poll (t.map (·.1)) (VChain.init (u.map (·.2)) (v.map (·.2))) =
      some (t.map (·.2), s)) (h2 : s.left.src.hist = u) (h3 : s.right.src.hist = v) :
    (Ty.vec α).Good t ∧ ∀ o, Rest o t → (Rest o u ∧ Rest o v) ∧
      ∀ xs ys, (Ty.vec α).Shows u xs → (Ty.vec α).Shows v ys → (Ty.vec α).Shows t (xs ++ ys) := by
  obtain ⟨xs, hx⟩ := hu
  obtain ⟨ys, hy⟩ := hv
  obtain ⟨zs, g1, g2⟩ := chain_track h1 h2 h3 hx hy
  obtain ⟨outs, s', k1, k2, k3, k4⟩ := C58_C59_chain u.answers v.answers ⟨xs, hx⟩ ⟨ys, hy⟩
    t.wakers
  cases h1.symm.trans k1
  refine ⟨⟨zs, g1⟩, fun o hr => ⟨?_, ?_⟩⟩
  · have hset : (s.left.src.ended ∨ ∃ w, o = some w ∧ s.left.src.armed w) ∧
        (s.right.src.ended ∨ ∃ w, o = some w ∧ s.right.src.armed w) := by
      rcases rest_cases hr with ⟨w, ho, c1, c2⟩ | c
      · obtain ⟨outs, s', m1, m2⟩ := C57_chain_partial u.answers v.answers
          ((brisk_feed ⟨xs, hx⟩).1 bu) ((brisk_feed ⟨ys, hy⟩).1 bv) t.wakers w c1
        cases h1.symm.trans m1
        obtain ⟨n1, n2, -⟩ := m2 c2
        exact ⟨n1.imp id fun h => ⟨w, ho, h⟩, n2.imp id fun h => ⟨w, ho, h⟩⟩
      · exact ⟨.inl (k4 c).1, .inl (k4 c).2.1⟩
    exact ⟨h2 ▸ Src.rest k2 hset.1, h3 ▸ Src.rest k3 hset.2⟩
  · intro xs' ys' hx' hy'
    cases hx.symm.trans hx'
    cases hy.symm.trans hy'
    obtain ⟨-, -, rfl⟩ := g2 hr.atRest
    exact g1

end Verif
