import Verif.Props.SameMore
import Verif.SinkProofs
import Verif.Checks

/-!
# C101, continued: what is made of a list does not see a `map` before it
-/

namespace Verif

variable {α β γ A B σ τ ρ : Type}

/-- What a loop body does, with other loop variables. -/
def Ctl.over (F : σ → τ) : Ctl σ ρ → Ctl τ ρ
  | .cont s => .cont (F s)
  | .ret s r => .ret (F s) r
  | .panic => .panic

/-- An input of which all items are changed by `h`. -/
def Src.over (h : A → B) (s : Src (Option A)) : Src (Option B) :=
  ⟨s.todo.map (Poll.mapItem h), s.hist.map fun q => (q.1, q.2.mapItem h)⟩

theorem pollLoop_over {h : A → B} {F : σ → τ} {b1 : σ → A → Ctl σ ρ} {b2 : τ → B → Ctl τ ρ}
    (hb : ∀ s a, b2 (F s) (h a) = (b1 s a).over F) (w : Waker) :
    ∀ (todo : List (Poll (Option A))) (hist : List (Waker × Poll (Option A))) (s : σ),
      pollLoop w b2 (todo.map (Poll.mapItem h)) (hist.map fun q => (q.1, q.2.mapItem h)) (F s) =
        ((pollLoop w b1 todo hist s).1, F (pollLoop w b1 todo hist s).2.1, (pollLoop w b1 todo hist s).2.2.over h)
  | [], hist, s => by simp [pollLoop, Src.over, Poll.mapItem]
  | .pending :: rs, hist, s => by simp [pollLoop, Src.over, Poll.mapItem]
  | .ready none :: rs, hist, s => by simp [pollLoop, Src.over, Poll.mapItem]
  | .ready (some a) :: rs, hist, s => by
    have e : Poll.mapItem h (.ready (some a)) = .ready (some (h a)) := rfl
    simp only [pollLoop, List.map_cons, e, hb]
    cases hc : b1 s a with
    | cont s' =>
      simp only [Ctl.over]
      have := pollLoop_over hb w rs (hist ++ [(w, .ready (some a))]) s'
      rw [List.map_append] at this
      exact this
    | ret s' r => simp [Ctl.over, Src.over, Poll.mapItem]
    | panic => simp [Ctl.over, Src.over, Poll.mapItem]

theorem Inp.loop_over {h : A → B} {F : σ → τ} {b1 : σ → A → Ctl σ ρ} {b2 : τ → B → Ctl τ ρ}
    (hb : ∀ s a, b2 (F s) (h a) = (b1 s a).over F) (w : Waker) (i : Inp (Option A)) (s : σ) :
    Inp.loop w b2 ⟨i.src.over h, i.alive⟩ (F s) =
      ((i.loop w b1 s).1, F (i.loop w b1 s).2.1, ⟨(i.loop w b1 s).2.2.src.over h, (i.loop w b1 s).2.2.alive⟩) := by
  simp only [Inp.loop, Src.loop]
  cases ha : i.alive
  · simp [ha]
  · simp only [↓reduceIte, Src.over]
    rw [pollLoop_over hb w i.src.todo i.src.hist s]
    rcases pollLoop w b1 i.src.todo i.src.hist s with ⟨st, s', src'⟩
    cases st <;> rfl

theorem pollLoop_plays {script : List (Poll (Option A))} {w : Waker} {body : σ → A → Ctl σ ρ} :
    ∀ (todo : List (Poll (Option A))) (hist : List (Waker × Poll (Option A))) (s : σ), Plays script ⟨todo, hist⟩ →
      Plays script (pollLoop w body todo hist s).2.2
  | [], hist, s, h => h.poll (w := w) rfl
  | .pending :: rs, hist, s, h => h.poll (w := w) rfl
  | .ready none :: rs, hist, s, h => h.poll (w := w) rfl
  | .ready (some a) :: rs, hist, s, h => by
    have h' : Plays script ⟨rs, hist ++ [(w, .ready (some a))]⟩ := h.poll (w := w) rfl
    simp only [pollLoop]
    cases body s a with
    | cont s' => exact pollLoop_plays rs _ s' h'
    | ret s' r => exact h'
    | panic => exact h'

theorem Inp.loop_plays {script : List (Poll (Option A))} (w : Waker) (body : σ → A → Ctl σ ρ) (i : Inp (Option A)) (s : σ)
    (h : Plays script i.src) : Plays script (i.loop w body s).2.2.src := by
  simp only [Inp.loop, Src.loop]
  cases ha : i.alive
  · exact h
  · have := pollLoop_plays (w := w) (body := body) i.src.todo i.src.hist s h
    rcases hr : pollLoop w body i.src.todo i.src.hist s with ⟨st, s', src'⟩
    rw [hr] at this
    cases st <;> simpa [hr] using this

theorem Plays.all {script : List (Poll A)} {src : Src A} (h : Plays script src) (hl : src.hist.length = script.length) :
    src.hist.map (·.2) = script := by
  obtain ⟨k, hk⟩ := h
  have := congrArg (List.take script.length) hk
  rwa [List.take_left' (by simpa using hl), List.take_left' rfl] at this

/-- A poll and the same poll with other states. -/
theorem run_over {M N : Type} {poll : Waker → M → Option (Poll (Option γ) × M)}
    {poll' : Waker → N → Option (Poll (Option γ) × N)} {G : M → N}
    (h : ∀ w m, poll' w (G m) = (poll w m).map fun r => (r.1, G r.2)) :
    ∀ (ws : List Waker) (m : M), run poll' ws (G m) = (run poll ws m).map fun r => (r.1, G r.2)
  | [], _ => rfl
  | w :: ws, m => by
    simp only [run, h]
    rcases poll w m with _ | ⟨(_ | a) | _, m1⟩
    · rfl
    · rfl
    · simp only [Option.map_some, run_over h ws m1]
      cases run poll ws m1 <;> rfl
    · simp only [Option.map_some, run_over h ws m1]
      cases run poll ws m1 <;> rfl

/-- A signal made of a list sees no difference between the list and the list after a `map`, if it is the same with
other states. -/
theorem sink_over {M N : Type} {poll : Waker → M → Option (Poll (Option γ) × M)}
    {init : List (Poll (Option (VecDiff α))) → M} {input : M → Inp (Option (VecDiff α))}
    {poll' : Waker → N → Option (Poll (Option γ) × N)} {init' : List (Poll (Option (VecDiff β))) → N}
    {input' : N → Src (Option (VecDiff β))} (f : α → β) (G : M → N)
    (hp : ∀ w m, poll' w (G m) = (poll w m).map fun r => (r.1, G r.2))
    (hi : ∀ x, init' (x.map (Poll.mapItem (VecDiff.map f))) = G (init x))
    (hs : ∀ m, input' (G m) = (input m).src.over (VecDiff.map f))
    (h0 : ∀ x, input (init x) = Inp.mk' x)
    (hk : ∀ w m r m', (input m).Ok → poll w m = some (r, m') → (input m').Ok)
    (hpl : ∀ w m r m' x, Plays x (input m).src → poll w m = some (r, m') → Plays x (input m').src)
    (u : Trace α) (t : SigTrace γ) :
    (∃ v, Thru (fun (_ : Unit) d => .ret () (VecDiff.map f d)) () u v ∧ SinkRel poll' init' input' v t) ↔
      SinkRel poll init (fun m => (input m).src) u t := by
  simp only [Expr.thru_map]
  constructor
  · rintro ⟨_, ⟨rfl, hf⟩, s, hr, hh⟩
    have e : Trace.answers (List.map (fun q => (q.1, q.2.mapItem (VecDiff.map f))) u) =
        (Trace.answers u).map (Poll.mapItem (VecDiff.map f)) := by
      simp [Trace.answers, Function.comp_def]
    rw [e, hi, run_over hp] at hr
    rcases hr' : run poll (t.map (·.1)) (init (Trace.answers u)) with _ | ⟨rs, m⟩
    · rw [hr'] at hr
      cases hr
    · rw [hr'] at hr
      cases hr
      refine ⟨m, hr', ?_⟩
      rw [hs] at hh
      have hlen : (input m).src.hist.length = u.length := by simpa [Src.over] using congrArg List.length hh
      have h1 : (input m).src.hist.map (·.2) = u.map (·.2) := by
        refine Plays.all (run_keeps (I := fun m => Plays (Trace.answers u) (input m).src)
          (fun w m r m' h h' => hpl w m r m' _ h h') hr' ?_) (by simpa [Trace.answers] using hlen)
        rw [h0]
        exact plays_mk' _
      have h2 : (input m).src.hist.map (·.1) = u.map (·.1) := by
        simpa [Src.over, Function.comp_def] using congrArg (List.map (·.1)) hh
      apply List.ext_getElem?
      intro i
      have g1 := congrArg (·[i]?) h1
      have g2 := congrArg (·[i]?) h2
      simp only [List.getElem?_map] at g1 g2
      show (input m).src.hist[i]? = u[i]?
      generalize (input m).src.hist[i]? = x at g1 g2 ⊢
      generalize u[i]? = y at g1 g2 ⊢
      rcases x with _ | ⟨a, b⟩ <;> rcases y with _ | ⟨c, d⟩
      · rfl
      · cases g1
      · cases g1
      · cases g1
        cases g2
        rfl
  · rintro ⟨m, hr, hh⟩
    refine ⟨_, ⟨rfl, ?_⟩, G m, ?_, ?_⟩
    · have := (run_keeps (I := fun m => (input m).Ok) (fun w m r m' h h' => hk w m r m' h h') hr
        (by rw [h0]; exact Inp.ok_mk' _)).fused
      unfold Src.fused at this
      simp only at hh
      rw [hh] at this
      exact this
    · have e : Trace.answers (List.map (fun q => (q.1, q.2.mapItem (VecDiff.map f))) u) =
          (Trace.answers u).map (Poll.mapItem (VecDiff.map f)) := by
        simp [Trace.answers, Function.comp_def]
      rw [e, hi, run_over hp, hr]
      rfl
    · rw [hs]
      simp only at hh
      simp [Src.over, hh]

theorem insertIdx_over (f : α → β) : ∀ (l : List α) (i : Nat) (a : α),
    (l.map f).insertIdx i (f a) = (l.insertIdx i a).map f
  | _, 0, _ => rfl
  | [], _ + 1, _ => rfl
  | x :: l, i + 1, a => by simp [insertIdx_over f l i a]

theorem eraseIdx_over (f : α → β) : ∀ (l : List α) (i : Nat), (l.map f).eraseIdx i = (l.eraseIdx i).map f
  | [], _ => rfl
  | _ :: _, 0 => rfl
  | x :: l, i + 1 => by simp [eraseIdx_over f l i]

theorem vInsert_over (f : α → β) (l : List α) (i : Nat) (a : α) :
    vInsert (l.map f) i (f a) = (vInsert l i a).map (List.map f) := by
  simp only [vInsert, List.length_map]
  split <;> simp [insertIdx_over]

theorem vSet_over (f : α → β) (l : List α) (i : Nat) (a : α) :
    vSet (l.map f) i (f a) = (vSet l i a).map (List.map f) := by
  simp only [vSet, List.length_map]
  split <;> simp [List.map_set]

theorem vRemove_over (f : α → β) (l : List α) (i : Nat) :
    vRemove (l.map f) i = (vRemove l i).map fun r => (f r.1, r.2.map f) := by
  simp only [vRemove, List.getElem?_map]
  cases l[i]? <;> simp [eraseIdx_over]

theorem vPop_over (f : α → β) (l : List α) : vPop (l.map f) = ((vPop l).1.map f, (vPop l).2.map f) := by
  rcases List.eq_nil_or_concat l with rfl | ⟨p, x, hp⟩
  · rfl
  · rw [List.concat_eq_append] at hp
    subst hp
    simp [vPop_snoc]

theorem toSignalBody_over (f : α → β) (s : List α × Bool) (d : VecDiff α) :
    toSignalBody (s.1.map f, s.2) (d.map f) = (toSignalBody s d).over fun s => (s.1.map f, s.2) := by
  obtain ⟨l, c⟩ := s
  cases d with
  | replace l => rfl
  | clear => rfl
  | push a => simp [toSignalBody, VecDiff.map, Ctl.over]
  | insertAt i a =>
    simp only [toSignalBody, VecDiff.map, vInsert_over]
    cases vInsert l i a <;> rfl
  | updateAt i a =>
    simp only [toSignalBody, VecDiff.map, vSet_over]
    cases vSet l i a <;> rfl
  | removeAt i =>
    simp only [toSignalBody, VecDiff.map, vRemove_over]
    cases vRemove l i <;> rfl
  | move i j =>
    simp only [toSignalBody, VecDiff.map, vRemove_over]
    rcases vRemove l i with _ | ⟨a, l'⟩
    · rfl
    · simp only [Option.map_some, vInsert_over]
      cases vInsert l' j a <;> rfl
  | pop =>
    simp only [toSignalBody, VecDiff.map, vPop_over]
    rcases vPop l with ⟨_ | a, l'⟩ <;> rfl

theorem lenBody_over (f : α → β) (s : Nat × Bool) (d : VecDiff α) :
    lenBody s (d.map f) = (lenBody s d).over id := by
  obtain ⟨l, c⟩ := s
  cases d with
  | replace l => simp only [lenBody, VecDiff.map, List.length_map]; split <;> rfl
  | removeAt i => simp only [lenBody, VecDiff.map]; split <;> rfl
  | pop => simp only [lenBody, VecDiff.map]; split <;> rfl
  | clear => simp only [lenBody, VecDiff.map]; split <;> rfl
  | _ => rfl

namespace Expr

/-- **C101** (`map` before the end of a list).  `.map(f).to_signal_map(g)` is `.to_signal_map(|v| g(v with f applied))`,
and `len` and `is_empty` do not see a `map`. -/
theorem C101_map_sink (f : α → β) (g : List β → γ) (e : Expr (.vec α)) :
    Same (sink (.toSignalMap g) (pipe (.map f (.source 0)) e)) (sink (.toSignalMap fun xs => g (xs.map f)) e) ∧
    Same (sink .len (pipe (.map f (.source 0)) e)) (sink .len e) ∧
    Same (sink .isEmpty (pipe (.map f (.source 0)) e)) (sink .isEmpty e) := by
  have key : ∀ {δ : Type} (k : Sink β δ) (k' : Sink α δ), (∀ u t, (∃ v,
      Thru (fun (_ : Unit) d => .ret () (VecDiff.map f d)) () u v ∧ k.Exec v t) ↔ k'.Exec u t) →
      Same (sink k (pipe (.map f (.source 0)) e)) (sink k' e) := by
    intro δ k k' h l t W
    simp only [Expr.Exec, Pipe.Exec, rel_vMap, ← h]
    constructor
    · rintro ⟨v, ⟨u, h1, _, rfl, h2⟩, h3⟩
      exact ⟨_, h1, v, h2, h3⟩
    · rintro ⟨u, h1, v, h2, h3⟩
      exact ⟨v, ⟨u, h1, u, rfl, h2⟩, h3⟩
  have hlen : ∀ w (m : VLen α), VLen.poll w (⟨⟨m.signal.src.over (VecDiff.map f), m.signal.alive⟩, m.first, m.len⟩ : VLen β) =
      (VLen.poll w m).map fun r => (r.1, ⟨⟨r.2.signal.src.over (VecDiff.map f), r.2.signal.alive⟩, r.2.first, r.2.len⟩) := by
    intro w m
    simp only [VLen.poll]
    rw [show (m.len, false) = id (m.len, false) from rfl, Inp.loop_over (fun s a => lenBody_over f s a)]
    simp only [id]
    rcases m.signal.loop w lenBody (m.len, false) with ⟨st, ⟨n, c⟩, i⟩
    cases st <;> cases c <;> cases m.first <;> rfl
  have plen : ∀ w (m : VLen α) r m' x, Plays x m.signal.src → VLen.poll w m = some (r, m') → Plays x m'.signal.src := by
    intro w m r m' x h hp
    have := Inp.loop_plays w lenBody m.signal (m.len, false) h
    simp only [VLen.poll] at hp
    rcases hr : m.signal.loop w lenBody (m.len, false) with ⟨st, ⟨n, c⟩, i⟩
    rw [hr] at hp this
    cases st <;> simp only [reduceCtorEq] at hp <;> split at hp <;> (try split at hp) <;> cases hp <;> exact this
  refine ⟨key _ _ fun u t => ?_, key _ _ fun u t => ?_, key _ _ fun u t => ?_⟩
  · refine sink_over (M := VToSignal α) (N := VToSignal β) (input := fun m => m.signal) f
      (fun m => ⟨⟨m.signal.src.over (VecDiff.map f), m.signal.alive⟩, m.first, m.values.map f⟩) ?_ (fun _ => rfl)
      (fun _ => rfl) (fun _ => rfl) (fun w m r m' h h' => ((VToSignal.drains _) w m r m' h h').1) ?_ u t
    · intro w m
      simp only [VToSignal.poll]
      have := Inp.loop_over (F := fun s : List α × Bool => (s.1.map f, s.2)) (fun s a => toSignalBody_over f s a) w
        m.signal (m.values, false)
      simp only at this
      rw [this]
      rcases m.signal.loop w toSignalBody (m.values, false) with ⟨st, ⟨n, c⟩, i⟩
      cases st <;> cases c <;> cases m.first <;> rfl
    · intro w m r m' x h hp
      have := Inp.loop_plays w toSignalBody m.signal (m.values, false) h
      simp only [VToSignal.poll] at hp
      rcases hr : m.signal.loop w toSignalBody (m.values, false) with ⟨st, ⟨n, c⟩, i⟩
      rw [hr] at hp this
      cases st <;> simp only [reduceCtorEq] at hp <;> split at hp <;> (try split at hp) <;> cases hp <;> exact this
  · exact sink_over (M := VLen α) (N := VLen β) (input := fun m => m.signal) f
      (fun m => ⟨⟨m.signal.src.over (VecDiff.map f), m.signal.alive⟩, m.first, m.len⟩) hlen (fun _ => rfl)
      (fun _ => rfl) (fun _ => rfl) (fun w m r m' h h' => (VLen.drains w m r m' h h').1) plen u t
  · refine sink_over (M := VIsEmpty α) (N := VIsEmpty β) (input := fun m => m.len.signal) f
      (fun m => ⟨⟨⟨m.len.signal.src.over (VecDiff.map f), m.len.signal.alive⟩, m.len.first, m.len.len⟩, m.old⟩)
      ?_ (fun _ => rfl) (fun _ => rfl) (fun _ => rfl) (fun w m r m' h h' => (VIsEmpty.drains w m r m' h h').1) ?_ u t
    · intro w m
      simp only [VIsEmpty.poll, hlen]
      rcases VLen.poll w m.len with _ | ⟨(_ | n) | _, l⟩
      · rfl
      · rfl
      · simp only [Option.map_some]
        split <;> rfl
      · rfl
    · intro w m r m' x h hp
      simp only [VIsEmpty.poll] at hp
      rcases hq : VLen.poll w m.len with _ | ⟨(_ | n) | _, l⟩ <;> rw [hq] at hp
      · cases hp
      · cases hp
        exact plen _ _ _ _ _ h hq
      · simp only at hp
        split at hp <;> cases hp <;> exact plen _ _ _ _ _ h hq
      · cases hp
        exact plen _ _ _ _ _ h hq

/-- `always([1, 2, 3]).map(|x| x > 2)`: its `len`, and its elements. -/
example : (∃ W, (sink .len (pipe (.map (fun x : Nat => decide (x > 2)) (.source 0))
      (.source (.vecAlways [1, 2, 3] fun _ => [9, 9])))).Exec true [(9, .ready (some 3)), (9, .ready none)] W) ∧
    ∃ W, (sink (.toSignalMap (List.filter id)) (pipe (.map (fun x : Nat => decide (x > 2)) (.source 0))
      (.source (.vecAlways [1, 2, 3] fun _ => [9, 9])))).Exec true [(9, .ready (some [true])), (9, .ready none)] W :=
  ⟨⟨_, ((C101_map_sink _ id _).2.1 true _ _).2 ⟨_, ⟨0, trivial, fun _ => trivial, rfl, rfl⟩, _, rfl, rfl⟩⟩,
    ⟨_, ((C101_map_sink _ _ _).1 true _ _).2 ⟨_, ⟨0, trivial, fun _ => trivial, rfl, rfl⟩, _, rfl, rfl⟩⟩⟩

end Expr

end Verif
