import Verif.Props.Garbage

/-!
# Which dropped signals are still registered (property C77)

`Props/Garbage.lean` counts registrations; here it is stated which they are.
-/

namespace Verif.Mut

variable {α : Type}

/-- The signal that the event drops. -/
def Ev.dropped : Ev α → Option Nat
  | .dropSignal i => some i
  | _ => none

/-- The value, and the signals dropped since the last write that notified. -/
def droppedIds (a : α) (es : List (Ev α)) : α × List Nat :=
  es.foldl (fun p e => (e.newValue p.1,
    if e.notifies p.1 then [] else p.2 ++ e.dropped.toList)) (a, [])

theorem droppedIds_snoc (a : α) (es : List (Ev α)) (e : Ev α) :
    droppedIds a (es ++ [e]) = (e.newValue (droppedIds a es).1,
      if e.notifies (droppedIds a es).1 then [] else (droppedIds a es).2 ++ e.dropped.toList) := by
  unfold droppedIds
  rw [List.foldl_append]
  rfl

theorem droppedIds_fst (a : α) (es : List (Ev α)) : (droppedIds a es).1 = valueAfter a es := by
  refine snocRec (P := fun es => (droppedIds a es).1 = valueAfter a es) rfl ?_ es
  intro es e ih
  rw [droppedIds_snoc, ih]
  simp [valueAfter]

/-- What a step does to the signals. -/
structure Shape (m m' : World α) (e : Ev α) : Prop where
  cells : m'.cells = m.cells + if e.isSignal then 1 else 0
  alive : ∀ j, (m'.cell j).alive = if e.dropped = some j then false
    else if e.isSignal = true ∧ j = m.cells then true else (m.cell j).alive
  signals : m'.signals = if e.notifies m.value then m.signals.filter (fun i => (m.cell i).alive)
    else if e.isSignal then m.signals ++ [m.cells] else m.signals
  bound : ∀ i, e.dropped = some i → i < m.cells ∧ (m.cell i).alive = true

theorem notify_shape {m : World α} (hn : m.signals.Nodup) (hc : Bool) (a : α) :
    ({ m with value := a }.notify hc).cells = m.cells ∧
    (∀ j, (({ m with value := a }.notify hc).cell j).alive = (m.cell j).alive) ∧
    ({ m with value := a }.notify hc).signals = m.signals.filter (fun i => (m.cell i).alive) := by
  have hret := retain_spec hc m.signals ({ m with value := a } : World α) hn
  have heq : ({ m with value := a } : World α).notify hc = { m with
      value := a
      signals := m.signals.filter (fun i => (m.cell i).alive)
      cell := fun j => if j ∈ m.signals ∧ (m.cell j).alive then ((m.cell j).wake hc).1 else m.cell j
      woken := m.woken ++ m.signals.flatMap (fun i => (m.cell i).wakers) } := by
    unfold World.notify
    simp only [hret]
  rw [heq]
  refine ⟨rfl, fun j => ?_, rfl⟩
  dsimp only
  split
  · simp [ChangedWaker.wake]
  · rfl

theorem step_shape {m m' : World α} {e : Ev α} {o : Obs α} (hn : m.signals.Nodup)
    (hs : m.senders = m.handles) (hh : m.handles ≠ 0) (hne : e.newHandles m.handles ≠ 0)
    (h : m.step e = some (o, m')) : Shape m m' e := by
  have hnot : ∀ (e : Ev α) b, e.isSignal = false → e.dropped = none → e.notifies m.value = true →
      Shape m ({ m with value := b }.notify true) e := by
    intro e b h1 h2 h3
    obtain ⟨g1, g2, g3⟩ := notify_shape hn true b
    exact ⟨by simp [g1, h1], fun j => by simp [g2, h1, h2], by simp [g3, h3], fun i hi => by simp [h2] at hi⟩
  have hsame : ∀ (e : Ev α) (m' : World α), e.isSignal = false → e.dropped = none →
      e.notifies m.value = false → m'.cells = m.cells → m'.signals = m.signals →
      (∀ j, (m'.cell j).alive = (m.cell j).alive) → Shape m m' e := by
    intro e m' h1 h2 h3 h4 h5 h6
    exact ⟨by simp [h4, h1], fun j => by simp [h6, h1, h2], by simp [h5, h3, h1], fun i hi => by simp [h2] at hi⟩
  have hset : ∀ i c, c.alive = (m.cell i).alive → ∀ j, ((m.setCell i c).cell j).alive = (m.cell j).alive := by
    intro i c hc j
    simp only [World.setCell]
    split
    · rename_i hj; rw [hj, hc]
    · rfl
  cases e <;> simp only [World.step, hh, if_false] at h
  case set b => cases h; exact hnot _ b rfl rfl rfl
  case replace b => cases h; exact hnot _ b rfl rfl rfl
  case replaceWith f => cases h; exact hnot _ _ rfl rfl rfl
  case setIf b f =>
    cases h
    simp only [World.setIf]
    by_cases hf : f m.value b = true
    · rw [if_pos hf]; exact hnot _ b rfl rfl hf
    · rw [if_neg hf]; exact hsame _ _ rfl rfl (by simpa [Ev.notifies] using hf) rfl rfl fun _ => rfl
  case lockMut us =>
    cases h
    have hu := useAll_eq us false m.value
    simp only [World.lockMut, hu, Bool.false_or]
    by_cases hm : usesMut us = true
    · rw [hm]; exact hnot _ _ rfl rfl hm
    · rw [Bool.not_eq_true] at hm
      rw [hm]; exact hsame _ _ rfl rfl hm rfl rfl fun _ => rfl
  case get => cases h; exact hsame _ _ rfl rfl rfl rfl rfl fun _ => rfl
  case clone => cases h; exact hsame _ _ rfl rfl rfl rfl rfl fun _ => rfl
  case drop =>
    cases h
    have h1 : m.senders ≠ 1 := by
      simp only [Ev.newHandles] at hne
      omega
    simp only [World.drop, h1, if_false]
    exact hsame _ _ rfl rfl rfl rfl rfl fun _ => rfl
  case signal =>
    cases h
    have h1 : m.senders ≠ 0 := by omega
    simp only [World.signalState, h1, ne_eq, not_false_eq_true, if_true]
    refine ⟨rfl, fun j => ?_, rfl, fun i hi => by cases hi⟩
    simp only [World.setCell, Ev.dropped, Ev.isSignal]
    by_cases hj : j = m.cells <;> simp [hj, ChangedWaker.new]
  case poll i w =>
    split at h
    · cases h
      refine hsame _ _ rfl rfl rfl ?_ ?_ ?_
      all_goals
        simp only [World.pollChange]
        split
        · rename_i c hc
          simp only [ChangedWaker.isChanged, Prod.mk.injEq] at hc
          first | rfl | exact hset i c (by rw [← hc.2])
        · rename_i c hc
          simp only [ChangedWaker.isChanged, Prod.mk.injEq] at hc
          split
          · first | rfl | exact hset i c (by rw [← hc.2])
          · first | rfl | exact hset i _ (by rw [← hc.2]; rfl)
    · cases h
  case dropSignal i =>
    split at h
    · rename_i hi
      cases h
      refine ⟨rfl, fun j => ?_, rfl, fun k hk => by cases hk; exact hi⟩
      simp only [World.dropSignal, World.setCell, Ev.dropped, Ev.isSignal]
      by_cases hj : j = i
      · simp [hj]
      · have : i ≠ j := fun h => hj h.symm
        simp [hj, this]
    · cases h

/-- Who is registered. -/
structure Who (m : World α) (a : α) (es : List (Ev α)) : Prop where
  cells : m.cells = es.countP Ev.isSignal
  alive : ∀ i, i < m.cells → ((m.cell i).alive = true ↔ .dropSignal i ∉ es)
  bound : ∀ i, .dropSignal i ∈ es → i < m.cells
  ids : ∀ i ∈ (droppedIds a es).2, .dropSignal i ∈ es
  mem : ∀ i, i ∈ m.signals ↔ (i < m.cells ∧ (m.cell i).alive = true) ∨ i ∈ (droppedIds a es).2

theorem dropped_iff {e : Ev α} {i : Nat} : e.dropped = some i ↔ e = .dropSignal i := by
  cases e <;> simp [Ev.dropped]

theorem Who.step {m m' : World α} {a : α} {es : List (Ev α)} {e : Ev α} (h : Who m a es)
    (hv : m.value = (droppedIds a es).1) (hs : Shape m m' e) : Who m' a (es ++ [e]) := by
  have hc : m'.cells = (es ++ [e]).countP Ev.isSignal := by
    rw [List.countP_append, List.countP_singleton, ← h.cells]; exact hs.cells
  have hmem : ∀ i, (.dropSignal i ∈ es ++ [e]) ↔ .dropSignal i ∈ es ∨ e.dropped = some i := by
    intro i
    simp only [List.mem_append, List.mem_singleton, dropped_iff]
    constructor <;> rintro (h | h) <;> simp [h]
  have hle : m.cells ≤ m'.cells := by rw [hs.cells]; omega
  have hal : ∀ i, i < m'.cells → ((m'.cell i).alive = true ↔ .dropSignal i ∉ es ++ [e]) := by
    intro i hi
    rw [hs.alive, hmem, not_or]
    by_cases hd : e.dropped = some i
    · simp [hd]
    · rw [if_neg hd]
      by_cases hj : e.isSignal = true ∧ i = m.cells
      · rw [if_pos hj]
        refine ⟨fun _ => ⟨fun k => ?_, hd⟩, fun _ => rfl⟩
        have := h.bound i k
        omega
      · rw [if_neg hj]
        have hi' : i < m.cells := by
          rw [hs.cells] at hi
          by_cases hb : e.isSignal = true
          · rw [if_pos hb] at hi
            have : i ≠ m.cells := fun k => hj ⟨hb, k⟩
            omega
          · rw [if_neg hb] at hi; omega
        rw [h.alive i hi']
        exact ⟨fun k => ⟨k, hd⟩, fun k => k.1⟩
  have hin : ∀ i, i ∈ m.signals → i < m.cells := by
    intro i hi
    rcases (h.mem i).1 hi with k | k
    · exact k.1
    · exact h.bound i (h.ids i k)
  refine ⟨hc, hal, fun i hi => ?_, fun i hi => ?_, fun i => ?_⟩
  · rcases (hmem i).1 hi with k | k
    · exact Nat.lt_of_lt_of_le (h.bound i k) hle
    · exact Nat.lt_of_lt_of_le (hs.bound i k).1 hle
  · rw [droppedIds_snoc] at hi
    rw [hmem]
    dsimp only at hi
    split at hi
    · cases hi
    · rcases List.mem_append.1 hi with k | k
      · exact .inl (h.ids i k)
      · exact .inr (by simpa using k)
  · rw [droppedIds_snoc, ← hv, hs.signals]
    dsimp only
    by_cases hnf : e.notifies m.value = true
    · have h1 : e.isSignal = false ∧ e.dropped = none := by
        cases e <;> simp_all [Ev.notifies, Ev.isSignal, Ev.dropped]
      rw [if_pos hnf, if_pos hnf, List.mem_filter, hs.cells, hs.alive, h1.1, h1.2, h.mem]
      simp only [reduceCtorEq, Bool.false_eq_true, false_and, if_false, Nat.add_zero, List.not_mem_nil,
        or_false]
      constructor
      · rintro ⟨k | k, ha⟩
        · exact k
        · exact ⟨h.bound i (h.ids i k), ha⟩
      · exact fun k => ⟨.inl k, k.2⟩
    · rw [if_neg hnf, if_neg hnf]
      rw [List.mem_append, Option.mem_toList]
      by_cases hsig : e.isSignal = true
      · have h1 : e.dropped = none := by cases e <;> simp_all [Ev.isSignal, Ev.dropped]
        rw [if_pos hsig, List.mem_append, List.mem_singleton, h.mem, hs.cells, hs.alive, hsig, h1]
        simp only [reduceCtorEq, if_true, if_false, true_and, or_false]
        by_cases hi : i = m.cells
        · simp [hi]
        · have : i < m.cells + 1 ↔ i < m.cells := by omega
          simp [hi, this]
      · rw [if_neg hsig, h.mem, hs.cells, hs.alive]
        rw [Bool.not_eq_true] at hsig
        rw [hsig]
        simp only [Bool.false_eq_true, if_false, false_and, Nat.add_zero]
        by_cases hd : e.dropped = some i
        · obtain ⟨hb, ha⟩ := hs.bound i hd
          simp [hd, hb, ha]
        · simp [hd]

/-- **C77**, `Mutable`, which signals are registered: as long as there is a handle, exactly those that were
made and not dropped, and those dropped since the last write that notified, each once. -/
theorem C77_mutable_which (a : α) (es : List (Ev α)) (os : List (Obs α)) (m : World α)
    (h : (World.new a).runs es = some (os, m)) (hne : handlesAfter 1 es ≠ 0) :
    m.signals.Nodup ∧ ∀ i, i ∈ m.signals ↔
      (i < es.countP Ev.isSignal ∧ .dropSignal i ∉ es) ∨ i ∈ (droppedIds a es).2 := by
  have key : Who m a es := by
    revert os m h hne
    refine snocRec (P := fun es => ∀ os m, (World.new a).runs es = some (os, m) →
      handlesAfter 1 es ≠ 0 → Who m a es) ?_ ?_ es
    · intro os m h _
      cases h
      exact ⟨rfl, by simp [World.new], by simp, by simp [droppedIds], by simp [World.new, droppedIds]⟩
    · intro es e ih os m h hne
      obtain ⟨os1, o, m1, h1, h2, rfl⟩ := runs_snoc h
      have hsim := sim_runs_new h1
      have hha : handlesAfter 1 (es ++ [e]) = e.newHandles (handlesAfter 1 es) := by
        simp [handlesAfter]
      have hm1 : m1.handles = handlesAfter 1 es := by
        rw [hsim.handles, after_handles]; rfl
      have h0 : handlesAfter 1 es ≠ 0 := by
        intro k
        have hstep := h2
        rw [hha, k] at hne
        cases e <;> simp only [Ev.newHandles, ne_eq, not_true_eq_false] at hne
        simp [World.step, hm1, k] at hstep
      refine (ih os1 m1 h1 h0).step ?_ (step_shape ((C77_mutable a es os1 m1 h1).1 h0).1
        (by rw [hsim.senders, hsim.handles]) (by rw [hm1]; exact h0) (by rw [hm1, ← hha]; exact hne) h2)
      rw [droppedIds_fst, hsim.value, after_value]; rfl
  refine ⟨((C77_mutable a es os m h).1 hne).1, fun i => ?_⟩
  rw [key.mem, key.cells]
  constructor
  · rintro (⟨h1, h2⟩ | h1)
    · exact .inl ⟨h1, (key.alive i (by rw [key.cells]; exact h1)).1 h2⟩
    · exact .inr h1
  · rintro (⟨h1, h2⟩ | h1)
    · exact .inl ⟨h1, (key.alive i (by rw [key.cells]; exact h1)).2 h2⟩
    · exact .inr h1

/-- Three signals made; the first is dropped before a write that notifies, the last one after it. -/
example : ∃ os m, (World.new 1).runs [.signal, .signal, .dropSignal 0, .signal, .poll 1 7, .set 2,
      .dropSignal 2, .setIf 3 (fun _ _ => false)] = some (os, m) ∧ m.signals = [1, 2] ∧
    (droppedIds 1 [.signal, .signal, .dropSignal 0, .signal, .poll 1 7, .set 2,
      .dropSignal 2, .setIf 3 (fun _ _ => false)]).2 = [2] :=
  ⟨_, _, rfl, rfl, rfl⟩

end Verif.Mut

namespace Verif.Bc

variable {α β : Type}

/-- The subscribers dropped since the input last woke its waker (also while it was polled), and the number
of polls of the input so far. -/
def droppedIds (tr : List (Ev × Out α β)) : List Nat × Nat :=
  tr.foldl (fun p eo =>
    (match eo with
      | (.poll _ _, o) => if (o.hist.drop p.2).any (·.1) then [] else p.1
      | (.wake, _) => []
      | (.dropSub i, _) => p.1 ++ [i]
      | (.subscribe, _) => p.1, eo.2.hist.length)) ([], 0)

theorem droppedIds_snoc (tr : List (Ev × Out α β)) (e : Ev) (o : Out α β) :
    droppedIds (tr ++ [(e, o)]) =
      (match e with
        | .poll _ _ => if (o.hist.drop (droppedIds tr).2).any (·.1) then [] else (droppedIds tr).1
        | .wake => []
        | .dropSub i => (droppedIds tr).1 ++ [i]
        | .subscribe => (droppedIds tr).1, o.hist.length) := by
  unfold droppedIds
  rw [List.foldl_append]
  cases e <;> rfl

/-- Who is registered. -/
structure Who (m : World α) (es : List Ev) (out : List Nat) : Prop where
  made : m.made = es.countP Ev.isSubscribe
  alive : ∀ i, i < m.made → ((m.cell i).alive = true ↔ .dropSub i ∉ es)
  bound : ∀ i, .dropSub i ∈ es → i < m.made
  ids : ∀ i ∈ out, .dropSub i ∈ es
  mem : ∀ i, i ∈ m.wakers ↔ (i < m.made ∧ (m.cell i).alive = true) ∨ i ∈ out

theorem Who.swept {m m' : World α} {p : Bool} {es : List Ev} {ids : List Nat} {e : Ev} (h : Who m es ids)
    (hs : Swept p m m') (h1 : e.isSubscribe = false) (h2 : ∀ i, e ≠ .dropSub i) :
    Who m' (es ++ [e]) (if p then [] else ids) := by
  have hmem : ∀ i, .dropSub i ∈ es ++ [e] ↔ .dropSub i ∈ es := by
    intro i
    have := h2 i
    simp only [List.mem_append, List.mem_singleton, or_iff_left_iff_imp]
    exact fun k => (this k.symm).elim
  refine ⟨by simp [hs.made, h.made, List.countP_append, h1], fun i hi => ?_, fun i hi => ?_, fun i hi => ?_,
    fun i => ?_⟩
  · rw [hs.alive, hmem]; rw [hs.made] at hi; exact h.alive i hi
  · rw [hs.made]; exact h.bound i ((hmem i).1 hi)
  · rw [hmem]
    cases p with
    | false => exact h.ids i hi
    | true => cases hi
  · rw [hs.wakers, hs.made, hs.alive]
    cases p with
    | false => exact h.mem i
    | true =>
      simp only [if_true, List.mem_filter, List.not_mem_nil, or_false, h.mem]
      constructor
      · rintro ⟨k | k, ha⟩
        · exact k
        · exact ⟨h.bound i (h.ids i k), ha⟩
      · exact fun k => ⟨.inl k, k.2⟩

/-- **C77**, `Broadcaster`, which subscribers are registered: exactly those that were made and not dropped,
and those dropped since the input last woke its waker, each once. -/
theorem C77_broadcaster_which (script : List (Step α)) (f : Nat → α → β) (es : List Ev)
    (os : List (Out α β)) (m : World α)
    (hr : runE (World.step f) (World.new script) es = some (os, m)) :
    m.wakers.Nodup ∧ ∀ i, i ∈ m.wakers ↔
      (i < es.countP Ev.isSubscribe ∧ .dropSub i ∉ es) ∨ i ∈ (droppedIds (es.zip os)).1 := by
  have key := runE_inv (Inv := fun es (os : List (Out α β)) (m : World α) => es.length = os.length ∧
      (droppedIds (es.zip os)).2 = m.hist.length ∧ Who m es (droppedIds (es.zip os)).1)
    ⟨rfl, rfl, rfl, by simp [World.new], by simp, by simp [droppedIds], by simp [World.new, droppedIds]⟩ ?_ hr
  · obtain ⟨-, -, key⟩ := key
    refine ⟨(C77_broadcaster script f es os m hr).1, fun i => ?_⟩
    rw [key.mem, key.made]
    constructor
    · rintro (⟨h1, h2⟩ | h1)
      · exact .inl ⟨h1, (key.alive i (by rw [key.made]; exact h1)).1 h2⟩
      · exact .inr h1
    · rintro (⟨h1, h2⟩ | h1)
      · exact .inl ⟨h1, (key.alive i (by rw [key.made]; exact h1)).2 h2⟩
      · exact .inr h1
  · intro es os s e o s' ⟨hl, hlen, hi⟩ hs
    refine ⟨by simp [hl], ?_⟩
    rw [List.zip_append hl]
    simp only [List.zip_cons_cons, List.zip_nil_right, droppedIds_snoc]
    cases e with
    | poll i w =>
      obtain ⟨h1, b, h2, h3⟩ := swept_poll hs
      refine ⟨by rw [h1], ?_⟩
      have := hi.swept (e := .poll i w) h3 rfl (fun _ k => by cases k)
      simp only [hlen, h1, h2, List.drop_left]
      exact this
    | wake =>
      simp only [World.step] at hs
      cases hs
      obtain ⟨g1, g2⟩ := swept_notify ({ s with woken := [] } : World α)
      exact ⟨rfl, hi.swept (e := .wake) (p := true) ⟨g1.wakers, g1.alive, g1.made⟩ rfl (fun _ k => by cases k)⟩
    | subscribe =>
      simp only [World.step] at hs
      cases hs
      have hmem : ∀ i, Ev.dropSub i ∈ es ++ [.subscribe] ↔ .dropSub i ∈ es := by simp
      have hmade : (({ s with woken := [] } : World α).subscribe).made = s.made + 1 := rfl
      have hal : ∀ j, ((({ s with woken := [] } : World α).subscribe).cell j).alive =
          if j = s.made then true else (s.cell j).alive := by
        intro j
        simp only [World.subscribe, World.setCell]
        split <;> rfl
      refine ⟨rfl, by rw [hmade, hi.made]; simp [List.countP_append, Ev.isSubscribe], fun i hlt => ?_,
        fun i k => ?_, fun i k => (hmem i).2 (hi.ids i k), fun i => ?_⟩
      · rw [hal, hmem]
        by_cases hj : i = s.made
        · simp only [hj, if_true, true_iff]
          exact fun k => Nat.lt_irrefl _ (hi.bound _ k)
        · rw [if_neg hj]
          exact hi.alive i (by omega)
      · have := hi.bound i ((hmem i).1 k)
        omega
      · show i ∈ s.wakers ++ [s.made] ↔ _
        rw [hal, hmade, List.mem_append, List.mem_singleton, hi.mem]
        by_cases hj : i = s.made
        · simp [hj]
        · have : i < s.made + 1 ↔ i < s.made := by omega
          simp [hj, this]
    | dropSub k =>
      simp only [World.step] at hs
      split at hs
      · rename_i hk
        cases hs
        have hmem : ∀ i, Ev.dropSub i ∈ es ++ [.dropSub k] ↔ .dropSub i ∈ es ∨ i = k := by simp
        have hal : ∀ j, ((({ s with woken := [] } : World α).setCell k { s.cell k with alive := false }).cell
            j).alive = if j = k then false else (s.cell j).alive := by
          intro j
          simp only [World.setCell]
          split <;> rfl
        have hmade : (({ s with woken := [] } : World α).setCell k { s.cell k with alive := false }).made =
          s.made := rfl
        refine ⟨rfl, by rw [hmade, hi.made]; simp [List.countP_append, Ev.isSubscribe], fun i hlt => ?_,
          fun i h => ?_, fun i h => ?_, fun i => ?_⟩
        · rw [hal, hmem]
          by_cases hj : i = k
          · simp [hj]
          · simp only [hj, if_false, or_false]
            exact hi.alive i hlt
        · rcases (hmem i).1 h with h | h
          · exact hi.bound i h
          · rw [h]; exact hk.1
        · rw [hmem]
          rcases List.mem_append.1 h with h | h
          · exact .inl (hi.ids i h)
          · exact .inr (by simpa using h)
        · show i ∈ s.wakers ↔ _
          rw [hal, hmade, List.mem_append, List.mem_singleton, hi.mem]
          by_cases hj : i = k
          · subst hj; simp [hk.1, hk.2]
          · simp [hj]
      · cases hs

/-- A subscriber dropped before the input wakes its waker, and one after. -/
example : ∃ os m, runE (World.step fun i a => 10 * i + a) (World.new twoScript)
      [.subscribe, .subscribe, .subscribe, .poll 0 5, .dropSub 1, .wake, .dropSub 0] = some (os, m) ∧
    m.wakers = [0, 2] ∧ (droppedIds ([.subscribe, .subscribe, .subscribe, .poll 0 5, .dropSub 1, .wake,
      .dropSub 0].zip os)).1 = [0] := ⟨_, _, rfl, rfl, rfl⟩

end Verif.Bc
