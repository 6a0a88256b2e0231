import Verif.Props.Mutable
import Verif.Props.Broadcaster
import Verif.Props.HubConc

/-!
# Registrations of dropped signals (property C77)

A signal that is dropped stays registered with its `Mutable`, `MutableVec`, `MutableBTreeMap` or
`Broadcaster` until that next notifies.  The specification counts events of the history.
-/

namespace Verif.Mut

variable {α : Type}

/-- The event makes a signal. -/
def Ev.isSignal : Ev α → Bool
  | .signal => true
  | _ => false

/-- The event drops a signal. -/
def Ev.isDropSignal : Ev α → Bool
  | .dropSignal _ => true
  | _ => false

/-- The value, and the number of signals dropped since the last write that notified. -/
def droppedSince (a : α) (es : List (Ev α)) : α × Nat :=
  es.foldl (fun p e => (e.newValue p.1,
    if e.notifies p.1 then 0 else if e.isDropSignal then p.2 + 1 else p.2)) (a, 0)

/-! ## Lemmas -/

/-- How registrations change. -/
structure Reg (m : World α) (makes drops dead : Nat) : Prop where
  nodup : m.signals.Nodup
  bound : ∀ s ∈ m.signals, s < m.cells
  live : ∀ j, j < m.cells → (m.cell j).alive = true → j ∈ m.signals
  count : m.signals.countP (fun j => (m.cell j).alive) + drops = makes
  dead : m.signals.countP (fun j => !(m.cell j).alive) = dead

theorem countP_kill {l : List Nat} {p : Nat → Bool} {i : Nat} (hn : l.Nodup) (hi : i ∈ l)
    (hp : p i = true) :
    l.countP (fun j => if j = i then false else p j) + 1 = l.countP p ∧
      l.countP (fun j => !(if j = i then false else p j)) = l.countP (fun j => !p j) + 1 := by
  induction l with
  | nil => cases hi
  | cons x l ih =>
    obtain ⟨hx, hn⟩ := List.nodup_cons.1 hn
    by_cases hxi : x = i
    · subst hxi
      have h1 : l.countP (fun j => if j = x then false else p j) = l.countP p :=
        List.countP_congr fun j hj => by
          have : j ≠ x := fun h => hx (h ▸ hj)
          simp [this]
      have h2 : l.countP (fun j => !(if j = x then false else p j)) = l.countP (fun j => !p j) :=
        List.countP_congr fun j hj => by
          have : j ≠ x := fun h => hx (h ▸ hj)
          simp [this]
      rw [List.countP_cons, List.countP_cons, List.countP_cons, List.countP_cons, h1, h2]
      simp [hp]
    · have hi' : i ∈ l := by
        rcases List.mem_cons.1 hi with h | h
        · exact absurd h.symm hxi
        · exact h
      obtain ⟨g1, g2⟩ := ih hn hi'
      simp only [List.countP_cons, hxi, if_false]
      constructor
      · omega
      · omega

theorem Reg.notify {m : World α} {mk dr dd : Nat} (h : Reg m mk dr dd) (hc : Bool) (a : α) :
    Reg ({ m with value := a }.notify hc) mk dr 0 := by
  have hret := retain_spec hc m.signals ({ m with value := a } : World α) h.nodup
  have heq : ({ m with value := a } : World α).notify hc = { m with
      value := a
      signals := m.signals.filter (fun i => (m.cell i).alive)
      cell := fun j => if j ∈ m.signals ∧ (m.cell j).alive then ((m.cell j).wake hc).1 else m.cell j
      woken := m.woken ++ m.signals.flatMap (fun i => (m.cell i).wakers) } := by
    unfold World.notify
    simp only [hret]
  have hal : ∀ j, ((if j ∈ m.signals ∧ (m.cell j).alive then ((m.cell j).wake hc).1 else m.cell j)
      ).alive = (m.cell j).alive := by
    intro j
    split
    · rename_i hj; simp [ChangedWaker.wake]
    · rfl
  rw [heq]
  refine ⟨h.nodup.sublist List.filter_sublist, fun s hs => h.bound s (List.mem_filter.1 hs).1,
    fun j hj ha => ?_, ?_, ?_⟩
  · simp only [hal] at ha
    exact List.mem_filter.2 ⟨h.live j hj ha, ha⟩
  · simp only [hal]
    rw [List.countP_filter]
    simp only [Bool.and_self]
    exact h.count
  · simp only [hal]
    rw [List.countP_filter, List.countP_eq_zero]
    simp

theorem step_reg {m m' : World α} {e : Ev α} {o : Obs α} {mk dr dd : Nat} (hr : Reg m mk dr dd)
    (hs : m.senders = m.handles) (hh : m.handles ≠ 0) (hne : e.newHandles m.handles ≠ 0)
    (h : m.step e = some (o, m')) :
    Reg m' (mk + if e.isSignal then 1 else 0) (dr + if e.isDropSignal then 1 else 0)
      (if e.notifies m.value then 0 else if e.isDropSignal then dd + 1 else dd) := by
  have hset : ∀ i c, c.alive = (m.cell i).alive → Reg (m.setCell i c) mk dr dd := by
    intro i c hc
    have hal : ∀ j, ((m.setCell i c).cell j).alive = (m.cell j).alive := by
      intro j
      simp only [World.setCell]
      split
      · rename_i hj; rw [hj, hc]
      · rfl
    exact ⟨hr.nodup, hr.bound, fun j hj ha => hr.live j hj (by rw [← hal]; exact ha),
      by simp only [hal]; exact hr.count, by simp only [hal]; exact hr.dead⟩
  cases e <;> simp only [World.step, hh, if_false] at h
  case set b => cases h; exact hr.notify true b
  case replace b => cases h; exact hr.notify true b
  case replaceWith f =>
    cases h
    exact hr.notify true (f m.value).1
  case setIf b f =>
    cases h
    simp only [World.setIf, Ev.notifies, Ev.isSignal, Ev.isDropSignal, Bool.false_eq_true, if_false,
      Nat.add_zero]
    by_cases hf : f m.value b = true
    · rw [if_pos hf, if_pos hf]; exact hr.notify true b
    · rw [if_neg hf, if_neg hf]; exact hr
  case lockMut us =>
    cases h
    have hu := useAll_eq us false m.value
    simp only [World.lockMut, Ev.notifies, Ev.isSignal, Ev.isDropSignal, Bool.false_eq_true, if_false,
      Nat.add_zero, hu, Bool.false_or]
    by_cases hm : usesMut us = true
    · rw [hm]
      exact hr.notify true _
    · rw [Bool.not_eq_true] at hm
      rw [hm]
      exact ⟨hr.nodup, hr.bound, hr.live, hr.count, hr.dead⟩
  case get => cases h; exact hr
  case clone => cases h; exact ⟨hr.nodup, hr.bound, hr.live, hr.count, hr.dead⟩
  case drop =>
    cases h
    have h1 : m.senders ≠ 1 := by
      simp only [Ev.newHandles] at hne
      omega
    simp only [World.drop, h1, if_false]
    exact ⟨hr.nodup, hr.bound, hr.live, hr.count, hr.dead⟩
  case signal =>
    cases h
    have h1 : m.senders ≠ 0 := by omega
    simp only [World.signalState, h1, ne_eq, not_false_eq_true, if_true]
    have hfresh : m.cells ∉ m.signals := fun k => Nat.lt_irrefl _ (hr.bound _ k)
    have hold : ∀ j ∈ m.signals, ((m.setCell m.cells ChangedWaker.new).cell j) = m.cell j := by
      intro j hj
      have : j ≠ m.cells := fun k => hfresh (k ▸ hj)
      simp [World.setCell, this]
    have hnew : ((m.setCell m.cells ChangedWaker.new).cell m.cells).alive = true := by
      simp [World.setCell, ChangedWaker.new]
    refine ⟨?_, ?_, ?_, ?_, ?_⟩
    · rw [List.nodup_append]
      refine ⟨hr.nodup, by simp, ?_⟩
      intro x hx y hy hxy
      rw [List.mem_singleton] at hy
      exact hfresh (by rw [← hy, ← hxy]; exact hx)
    · intro s hs
      rcases List.mem_append.1 hs with hs | hs
      · exact Nat.lt_succ_of_lt (hr.bound s hs)
      · rw [List.mem_singleton.1 hs]; exact Nat.lt_succ_self _
    · intro j hj ha
      by_cases hjc : j = m.cells
      · simp [hjc]
      · refine List.mem_append_left _ (hr.live j ?_ ?_)
        · simp only at hj; omega
        · simpa [World.setCell, hjc] using ha
    · simp only [List.countP_append, List.countP_singleton, hnew, if_true]
      rw [List.countP_congr (fun j hj => by rw [hold j hj])]
      have := hr.count
      simp only [Ev.isSignal, Ev.isDropSignal, if_true, Bool.false_eq_true, if_false]
      omega
    · simp only [List.countP_append, List.countP_singleton, hnew, Bool.not_true, Bool.false_eq_true,
        if_false]
      rw [List.countP_congr (fun j hj => by rw [hold j hj])]
      exact hr.dead
  case poll i w =>
    split at h
    · cases h
      simp only [World.pollChange]
      split
      · rename_i c hc
        refine hset i c ?_
        simp only [ChangedWaker.isChanged, Prod.mk.injEq] at hc
        rw [← hc.2]
      · rename_i c hc
        simp only [ChangedWaker.isChanged, Prod.mk.injEq] at hc
        split
        · exact hset i c (by rw [← hc.2])
        · exact hset i _ (by rw [← hc.2]; rfl)
    · cases h
  case dropSignal i =>
    split at h
    · rename_i hi
      cases h
      have hmem := hr.live i hi.1 hi.2
      obtain ⟨g1, g2⟩ := countP_kill (p := fun j => (m.cell j).alive) hr.nodup hmem hi.2
      have hal : ∀ j, ((m.dropSignal i).cell j).alive = if j = i then false else (m.cell j).alive := by
        intro j
        simp only [World.dropSignal, World.setCell]
        split <;> rfl
      refine ⟨hr.nodup, hr.bound, fun j hj ha => hr.live j hj ?_, ?_, ?_⟩
      · rw [hal] at ha
        split at ha
        · cases ha
        · exact ha
      · simp only [hal]
        have := hr.count
        simp only [Ev.isSignal, Ev.isDropSignal, if_true, Bool.false_eq_true, if_false]
        simp only [World.dropSignal, World.setCell]
        omega
      · simp only [hal]
        have := hr.dead
        simp only [Ev.notifies, Ev.isDropSignal, if_true, Bool.false_eq_true, if_false]
        simp only [World.dropSignal, World.setCell]
        omega
    · cases h

theorem droppedSince_fst (a : α) (es : List (Ev α)) : (droppedSince a es).1 = valueAfter a es := by
  unfold droppedSince valueAfter
  have key : ∀ p : α × Nat, (es.foldl (fun p e => (e.newValue p.1,
      if e.notifies p.1 then 0 else if e.isDropSignal then p.2 + 1 else p.2)) p).1 =
      es.foldl (fun a e => e.newValue a) p.1 := by
    induction es with
    | nil => intro p; rfl
    | cons e es ih => intro p; rw [List.foldl_cons, List.foldl_cons]; exact ih _
  exact key (a, 0)

theorem droppedSince_snoc (a : α) (es : List (Ev α)) (e : Ev α) :
    (droppedSince a (es ++ [e])).2 = if e.notifies (droppedSince a es).1 then 0
      else if e.isDropSignal then (droppedSince a es).2 + 1 else (droppedSince a es).2 := by
  unfold droppedSince
  rw [List.foldl_append]
  rfl

/-! ## Theorem -/

/-- **C77**, `Mutable`: as long as there is a handle, exactly the live signals and those dropped since
the last notifying write are registered, each once.  Without a handle nothing is. -/
theorem C77_mutable (a : α) (es : List (Ev α)) (os : List (Obs α)) (m : World α)
    (h : (World.new a).runs es = some (os, m)) :
    (handlesAfter 1 es ≠ 0 → m.signals.Nodup ∧
      m.signals.length + es.countP Ev.isDropSignal =
        es.countP Ev.isSignal + (droppedSince a es).2) ∧
    (handlesAfter 1 es = 0 → m.signals = []) := by
  have key : handlesAfter 1 es ≠ 0 →
      Reg m (es.countP Ev.isSignal) (es.countP Ev.isDropSignal) (droppedSince a es).2 := by
    revert os m h
    refine snocRec (P := fun es => ∀ os m, (World.new a).runs es = some (os, m) →
      handlesAfter 1 es ≠ 0 →
      Reg m (es.countP Ev.isSignal) (es.countP Ev.isDropSignal) (droppedSince a es).2) ?_ ?_ es
    · intro os m h _
      cases h
      exact ⟨List.nodup_nil, by simp [World.new], by simp [World.new], rfl, rfl⟩
    · intro es e ih os m h hne
      obtain ⟨os1, o, m1, h1, h2, rfl⟩ := runs_snoc h
      have hsim := sim_runs_new h1
      have hha : handlesAfter 1 (es ++ [e]) = e.newHandles (handlesAfter 1 es) := by
        simp [handlesAfter]
      have hm1 : m1.handles = handlesAfter 1 es := by
        rw [hsim.handles, after_handles]; rfl
      have h0 : handlesAfter 1 es ≠ 0 := by
        intro k
        have hstep := h2
        rw [hha, k] at hne
        cases e <;> simp only [Ev.newHandles, ne_eq, not_true_eq_false] at hne
        simp [World.step, hm1, k] at hstep
      have := step_reg (ih os1 m1 h1 h0) (by rw [hsim.senders, hsim.handles]) (by rw [hm1]; exact h0)
        (by rw [hm1, ← hha]; exact hne) h2
      have hv : m1.value = (droppedSince a es).1 := by
        rw [droppedSince_fst, hsim.value, after_value]; rfl
      rw [List.countP_append, List.countP_append, List.countP_singleton, List.countP_singleton]
      rw [hv] at this
      rw [droppedSince_snoc]
      exact this
  refine ⟨fun hne => ⟨(key hne).nodup, ?_⟩, fun h0 => ?_⟩
  · have hk := key hne
    have h1 := hk.count
    have h2 := hk.dead
    have h3 := List.length_eq_countP_add_countP (fun j => (m.cell j).alive) (l := m.signals)
    have h4 : m.signals.countP (fun j => decide ¬((m.cell j).alive = true)) =
        m.signals.countP (fun j => !(m.cell j).alive) := List.countP_congr fun j _ => by simp
    omega
  · have hsim := sim_runs_new h
    exact (hsim.quiet (by rw [after_handles]; exact h0)).1

/-- Signals made and dropped, `n` times. -/
def makeAndDrop : Nat → List (Ev α)
  | 0 => []
  | n + 1 => makeAndDrop n ++ [.signal, .dropSignal n]

theorem runs_makeAndDrop (a : α) (n : Nat) : ∃ os m, (World.new a).runs (makeAndDrop n) = some (os, m) ∧
    m.cells = n ∧ handlesAfter 1 (makeAndDrop n : List (Ev α)) = 1 ∧
    (makeAndDrop n : List (Ev α)).countP Ev.isSignal = n ∧
    (makeAndDrop n : List (Ev α)).countP Ev.isDropSignal = n ∧ (droppedSince a (makeAndDrop n)).2 = n := by
  induction n with
  | zero => exact ⟨[], _, rfl, rfl, rfl, rfl, rfl, rfl⟩
  | succ n ih =>
    obtain ⟨os, m, h1, h2, h3, h4, h5, h6⟩ := ih
    have hstep : ∃ os2 m2, m.runs [.signal, .dropSignal n] = some (os2, m2) ∧ m2.cells = n + 1 := by
      have hc : (m.signalState).cells = n + 1 := by
        simp only [World.signalState]; split <;> simp [h2]
      have ha : ((m.signalState).cell n).alive = true := by
        simp only [World.signalState]; split <;> simp [World.setCell, h2, ChangedWaker.new]
      refine ⟨[.unit, .unit], m.signalState.dropSignal n, ?_, by simp [World.dropSignal, World.setCell, hc]⟩
      simp [World.runs, World.step, hc, ha]
    obtain ⟨os2, m2, g1, g2⟩ := hstep
    refine ⟨os ++ os2, m2, runs_append_of h1 g1, g2, ?_, ?_, ?_, ?_⟩
    · simp only [makeAndDrop, handlesAfter, List.foldl_append]
      simp only [handlesAfter] at h3
      rw [h3]; rfl
    · simp [makeAndDrop, List.countP_append, h4, List.countP_cons, Ev.isSignal]
    · simp [makeAndDrop, List.countP_append, h5, List.countP_cons, Ev.isDropSignal]
    · have : (makeAndDrop (n + 1) : List (Ev α)) = (makeAndDrop n ++ [.signal]) ++ [.dropSignal n] := by
        simp [makeAndDrop]
      rw [this, droppedSince_snoc, droppedSince_snoc, h6]
      rfl

/-- **C77**, `Mutable`: without writes the registrations of dropped signals pile up: there is no bound,
although no signal is alive. -/
theorem C77_mutable_piles_up (a : α) (n : Nat) : ∃ os m,
    (World.new a).runs (makeAndDrop n) = some (os, m) ∧
    (makeAndDrop n : List (Ev α)).countP Ev.isSignal =
      (makeAndDrop n : List (Ev α)).countP Ev.isDropSignal ∧ m.signals.length = n := by
  obtain ⟨os, m, h1, -, h3, h4, h5, h6⟩ := runs_makeAndDrop a n
  refine ⟨os, m, h1, h4.trans h5.symm, ?_⟩
  have := ((C77_mutable a _ os m h1).1 (by rw [h3]; decide)).2
  omega

/-- Three signals made, one dropped before a write and one after. -/
example : ∃ os m, (World.new 1).runs [.signal, .signal, .dropSignal 0, .signal, .poll 1 7, .set 2,
      .dropSignal 2, .setIf 3 (fun _ _ => false)] = some (os, m) ∧ m.signals = [1, 2] ∧
    (droppedSince 1 [.signal, .signal, .dropSignal 0, .signal, .poll 1 7, .set 2,
      .dropSignal 2, .setIf 3 (fun _ _ => false)]).2 = 1 :=
  ⟨_, _, rfl, rfl, rfl⟩

end Verif.Mut

namespace Verif.Bc

open Verif.Mut (ChangedWaker countP_kill)

variable {α β : Type}

/-- The event makes a subscriber. -/
def Ev.isSubscribe : Ev → Bool
  | .subscribe => true
  | _ => false

/-- The event drops a subscriber. -/
def Ev.isDropSub : Ev → Bool
  | .dropSub _ => true
  | _ => false

/-- The number of subscribers dropped since the input last woke its waker (also while it was polled),
and the number of polls of the input so far. -/
def droppedSince (tr : List (Ev × Out α β)) : Nat × Nat :=
  tr.foldl (fun p eo =>
    (match eo with
      | (.poll _ _, o) => if (o.hist.drop p.2).any (·.1) then 0 else p.1
      | (.wake, _) => 0
      | (.dropSub _, _) => p.1 + 1
      | (.subscribe, _) => p.1, eo.2.hist.length)) (0, 0)

/-! ## Lemmas -/

/-- Registrations, when some of the dead have been thrown out. -/
structure Swept (purged : Bool) (m m' : World α) : Prop where
  wakers : m'.wakers = if purged then m.wakers.filter (fun i => (m.cell i).alive) else m.wakers
  alive : ∀ j, (m'.cell j).alive = (m.cell j).alive
  made : m'.made = m.made

theorem Swept.refl (m : World α) : Swept false m m := ⟨rfl, fun _ => rfl, rfl⟩

theorem Swept.trans {p q : Bool} {m m' m'' : World α} (h : Swept p m m') (h' : Swept q m' m'') :
    Swept (p || q) m m'' := by
  refine ⟨?_, fun j => (h'.alive j).trans (h.alive j), h'.made.trans h.made⟩
  rw [h'.wakers, h.wakers]
  have hal : (fun i => (m'.cell i).alive) = fun i => (m.cell i).alive := funext h.alive
  rw [hal]
  cases p <;> cases q <;> simp [List.filter_filter]

theorem swept_notify (m : World α) : Swept true m m.notify ∧ m.notify.hist = m.hist := by
  obtain ⟨c, wk, h, hc⟩ := notify_spec m
  rw [h]
  exact ⟨⟨rfl, hc.alive, rfl⟩, rfl⟩

theorem swept_loop (todo : List (Step α)) (m : World α) (ch : Bool) :
    ∃ b, (m.loop ch todo).2.hist = m.hist ++ b ∧ Swept (b.any (·.1)) m (m.loop ch todo).2 := by
  induction todo generalizing m ch with
  | nil => exact ⟨[(false, .pending)], rfl, rfl, fun _ => rfl, rfl⟩
  | cons x rest ih =>
    obtain ⟨s, r⟩ := x
    have hone : ∀ m1 : World α, m1.wakers = m.wakers → m1.cell = m.cell → m1.made = m.made →
        m1.hist = m.hist ++ [(s, r)] →
        (if s = true then m1.notify else m1).hist = m.hist ++ [(s, r)] ∧
          Swept s m (if s = true then m1.notify else m1) := by
      intro m1 h1 h2 h3 h4
      cases s with
      | false => exact ⟨h4, h1, fun j => by simp [h2], h3⟩
      | true =>
        obtain ⟨g, g'⟩ := swept_notify m1
        refine ⟨g'.trans h4, ?_, fun j => by rw [← h2]; exact g.alive j, g.made.trans h3⟩
        have := g.wakers
        rw [h1, h2] at this
        exact this
    have hbase := hone { m with todo := rest, hist := m.hist ++ [(s, r)] } rfl rfl rfl rfl
    cases r with
    | pending =>
      simp only [World.loop]
      refine ⟨[(s, .pending)], hbase.1, ?_⟩
      simpa using hbase.2
    | ready r =>
      cases r with
      | none =>
        simp only [World.loop]
        refine ⟨[(s, .ready none)], hbase.1, ?_⟩
        simp only [List.any_cons, List.any_nil, Bool.or_false]
        exact ⟨hbase.2.wakers, hbase.2.alive, hbase.2.made⟩
      | some a =>
        simp only [World.loop]
        obtain ⟨b, h1, h2⟩ := ih { (if s = true then World.notify { m with todo := rest, hist := m.hist ++ [(s, .ready (some a))] } else { m with todo := rest, hist := m.hist ++ [(s, .ready (some a))] }) with value := some a } true
        refine ⟨(s, .ready (some a)) :: b, ?_, ?_⟩
        · rw [h1]
          show World.hist (if s = true then _ else _) ++ b = _
          rw [hbase.1, List.append_assoc]; rfl
        · rw [List.any_cons]
          refine Swept.trans (m' := { (if s = true then World.notify { m with todo := rest, hist := m.hist ++ [(s, .ready (some a))] } else { m with todo := rest, hist := m.hist ++ [(s, .ready (some a))] }) with value := some a }) ?_ h2
          exact ⟨hbase.2.wakers, hbase.2.alive, hbase.2.made⟩

theorem swept_decide {m m' : World α} {i : Nat} {w : Waker} {f : α → β} {r : Poll (Option β)}
    (h : m.decide i w f = some (r, m')) : Swept false m m' ∧ m'.hist = m.hist := by
  unfold World.decide at h
  split at h
  · split at h <;> cases h
    · exact ⟨Swept.refl _, rfl⟩
    · refine ⟨⟨rfl, fun j => ?_, rfl⟩, rfl⟩
      simp only [World.setCell]
      split
      · rename_i hj; rw [hj]; rfl
      · rfl
  · split at h <;> cases h
    exact ⟨⟨rfl, fun _ => rfl, rfl⟩, rfl⟩

theorem swept_poll {m m' : World α} {i : Nat} {w : Waker} {f : Nat → α → β} {o : Out α β}
    (h : m.step f (.poll i w) = some (o, m')) :
    o.hist = m'.hist ∧ ∃ b, m'.hist = m.hist ++ b ∧ Swept (b.any (·.1)) m m' := by
  simp only [World.step] at h
  split at h
  · split at h <;> cases h
    rename_i r hp
    refine ⟨rfl, ?_⟩
    unfold World.pollChange at hp
    split at hp
    · obtain ⟨h1, h2⟩ := swept_decide hp
      have hs : ∃ b, World.hist (World.pollSignal { m with isChanged := false, woken := [] }) = m.hist ++ b ∧
          Swept (b.any (·.1)) m (World.pollSignal { m with isChanged := false, woken := [] }) := by
        simp only [World.pollSignal]
        split
        · obtain ⟨b, g1, g2⟩ := swept_loop m.todo ({ m with isChanged := false, woken := [] } : World α) false
          split <;> rename_i hl <;> rw [hl] at g1 g2 <;>
            exact ⟨b, g1, g2.wakers, g2.alive, g2.made⟩
        · exact ⟨[], by simp, rfl, fun _ => rfl, rfl⟩
      obtain ⟨b, g1, g2⟩ := hs
      refine ⟨b, by rw [h2]; exact g1, ?_⟩
      have := g2.trans h1
      rwa [Bool.or_false] at this
    · obtain ⟨h1, h2⟩ := swept_decide hp
      exact ⟨[], by simp [h2], h1.wakers, h1.alive, h1.made⟩
  · cases h

/-- Registrations, counted. -/
structure Reg (m : World α) (makes drops dead : Nat) : Prop where
  nodup : m.wakers.Nodup
  bound : ∀ s ∈ m.wakers, s < m.made
  live : ∀ j, j < m.made → (m.cell j).alive = true → j ∈ m.wakers
  count : m.wakers.countP (fun j => (m.cell j).alive) + drops = makes
  dead : m.wakers.countP (fun j => !(m.cell j).alive) = dead

theorem Reg.swept {m m' : World α} {p : Bool} {mk dr dd : Nat} (h : Reg m mk dr dd) (hs : Swept p m m') :
    Reg m' mk dr (if p then 0 else dd) := by
  have hal : (fun j => (m'.cell j).alive) = fun j => (m.cell j).alive := funext hs.alive
  cases p with
  | false =>
    have hw : m'.wakers = m.wakers := hs.wakers
    refine ⟨by rw [hw]; exact h.nodup, by rw [hw, hs.made]; exact h.bound, fun j hj ha => ?_, ?_, ?_⟩
    · rw [hw]; rw [hs.made] at hj; rw [hs.alive] at ha; exact h.live j hj ha
    · rw [hw, hal]; exact h.count
    · simp only [hs.alive, hw]; exact h.dead
  | true =>
    have hw : m'.wakers = m.wakers.filter (fun i => (m.cell i).alive) := hs.wakers
    refine ⟨?_, ?_, fun j hj ha => ?_, ?_, ?_⟩
    · rw [hw]; exact h.nodup.sublist List.filter_sublist
    · rw [hw, hs.made]; exact fun s k => h.bound s (List.mem_filter.1 k).1
    · rw [hw]; rw [hs.made] at hj; rw [hs.alive] at ha
      exact List.mem_filter.2 ⟨h.live j hj ha, ha⟩
    · rw [hw, hal, List.countP_filter]
      simp only [Bool.and_self]
      exact h.count
    · simp only [hs.alive, hw]
      rw [List.countP_filter, List.countP_eq_zero.2 (by simp)]
      rfl

theorem droppedSince_snoc (tr : List (Ev × Out α β)) (e : Ev) (o : Out α β) :
    droppedSince (tr ++ [(e, o)]) =
      (match e with
        | .poll _ _ => if (o.hist.drop (droppedSince tr).2).any (·.1) then 0 else (droppedSince tr).1
        | .wake => 0
        | .dropSub _ => (droppedSince tr).1 + 1
        | .subscribe => (droppedSince tr).1, o.hist.length) := by
  unfold droppedSince
  rw [List.foldl_append]
  cases e <;> rfl

/-! ## Theorem -/

/-- **C77**, `Broadcaster`: exactly the live subscribers and those dropped since the input last woke its
waker are registered, each once. -/
theorem C77_broadcaster (script : List (Step α)) (f : Nat → α → β) (es : List Ev)
    (os : List (Out α β)) (m : World α)
    (hr : runE (World.step f) (World.new script) es = some (os, m)) :
    m.wakers.Nodup ∧ m.wakers.length + es.countP Ev.isDropSub =
      es.countP Ev.isSubscribe + (droppedSince (es.zip os)).1 := by
  have key := runE_inv (Inv := fun es (os : List (Out α β)) (m : World α) => es.length = os.length ∧
      (droppedSince (es.zip os)).2 = m.hist.length ∧
      Reg m (es.countP Ev.isSubscribe) (es.countP Ev.isDropSub) (droppedSince (es.zip os)).1)
    ⟨rfl, rfl, List.nodup_nil, by simp [World.new], by simp [World.new], rfl, rfl⟩ ?_ hr
  · obtain ⟨-, -, hk⟩ := key
    refine ⟨hk.nodup, ?_⟩
    have h1 := hk.count
    have h2 := hk.dead
    have h3 := List.length_eq_countP_add_countP (fun j => (m.cell j).alive) (l := m.wakers)
    have h4 : m.wakers.countP (fun j => decide ¬((m.cell j).alive = true)) =
        m.wakers.countP (fun j => !(m.cell j).alive) := List.countP_congr fun j _ => by simp
    omega
  · intro es os s e o s' ⟨hl, hlen, hi⟩ hs
    refine ⟨by simp [hl], ?_⟩
    rw [List.zip_append hl]
    simp only [List.zip_cons_cons, List.zip_nil_right, droppedSince_snoc, List.countP_append,
      List.countP_singleton]
    cases e with
    | poll i w =>
      obtain ⟨h1, b, h2, h3⟩ := swept_poll hs
      refine ⟨by rw [h1], ?_⟩
      have := hi.swept h3
      simp only [hlen, h1, h2, List.drop_left]
      exact this
    | wake =>
      simp only [World.step] at hs
      cases hs
      obtain ⟨g1, g2⟩ := swept_notify ({ s with woken := [] } : World α)
      exact ⟨rfl, hi.swept (p := true) ⟨g1.wakers, g1.alive, g1.made⟩⟩
    | subscribe =>
      simp only [World.step] at hs
      cases hs
      refine ⟨rfl, ?_⟩
      have hfresh : s.made ∉ s.wakers := fun k => Nat.lt_irrefl _ (hi.bound _ k)
      have hal : ∀ j, ((({ s with woken := [] } : World α).subscribe).cell j).alive =
          if j = s.made then true else (s.cell j).alive := by
        intro j
        simp only [World.subscribe, World.setCell]
        split <;> rfl
      have hold : ∀ j ∈ s.wakers, (if j = s.made then true else (s.cell j).alive) = (s.cell j).alive := by
        intro j hj
        have : j ≠ s.made := fun k => hfresh (k ▸ hj)
        simp [this]
      refine ⟨?_, ?_, ?_, ?_, ?_⟩
      · show (s.wakers ++ [s.made]).Nodup
        rw [List.nodup_append]
        refine ⟨hi.nodup, by simp, ?_⟩
        intro x hx y hy hxy
        rw [List.mem_singleton] at hy
        exact hfresh (by rw [← hy, ← hxy]; exact hx)
      · intro x hx
        rcases List.mem_append.1 hx with hx | hx
        · exact Nat.lt_succ_of_lt (hi.bound x hx)
        · rw [List.mem_singleton.1 hx]; exact Nat.lt_succ_self _
      · intro j hj ha
        by_cases hjc : j = s.made
        · exact List.mem_append_right _ (by simp [hjc])
        · refine List.mem_append_left _ (hi.live j ?_ ?_)
          · have : j < s.made + 1 := hj
            omega
          · rw [hal] at ha; simpa [hjc] using ha
      · simp only [hal]
        show List.countP _ (s.wakers ++ [s.made]) + _ = _
        rw [List.countP_append, List.countP_congr (fun j hj => by rw [hold j hj])]
        have := hi.count
        simp [List.countP_singleton, Ev.isSubscribe, Ev.isDropSub]
        omega
      · simp only [hal]
        show List.countP _ (s.wakers ++ [s.made]) = _
        rw [List.countP_append, List.countP_congr (fun j hj => by rw [hold j hj])]
        simp [List.countP_singleton]
        exact hi.dead
    | dropSub i =>
      simp only [World.step] at hs
      split at hs
      · rename_i hii
        cases hs
        refine ⟨rfl, ?_⟩
        obtain ⟨g1, g2⟩ := countP_kill (p := fun j => (s.cell j).alive) hi.nodup
          (hi.live i hii.1 hii.2) hii.2
        have hal : ∀ j, ((({ s with woken := [] } : World α).setCell i { s.cell i with alive := false }).cell
            j).alive = if j = i then false else (s.cell j).alive := by
          intro j
          simp only [World.setCell]
          split <;> rfl
        refine ⟨hi.nodup, hi.bound, fun j hj ha => hi.live j hj ?_, ?_, ?_⟩
        · rw [hal] at ha
          split at ha
          · cases ha
          · exact ha
        · simp only [hal]
          have := hi.count
          simp only [Ev.isSubscribe, Ev.isDropSub, if_true, Bool.false_eq_true, if_false]
          simp only [World.setCell]
          omega
        · simp only [hal]
          have := hi.dead
          simp only [World.setCell]
          omega
      · cases hs

/-- A subscriber dropped before the input wakes its waker, and one after. -/
example : ∃ os m, runE (World.step fun i a => 10 * i + a) (World.new twoScript)
      [.subscribe, .subscribe, .subscribe, .poll 0 5, .dropSub 1, .wake, .dropSub 0] = some (os, m) ∧
    m.wakers = [0, 2] := ⟨_, _, rfl, rfl⟩

end Verif.Bc

namespace Verif.HubConc

variable {S D O : Type} {R : S → List D → Prop}

/-- The event makes a subscriber. -/
def Ev.isSubscribe : Ev O → Bool
  | .subscribe => true
  | _ => false

/-- The subscriber that the event drops. -/
def Ev.drops : Ev O → Option Nat
  | .dropRx k => some k
  | _ => none

/-! ## Lemmas -/

/-- Receiver `k` was made and dropped. -/
def Dead (h : Hub D) (k : Nat) : Prop := ∃ c, h.links[k]? = some c ∧ c.rxAlive = false

theorem dead_send {h : Hub D} {k : Nat} (hk : Dead h k) (s : Nat) (d : D) :
    Dead (h.send s d).2 k ∧ (s = k → (h.send s d).1 = false) ∧
      (h.send s d).2.links.length = h.links.length := by
  obtain ⟨c, hc, ha⟩ := hk
  unfold Hub.send
  split
  · exact ⟨⟨c, hc, ha⟩, fun _ => rfl, rfl⟩
  · rename_i c' hc'
    split
    · rename_i ha'
      refine ⟨⟨c, ?_, ha⟩, fun h => ?_, by simp⟩
      · have hne : s ≠ k := fun h => by subst h; rw [hc] at hc'; cases hc'; rw [ha] at ha'; cases ha'
        rw [List.getElem?_set_ne hne]; exact hc
      · subst h; rw [hc] at hc'; cases hc'; rw [ha] at ha'; cases ha'
    · exact ⟨⟨c, hc, ha⟩, fun _ => rfl, rfl⟩

theorem dead_set {h h' : Hub D} {k id : Nat} {f : Link D → Link D} (hk : Dead h k)
    (hl : h'.links = h.links ∨ ∃ c, h.links[id]? = some c ∧ h'.links = h.links.set id (f c))
    (hf : ∀ c, c.rxAlive = false → (f c).rxAlive = false) :
    Dead h' k ∧ h'.links.length = h.links.length := by
  obtain ⟨c, hc, ha⟩ := hk
  rcases hl with hl | ⟨c', hc', hl⟩
  · rw [Dead, hl]; exact ⟨⟨c, hc, ha⟩, rfl⟩
  · rw [Dead, hl]
    refine ⟨?_, by simp⟩
    by_cases hki : id = k
    · subst hki
      rw [hc] at hc'; cases hc'
      have hlt := (List.getElem?_eq_some_iff.1 hc).1
      exact ⟨f c, by simp [hlt], hf c ha⟩
    · exact ⟨c, by rw [List.getElem?_set_ne hki]; exact hc, ha⟩

theorem dropTx_links (h : Hub D) (id : Nat) : (h.dropTx id).links = h.links ∨
    ∃ c, h.links[id]? = some c ∧ (h.dropTx id).links = h.links.set id { c with txAlive := false, waker := none } := by
  unfold Hub.dropTx
  split
  · exact .inl rfl
  · rename_i c hc; exact .inr ⟨c, hc, rfl⟩

theorem dropRx_links (h : Hub D) (id : Nat) : (h.dropRx id).links = h.links ∨
    ∃ c, h.links[id]? = some c ∧ (h.dropRx id).links = h.links.set id { c with rxAlive := false, queue := [], waker := none } := by
  unfold Hub.dropRx
  split
  · exact .inl rfl
  · rename_i c hc; exact .inr ⟨c, hc, rfl⟩

theorem dead_poll {h : Hub D} {k : Nat} (hk : Dead h k) (id : Nat) (cx : Waker) :
    Dead (h.pollRx id cx).2 k ∧ (h.pollRx id cx).2.links.length = h.links.length ∧
      (h.pollRx id cx).2.senders = h.senders := by
  have hd := hk
  obtain ⟨c, hc, ha⟩ := hk
  unfold Hub.pollRx
  split
  · exact ⟨hd, rfl, rfl⟩
  · rename_i c' hc'
    split
    · rename_i d ds hq
      have := dead_set (h' := { h with links := h.links.set id { c' with queue := ds, delivered := c'.delivered ++ [d] } })
        (id := id) (f := fun c => { c with queue := ds, delivered := c'.delivered ++ [d] }) hd
        (.inr ⟨c', hc', rfl⟩) (fun _ h => h)
      exact ⟨this.1, this.2, rfl⟩
    · split
      · have := dead_set (h' := { h with links := h.links.set id { c' with waker := some cx } })
          (id := id) (f := fun c => { c with waker := some cx }) hd (.inr ⟨c', hc', rfl⟩) (fun _ h => h)
        exact ⟨this.1, this.2, rfl⟩
      · exact ⟨hd, rfl, rfl⟩

/-- The running call will have thrown out `k` when it ends. -/
def Leaves (w : World S D) (k : Nat) : Prop :=
  match w.job with
  | none => k ∉ w.hub.senders
  | some j =>
    match j.cur with
    | none => k ∉ w.hub.senders ∨ j.rest ≠ []
    | some (_, _, kept) => k ∉ kept

theorem step_dead {api : Api S D O} {w w' : World S D} {e : Ev O} {o : Option (Poll (Option D))} {k : Nat}
    (hk : Dead w.hub k) (h : w.step api e = some (o, w')) :
    Dead w'.hub k ∧ (Leaves w k → Leaves w' k) := by
  have hlt : k < w.hub.links.length := by
    obtain ⟨c, hc, -⟩ := hk; exact (List.getElem?_eq_some_iff.1 hc).1
  cases e with
  | call a =>
    simp only [World.step] at h
    split at h
    · cases h
    · rename_i hn
      have hj : w.job = none := by
        simp only [not_or, Bool.not_eq_true, Option.isSome_eq_false_iff, Option.isNone_iff_eq_none] at hn
        exact hn.2
      split at h
      · cases h
      · cases h
        refine ⟨hk, fun hl => ?_⟩
        simp only [Leaves, hj] at hl ⊢
        exact .inl hl
  | tick =>
    simp only [World.step, Option.map_eq_some_iff] at h
    obtain ⟨w1, h1, h2⟩ := h
    cases h2
    unfold World.tick at h1
    split at h1
    · rename_i hj
      split at h1
      · cases h1
      · rename_i s ss hcl
        cases h1
        refine ⟨(dead_set hk (dropTx_links w.hub s) (f := fun c => { c with txAlive := false, waker := none })
          (fun _ h => h)).1, fun hl => ?_⟩
        simp only [Leaves, hj] at hl ⊢
        have : (w.hub.dropTx s).senders = w.hub.senders := by unfold Hub.dropTx; split <;> rfl
        rw [this]; exact hl
    · rename_i j hj
      split at h1
      · rename_i d s todo kept hc
        cases h1
        obtain ⟨g1, g2, g3⟩ := dead_send hk s d
        refine ⟨g1, fun hl => ?_⟩
        simp only [Leaves, hj, hc] at hl ⊢
        split
        · rename_i hsent
          intro hm
          rcases List.mem_append.1 hm with hm | hm
          · exact hl hm
          · rw [List.mem_singleton] at hm
            rw [g2 hm.symm] at hsent; cases hsent
        · exact hl
      · rename_i d kept hc
        cases h1
        refine ⟨hk, fun hl => ?_⟩
        simp only [Leaves, hj, hc] at hl ⊢
        exact .inl hl
      · rename_i hc
        split at h1
        · cases h1
          refine ⟨hk, fun _ => ?_⟩
          simp [Leaves]
        · rename_i hr
          cases h1
          refine ⟨hk, fun hl => ?_⟩
          simp only [Leaves, hj, hc, hr, ne_eq, not_true_eq_false, or_false] at hl ⊢
          exact hl
  | subscribe =>
    simp only [World.step] at h
    split at h
    · cases h
    · rename_i hn
      have hj : w.job = none := by
        simp only [not_or, Bool.not_eq_true, Option.isSome_eq_false_iff, Option.isNone_iff_eq_none] at hn
        exact hn.2
      cases h
      refine ⟨?_, fun hl => ?_⟩
      · obtain ⟨c, hc, ha⟩ := hk
        exact ⟨c, by simp only [Hub.subscribe]; rw [List.getElem?_append_left hlt]; exact hc, ha⟩
      · simp only [Leaves, hj, Hub.subscribe] at hl ⊢
        intro hm
        rcases List.mem_append.1 hm with hm | hm
        · exact hl hm
        · rw [List.mem_singleton] at hm; omega
  | poll id cx =>
    simp only [World.step] at h
    split at h
    · cases h
      obtain ⟨g1, g2, g3⟩ := dead_poll hk id cx
      refine ⟨g1, fun hl => ?_⟩
      simp only [Leaves, g3] at hl ⊢
      exact hl
    · cases h
  | dropRx id =>
    simp only [World.step] at h
    split at h
    · cases h
      refine ⟨(dead_set hk (dropRx_links w.hub id) (f := fun c => { c with rxAlive := false, queue := [], waker := none })
          (fun _ _ => rfl)).1, fun hl => ?_⟩
      have : (w.hub.dropRx id).senders = w.hub.senders := by unfold Hub.dropRx; split <;> rfl
      simp only [Leaves, this] at hl ⊢
      exact hl
    · cases h
  | cloneHandle =>
    simp only [World.step] at h
    split at h
    · cases h
    · cases h; exact ⟨hk, fun hl => hl⟩
  | dropHandle =>
    simp only [World.step] at h
    split at h
    · cases h
    · split at h
      · split at h
        · cases h
        · rename_i hn
          have hj : w.job = none := by
            simpa using hn
          cases h
          refine ⟨hk, fun _ => ?_⟩
          simp [Leaves, hj]
      · cases h; exact ⟨hk, fun hl => hl⟩

theorem runs_dead {api : Api S D O} {w w' : World S D} {es : List (Ev O)}
    {os : List (Option (Poll (Option D)))} {k : Nat} (hk : Dead w.hub k)
    (h : w.runs api es = some (os, w')) : Dead w'.hub k ∧ (Leaves w k → Leaves w' k) :=
  runE_inv (step := World.step api) (Inv := fun _ (_ : List (Option (Poll (Option D)))) (w' : World S D) =>
    Dead w'.hub k ∧ (Leaves w k → Leaves w' k)) ⟨hk, fun h => h⟩
    (fun _ _ _ _ _ _ hi hs => ⟨(step_dead hi.1 hs).1, fun hl => (step_dead hi.1 hs).2 (hi.2 hl)⟩) h

/-- How many channels there are. -/
theorem runs_links {api : Api S D O} {w w' : World S D} {es : List (Ev O)}
    {os : List (Option (Poll (Option D)))} (h : w.runs api es = some (os, w')) :
    w'.hub.links.length = w.hub.links.length + es.countP Ev.isSubscribe := by
  refine runE_inv (step := World.step api) (Inv := fun es (_ : List (Option (Poll (Option D)))) (w' : World S D) =>
    w'.hub.links.length = w.hub.links.length + es.countP Ev.isSubscribe) (by simp) ?_ h
  intro es os w e o w' hi h
  rw [List.countP_append, List.countP_singleton, ← Nat.add_assoc, ← hi]
  cases e with
  | call a =>
    simp only [World.step] at h
    split at h
    · cases h
    · split at h <;> cases h
      rfl
  | tick =>
    simp only [World.step, Option.map_eq_some_iff] at h
    obtain ⟨w1, h1, h2⟩ := h
    cases h2
    unfold World.tick at h1
    split at h1
    · split at h1
      · cases h1
      · rename_i s ss hcl
        cases h1
        rcases dropTx_links w.hub s with h | ⟨c, -, h⟩ <;> simp [h, Ev.isSubscribe]
    · split at h1
      · cases h1
        simp only [Hub.send]
        split
        · rfl
        · split <;> simp [Ev.isSubscribe]
      · cases h1; rfl
      · split at h1 <;> cases h1 <;> rfl
  | subscribe =>
    simp only [World.step] at h
    split at h <;> cases h
    simp [Hub.subscribe, Ev.isSubscribe]
  | poll id cx =>
    simp only [World.step] at h
    split at h <;> cases h
    simp only [Hub.pollRx]
    split
    · rfl
    · split
      · simp [Ev.isSubscribe]
      · split <;> simp [Ev.isSubscribe]
  | dropRx id =>
    simp only [World.step] at h
    split at h <;> cases h
    rcases dropRx_links w.hub id with h | ⟨c, -, h⟩ <;> simp [h, Ev.isSubscribe]
  | cloneHandle => simp only [World.step] at h; split at h <;> cases h; rfl
  | dropHandle =>
    simp only [World.step] at h
    split at h
    · cases h
    · split at h
      · split at h <;> cases h
        rfl
      · cases h; rfl

/-- What was dropped. -/
theorem runs_dropped {api : Api S D O} {s : S} {w : World S D} {es : List (Ev O)}
    {os : List (Option (Poll (Option D)))} (h : (World.init s).runs api es = some (os, w)) :
    (es.filterMap Ev.drops).Nodup ∧ ∀ k ∈ es.filterMap Ev.drops, Dead w.hub k := by
  refine runE_inv (step := World.step api) (Inv := fun es (_ : List (Option (Poll (Option D)))) (w : World S D) =>
    (es.filterMap Ev.drops).Nodup ∧ ∀ k ∈ es.filterMap Ev.drops, Dead w.hub k) (by simp) ?_ h
  intro es os w e o w' ⟨h1, h2⟩ hs
  rw [List.filterMap_append]
  cases hd : e.drops with
  | none =>
    simp only [List.filterMap_cons, hd, List.filterMap_nil, List.append_nil]
    exact ⟨h1, fun k hk => (step_dead (h2 k hk) hs).1⟩
  | some id =>
    have he : e = .dropRx id := by
      cases e <;> simp only [Ev.drops, reduceCtorEq, Option.some.injEq] at hd
      rw [hd]
    subst he
    have hs' := hs
    simp only [World.step] at hs
    split at hs
    · rename_i hl
      cases hs
      obtain ⟨c, hc, ha⟩ := link_of_live (w := w) hl
      simp only [List.filterMap_cons, hd, List.filterMap_nil]
      refine ⟨?_, fun k hk => ?_⟩
      · rw [List.nodup_append]
        refine ⟨h1, by simp, fun x hx y hy hxy => ?_⟩
        rw [List.mem_singleton] at hy
        obtain ⟨c', hc', ha'⟩ := h2 x hx
        rw [hxy, hy, hc] at hc'
        cases hc'
        rw [ha] at ha'; cases ha'
      · rcases List.mem_append.1 hk with hk | hk
        · exact (step_dead (h2 k hk) hs').1
        · rw [List.mem_singleton] at hk
          subst hk
          have hlt := (List.getElem?_eq_some_iff.1 hc).1
          refine ⟨{ c with rxAlive := false, queue := [], waker := none }, ?_, rfl⟩
          simp only [Hub.dropRx, hc]
          rw [List.getElem?_set_self hlt]
    · cases hs

/-- The general form of `C77_vec` and `C77_map`. -/
theorem purge_general {api : Api S D O} (ok : api.Ok R) {s : S} {es es' : List (Ev O)} {o : O}
    {os os' : List (Option (Poll (Option D)))} {w w' : World S D} {d : D} {ds : List D}
    (h : (World.init s).runs api es = some (os, w))
    (h' : w.runs api (.call o :: es') = some (os', w'))
    (hds : (api.eff o w.values).map (·.1) = some (d :: ds)) (hj : w'.job = none) :
    w'.hub.senders.Nodup ∧ (∀ k, .dropRx k ∈ es → k ∉ w'.hub.senders) ∧
    w'.hub.senders.length + (es.filterMap Ev.drops).length ≤ (es ++ es').countP Ev.isSubscribe := by
  have hi := inv_runs ok (inv_init (R := R) s) h
  have hi' := inv_runs ok hi h'
  obtain ⟨hn, hdead⟩ := runs_dropped h
  have hlen := runs_links h'
  have hlen0 := runs_links h
  have key : ∀ k, Dead w.hub k → k ∉ w'.hub.senders ∧ k < w'.hub.links.length := by
    intro k hk
    simp only [World.runs, runE] at h'
    cases hs : w.step api (.call o) with
    | none => simp [hs] at h'
    | some p =>
      obtain ⟨a, w1⟩ := p
      simp only [hs] at h'
      cases hr : runE (World.step api) w1 es' with
      | none => simp [hr] at h'
      | some q =>
        obtain ⟨os2, w2⟩ := q
        simp only [hr, Option.some.injEq, Prod.mk.injEq] at h'
        obtain ⟨-, rfl⟩ := h'
        have hk1 := (step_dead hk hs).1
        have hl : Leaves w1 k := by
          simp only [World.step] at hs
          split at hs
          · cases hs
          · cases he : api.eff o w.values with
            | none => simp [he] at hds
            | some q =>
              obtain ⟨ds', s'⟩ := q
              simp only [he, Option.map_some, Option.some.injEq] at hds
              subst hds
              simp only [he] at hs
              cases hs
              simp [Leaves]
        obtain ⟨g1, g2⟩ := runs_dead hk1 hr
        have := g2 hl
        simp only [Leaves, hj] at this
        obtain ⟨c, hc, -⟩ := g1
        exact ⟨this, (List.getElem?_eq_some_iff.1 hc).1⟩
  refine ⟨hi'.nodup, fun k hk => (key k (hdead k ?_)).1, ?_⟩
  · exact List.mem_filterMap.2 ⟨_, hk, rfl⟩
  · have hb : (w'.hub.senders ++ es.filterMap Ev.drops).Nodup := by
      rw [List.nodup_append]
      refine ⟨hi'.nodup, hn, fun x hx y hy hxy => ?_⟩
      subst hxy
      exact (key x (hdead x hy)).1 hx
    have := le_of_nodup_bound hb (n := w'.hub.links.length) (fun x hx => by
      rcases List.mem_append.1 hx with hx | hx
      · exact hi'.bound x hx
      · exact (key x (hdead x hx)).2)
    rw [List.length_append] at this
    rw [hlen, hlen0, List.countP_cons] at this
    rw [List.countP_append]
    simp only [World.init, List.length_nil, Ev.isSubscribe, Bool.false_eq_true, if_false] at this
    omega

/-! ## The property -/

/-- **C77.**  `MutableVec`: take any history, then any call that changes the contents, and let the
broadcast of that call run to its end, whatever polls, drops and wakes happen meanwhile.  No
subscriber that was dropped before the call is registered any more, and there are at most as many
registrations as subscribers made and not dropped before the call. -/
theorem C77_vec {α : Type} (l : List α) (es es' : List (Ev (MutVec.Op α))) (o : MutVec.Op α)
    (os os' : List (Option (Poll (Option (VecDiff α))))) (w w' : World (List α) (VecDiff α))
    (h : (World.init l).runs (vecApi α) es = some (os, w))
    (h' : w.runs (vecApi α) (.call o :: es') = some (os', w'))
    (hne : (o.spec w.values).map (·.2) ≠ some w.values) (hj : w'.job = none) :
    w'.hub.senders.Nodup ∧ (∀ k, .dropRx k ∈ es → k ∉ w'.hub.senders) ∧
    w'.hub.senders.length + (es.filterMap Ev.drops).length ≤ (es ++ es').countP Ev.isSubscribe := by
  cases hs : o.spec w.values with
  | none => simp [World.runs, runE, World.step, vecApi, hs] at h'
  | some r =>
    have hr := MutVec.replay_diffs o w.values r hs
    cases hd : o.diffs w.values with
    | nil =>
      rw [hd] at hr
      rw [hs] at hne
      exact absurd hr.symm hne
    | cons d ds =>
      refine purge_general vec_ok h h' (d := d) (ds := ds) ?_ hj
      simp [vecApi, hs, hd]

/-- **C77.**  As `C77_vec`, for `MutableBTreeMap`. -/
theorem C77_map {K V : Type} [LinearOrder K] (m : MutMap.BMap K V)
    (es es' : List (Ev (MutMap.Op K V))) (o : MutMap.Op K V)
    (os os' : List (Option (Poll (Option (MapDiff K V)))))
    (w w' : World (MutMap.BMap K V) (MapDiff K V))
    (h : (World.init m).runs (mapApi K V) es = some (os, w))
    (h' : w.runs (mapApi K V) (.call o :: es') = some (os', w'))
    (hne : mapOf (o.next w.values).1 ≠ mapOf w.values.1) (hj : w'.job = none) :
    w'.hub.senders.Nodup ∧ (∀ k, .dropRx k ∈ es → k ∉ w'.hub.senders) ∧
    w'.hub.senders.length + (es.filterMap Ev.drops).length ≤ (es ++ es').countP Ev.isSubscribe := by
  have hr := MutMap.diffs_replay o w.values
  cases hd : o.diffs w.values with
  | nil =>
    rw [hd] at hr
    exact absurd (Option.some.inj hr).symm hne
  | cons d ds =>
    refine purge_general map_ok h h' (d := d) (ds := ds) ?_ hj
    simp [mapApi, hd]

/-- `n` subscribers, made and dropped one after the other. -/
def makeAndDrop : Nat → List (Ev O)
  | 0 => []
  | n + 1 => makeAndDrop n ++ [.subscribe, .dropRx n]

/-- **C77 (the other side).**  A `MutableVec` or `MutableBTreeMap` that is never changed keeps the
registration of every subscriber ever made from it, although all of them are gone. -/
theorem C77_hub_piles_up (api : Api S D O) (s : S) (n : Nat) : ∃ os w,
    (World.init s).runs api (makeAndDrop n) = some (os, w) ∧ w.hub.senders = List.range n ∧
    ∀ k < n, Dead w.hub k := by
  suffices h : ∃ os w, (World.init s).runs api (makeAndDrop n) = some (os, w) ∧
      w.hub.senders = List.range n ∧ w.hub.links.length = n ∧ w.hub.handles = 1 ∧ w.job = none ∧
      ∀ k < n, Dead w.hub k by
    obtain ⟨os, w, h1, h2, -, -, -, h3⟩ := h
    exact ⟨os, w, h1, h2, h3⟩
  induction n with
  | zero => exact ⟨[], _, rfl, rfl, rfl, rfl, rfl, fun k hk => absurd hk (Nat.not_lt_zero k)⟩
  | succ n ih =>
    obtain ⟨os, w, h1, h2, h3, h4, h5, h6⟩ := ih
    have hs1 : w.step api .subscribe =
        some (none, { w with hub := w.hub.subscribe (api.first w.values) }) := by
      simp [World.step, h4, h5]
    generalize hw1 : ({ w with hub := w.hub.subscribe (api.first w.values) } : World S D) = w1 at hs1
    have hn : w1.hub.links[n]? = some ⟨api.first w.values, true, true, none, [], ⟩ := by
      rw [← hw1, ← h3]; simp [Hub.subscribe]
    have hs2 : w1.step api (.dropRx n) = some (none, { w1 with hub := w1.hub.dropRx n }) := by
      simp [World.step, Hub.rxLive, hn]
    have hr := runE_snoc_of (runE_snoc_of h1 hs1) hs2
    rw [List.append_assoc] at hr
    have hse : (w1.hub.dropRx n).senders = w1.hub.senders ∧
        (w1.hub.dropRx n).handles = w1.hub.handles := by unfold Hub.dropRx; split <;> exact ⟨rfl, rfl⟩
    have hdead := dropRx_links w1.hub n
    refine ⟨_, _, hr, ?_, ?_, ?_, ?_, fun k hk => ?_⟩
    · show (w1.hub.dropRx n).senders = _
      rw [hse.1, ← hw1]
      simp [Hub.subscribe, h2, h3, List.range_succ]
    · show (w1.hub.dropRx n).links.length = _
      have hl1 : w1.hub.links.length = n + 1 := by rw [← hw1]; simp [Hub.subscribe, h3]
      rcases hdead with h | ⟨c, -, h⟩ <;> simp [h, hl1]
    · show (w1.hub.dropRx n).handles = _
      rw [hse.2, ← hw1]; exact h4
    · show w1.job = _
      rw [← hw1]; exact h5
    · by_cases hkn : k = n
      · subst hkn
        have hlt := (List.getElem?_eq_some_iff.1 hn).1
        refine ⟨⟨[], false, true, none, []⟩, ?_, rfl⟩
        simp only [Hub.dropRx, hn]
        rw [List.getElem?_set_self hlt]
      · exact (step_dead (step_dead (h6 k (by omega)) hs1).1 hs2).1

/-- Four subscribers, two of them dropped, one of these in the middle of an earlier broadcast, after
it was visited; it is still registered after that broadcast. -/
def demoPurge : List (Ev (MutVec.Op Nat)) :=
  [.subscribe, .subscribe, .subscribe, .dropRx 1, .call (.push 5), .tick, .tick, .tick, .dropRx 0, .tick,
    .tick, .tick, .subscribe]

example : ((World.init [1]).runs (vecApi Nat) demoPurge).map
    (fun r => (r.2.values, r.2.hub.senders, r.2.job.isSome, demoPurge.filterMap Ev.drops)) =
    some ([1, 5], [0, 2, 3], false, [1, 0]) := by rfl

example : ((World.init [1]).runs (vecApi Nat) (demoPurge ++ .call (.push 6) :: List.replicate 6 .tick)).map
    (fun r => (r.2.values, r.2.hub.senders, r.2.job.isSome)) =
    some ([1, 5, 6], [2, 3], false) := by rfl

/-- The same for a map. -/
example : ((World.init MutMap.BMap.empty).runs (mapApi Nat Nat) [.subscribe, .subscribe, .dropRx 0]).map
    (fun r => r.2.hub.senders) = some [0, 1] ∧
    ((World.init MutMap.BMap.empty).runs (mapApi Nat Nat) [.subscribe, .subscribe, .dropRx 0,
      .call (.insert 3 30), .tick, .tick, .tick, .tick, .tick]).map
    (fun r => (r.2.hub.senders, r.2.job.isSome, r.2.values.1)) = some ([1], false, [(3, 30)]) :=
  ⟨by rfl, by rfl⟩

end Verif.HubConc
