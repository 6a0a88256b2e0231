import Verif.Mutable
import Verif.Channel
import Verif.Broadcaster
import Verif.Cancelable
import Verif.HubConc
import Verif.HubConcApi
import Verif.MutableConc
import Verif.ChannelConc
import Verif.BroadcasterConc
import Verif.CancelableConc
import Verif.Waits

/-!
# A task is woken at most once for each `Pending` (C99)
-/

namespace Verif

/-- Whether a waker is this one. -/
def isWaker (w : Waker) (o : Option Waker) : Bool := o == some w

theorem waits_append {ρ : Type} (w : Waker) (ps qs : List (Waker × Poll ρ)) :
    waits w (ps ++ qs) = waits w ps + waits w qs := List.countP_append

theorem waits_ready {ρ : Type} (w v : Waker) (r : ρ) : waits w [(v, .ready r)] = 0 := by simp [waits]

theorem waits_pending {ρ : Type} (w v : Waker) : waits (ρ := ρ) w [(v, .pending)] = if v = w then 1 else 0 := by
  simp [waits, List.countP_cons]

theorem count_toList (w : Waker) (o : Option Waker) : o.toList.count w = if isWaker w o then 1 else 0 := by
  cases o <;> simp [isWaker, List.count_cons]

theorem isWaker_some (w v : Waker) : (if isWaker w (some v) then 1 else 0) = if v = w then 1 else 0 := by
  simp [isWaker]

/-- How many of the first `n` cells hold `w`. -/
def held (w : Waker) (cell : Nat → Mut.ChangedWaker) (n : Nat) : Nat :=
  (List.range n).countP fun i => isWaker w (cell i).waker

theorem held_succ (w : Waker) (cell : Nat → Mut.ChangedWaker) (n : Nat) :
    held w cell (n + 1) = held w cell n + if isWaker w (cell n).waker then 1 else 0 := by
  simp [held, List.range_succ, List.countP_append, List.countP_cons]

theorem held_set (w : Waker) (cell : Nat → Mut.ChangedWaker) (i : Nat) (c : Mut.ChangedWaker) (n : Nat) :
    held w (fun j => if j = i then c else cell j) n + (if i < n ∧ isWaker w (cell i).waker then 1 else 0) =
      held w cell n + (if i < n ∧ isWaker w c.waker then 1 else 0) := by
  induction n with
  | zero => simp [held]
  | succ n ih =>
    rw [held_succ, held_succ]
    by_cases h : n = i
    · subst h; simp at ih ⊢; omega
    · have : (i < n + 1) = (i < n) := by apply propext; omega
      simp only [if_neg h, this]
      omega

end Verif

/-! ## `Mutable` -/

namespace Verif.Mut

variable {α : Type}

/-- The polls of a history, with the wakers given and the answers. -/
def polls : List (Ev α) → List (Obs α) → List (Waker × Poll (Option α))
  | .poll _ w :: es, .poll r :: os => (w, r) :: polls es os
  | _ :: es, _ :: os => polls es os
  | _, _ => []

/-- The wakes so far and those that can come without a further poll. -/
def tally (w : Waker) (m : World α) : Nat := m.woken.count w + held w m.cell m.cells

/-- Cells that do not exist hold no waker. -/
def Fresh (m : World α) : Prop := ∀ i, m.cells ≤ i → (m.cell i).waker = none

theorem setCell_tally {m : World α} (hf : Fresh m) (w : Waker) (i : Nat) (c : ChangedWaker) :
    tally w (m.setCell i c) + (if isWaker w (m.cell i).waker then 1 else 0) ≤
      tally w m + (if isWaker w c.waker then 1 else 0) := by
  have h := held_set w m.cell i c m.cells
  simp only [tally, World.setCell] at h ⊢
  by_cases hi : i < m.cells
  · simp only [hi, true_and] at h; omega
  · have := hf i (by omega)
    simp only [hi, false_and, this, isWaker] at h ⊢
    simp at h ⊢
    omega

theorem setCell_fresh {m : World α} (hf : Fresh m) {i : Nat} {c : ChangedWaker} (h : i < m.cells ∨ c.waker = none) :
    Fresh (m.setCell i c) := by
  intro j hj
  simp only [World.setCell] at hj ⊢
  split
  · rename_i e; subst e
    rcases h with h | h
    · omega
    · exact h
  · exact hf j hj

theorem retain_tally (w : Waker) (b : Bool) (l : List Nat) {m : World α} (hf : Fresh m) :
    Fresh (World.retain b l m).2 ∧ tally w (World.retain b l m).2 ≤ tally w m ∧ (World.retain b l m).2.cells = m.cells := by
  induction l generalizing m with
  | nil => exact ⟨hf, Nat.le_refl _, rfl⟩
  | cons i l ih =>
    simp only [World.retain]
    split
    · have h1 := setCell_tally hf w i ((m.cell i).wake b).1
      have hf1 : Fresh { m.setCell i ((m.cell i).wake b).1 with woken := m.woken ++ ((m.cell i).wake b).2 } :=
        setCell_fresh hf (.inr rfl)
      obtain ⟨a1, a2, a3⟩ := ih hf1
      refine ⟨a1, Nat.le_trans a2 ?_, a3⟩
      simp only [tally, List.count_append, ChangedWaker.wake, count_toList] at h1 ⊢
      simp only [World.setCell, isWaker] at h1 ⊢
      simp at h1 ⊢
      omega
    · exact ih hf

theorem notify_tally (w : Waker) (b : Bool) {m : World α} (hf : Fresh m) :
    Fresh (m.notify b) ∧ tally w (m.notify b) ≤ tally w m ∧ (m.notify b).cells = m.cells :=
  retain_tally w b m.signals hf

theorem step_tally (w : Waker) {m m' : World α} {e : Ev α} {o : Obs α} (hf : Fresh m) (h : m.step e = some (o, m')) :
    Fresh m' ∧ tally w m' ≤ tally w m + waits w (polls [e] [o]) := by
  have hn : ∀ (a : α) b, Fresh ({ m with value := a }.notify b) ∧ tally w ({ m with value := a }.notify b) ≤ tally w m :=
    fun a b => ⟨(notify_tally w b (m := { m with value := a }) hf).1, (notify_tally w b (m := { m with value := a }) hf).2.1⟩
  cases e with
  | set a =>
    simp only [World.step, World.set] at h
    split at h
    · cases h
    · cases h; exact ⟨(hn a true).1, Nat.le_trans (hn a true).2 (Nat.le_add_right _ _)⟩
  | replace a =>
    simp only [World.step, World.replace] at h
    split at h
    · cases h
    · cases h; exact ⟨(hn a true).1, Nat.le_trans (hn a true).2 (Nat.le_add_right _ _)⟩
  | replaceWith f =>
    simp only [World.step, World.replaceWith] at h
    split at h
    · cases h
    · cases h; exact ⟨(hn _ true).1, Nat.le_trans (hn _ true).2 (Nat.le_add_right _ _)⟩
  | setIf a f =>
    simp only [World.step, World.setIf] at h
    split at h
    · cases h
    · split at h
      · cases h; exact ⟨(hn a true).1, Nat.le_trans (hn a true).2 (Nat.le_add_right _ _)⟩
      · cases h; exact ⟨hf, Nat.le_add_right _ _⟩
  | lockMut us =>
    simp only [World.step, World.lockMut] at h
    split at h
    · cases h
    · split at h
      · cases h; exact ⟨(hn _ true).1, Nat.le_trans (hn _ true).2 (Nat.le_add_right _ _)⟩
      · cases h; exact ⟨hf, Nat.le_add_right _ _⟩
  | get => cases h; exact ⟨hf, Nat.le_add_right _ _⟩
  | clone =>
    simp only [World.step, World.clone] at h
    split at h
    · cases h
    · cases h; exact ⟨hf, Nat.le_add_right _ _⟩
  | drop =>
    simp only [World.step, World.drop] at h
    split at h
    · cases h
    · simp only [Option.some.injEq, Prod.mk.injEq] at h
      obtain ⟨rfl, rfl⟩ := h
      have hd := notify_tally w false (m := { m with senders := m.senders - 1, handles := m.handles - 1 }) hf
      split
      · split
        · exact ⟨hd.1, Nat.le_trans hd.2.1 (Nat.le_add_right _ _)⟩
        · exact ⟨hf, Nat.le_add_right _ _⟩
      · exact ⟨hf, Nat.le_add_right _ _⟩
  | signal =>
    cases h
    have h1 : held w (fun j => if j = m.cells then ChangedWaker.new else m.cell j) (m.cells + 1) = held w m.cell m.cells := by
      have := held_set w m.cell m.cells ChangedWaker.new m.cells
      rw [held_succ]
      simp [isWaker, ChangedWaker.new] at this ⊢
      exact this
    have hf' : ∀ i, m.cells + 1 ≤ i → (if i = m.cells then ChangedWaker.new else m.cell i).waker = none := by
      intro i hi
      rw [if_neg (by omega)]
      exact hf i (by omega)
    simp only [World.signalState]
    split
    · exact ⟨hf', by simp only [tally, World.setCell]; omega⟩
    · exact ⟨hf', by simp only [tally, World.setCell]; omega⟩
  | poll i v =>
    simp only [World.step] at h
    split at h
    · rename_i hi
      simp only [World.pollChange, ChangedWaker.isChanged, Option.some.injEq, Prod.mk.injEq] at h
      have h1 := setCell_tally hf w i ⟨false, (m.cell i).waker, (m.cell i).alive⟩
      have h2 := setCell_tally hf w i (ChangedWaker.setWaker ⟨false, (m.cell i).waker, (m.cell i).alive⟩ v)
      dsimp only at h1
      cases hc : (m.cell i).changed with
      | true =>
        rw [hc] at h
        obtain ⟨rfl, rfl⟩ := h
        exact ⟨setCell_fresh hf (.inl hi.1), by dsimp only; omega⟩
      | false =>
        rw [hc] at h
        dsimp only at h
        split at h
        · obtain ⟨rfl, rfl⟩ := h
          exact ⟨setCell_fresh hf (.inl hi.1), by dsimp only; omega⟩
        · obtain ⟨rfl, rfl⟩ := h
          refine ⟨setCell_fresh hf (.inl hi.1), ?_⟩
          dsimp only
          simp only [polls, waits_pending]
          have h4 : tally w (m.setCell i (ChangedWaker.setWaker ⟨false, (m.cell i).waker, (m.cell i).alive⟩ v)) ≤
              tally w m + (if isWaker w (some v) then 1 else 0) := Nat.le_trans (Nat.le_add_right _ _) h2
          rwa [isWaker_some] at h4
    · cases h
  | dropSignal i =>
    simp only [World.step] at h
    split at h
    · rename_i hi
      cases h
      have := setCell_tally hf w i { m.cell i with alive := false }
      exact ⟨setCell_fresh hf (.inl hi.1), by simp only [World.dropSignal] at *; omega⟩
    · cases h

/-- **C99**, `Mutable`: in every history a waker was woken at most as often as it was given to polls that answered
`Pending`. -/
theorem C99_mutable (a : α) (es : List (Ev α)) (os : List (Obs α)) (m : World α)
    (h : (World.new a).runs es = some (os, m)) (w : Waker) : m.woken.count w ≤ waits w (polls es os) := by
  have key : ∀ (es : List (Ev α)) (os : List (Obs α)) (m0 m : World α), Fresh m0 → m0.runs es = some (os, m) →
      tally w m ≤ tally w m0 + waits w (polls es os) := by
    intro es
    induction es with
    | nil => intro os m0 m _ h; cases h; exact Nat.le_add_right _ _
    | cons e es ih =>
      intro os m0 m hf h
      simp only [World.runs] at h
      split at h
      · cases h
      · rename_i o m1 h1
        split at h
        · cases h
        · rename_i os' m2 h2
          cases h
          obtain ⟨a1, a2⟩ := step_tally w hf h1
          have := ih _ _ _ a1 h2
          have hp : polls (e :: es) (o :: os') = polls [e] [o] ++ polls es os' := by cases e <;> cases o <;> rfl
          rw [hp, waits_append]
          omega
  have := key es os _ m (fun _ _ => rfl) h
  have h0 : tally w (World.new a) = 0 := rfl
  have : tally w m = m.woken.count w + held w m.cell m.cells := rfl
  omega

/-- Two polls with waker 7 answer `Pending`, and it is woken once: the second one replaced it. -/
example : ∃ os m, (World.new 1).runs [.signal, .poll 0 7, .poll 0 7, .poll 0 7, .set 2, .set 3] = some (os, m) ∧
    m.woken = [7] ∧ waits 7 (polls [.signal, .poll 0 7, .poll 0 7, .poll 0 7, .set 2, .set 3] os) = 2 :=
  ⟨_, _, rfl, rfl, rfl⟩

end Verif.Mut

/-! ## `channel` -/

namespace Verif.Chan

variable {α : Type}

/-- The polls of a history, with the wakers given and the answers. -/
def polls : List (Ev α) → List (Obs α) → List (Waker × Poll (Option α))
  | .poll w :: es, .poll r :: os => (w, r) :: polls es os
  | _ :: es, _ :: os => polls es os
  | _, _ => []

/-- The wakes so far and those that can come without a further poll. -/
def tally (w : Waker) (m : World α) : Nat := m.woken.count w + if isWaker w m.waker then 1 else 0

theorem notify_tally (w : Waker) (m : World α) : tally w m.notify ≤ tally w m := by
  unfold World.notify
  split
  · rename_i v hv
    simp [tally, hv, isWaker, List.count_append, List.count_cons]
  · exact Nat.le_refl _

theorem step_tally (w : Waker) {m m' : World α} {e : Ev α} {o : Obs α} (h : m.step e = some (o, m')) :
    tally w m' ≤ tally w m + waits w (polls [e] [o]) := by
  have hn : ∀ m1 : World α, m1.woken = m.woken → m1.waker = m.waker → tally w m1.notify ≤ tally w m := by
    intro m1 h1 h2
    have := notify_tally w m1
    have : tally w m1 = tally w m := by simp only [tally, h1, h2]
    omega
  cases e with
  | send a =>
    simp only [World.step, World.send] at h
    split at h
    · cases h
    · cases h
      have := hn { m with value := some a } rfl rfl
      split
      · split
        · dsimp only; omega
        · exact Nat.le_add_right _ _
      · exact Nat.le_add_right _ _
  | close =>
    simp only [World.step, World.close] at h
    split at h
    · cases h
    · cases h
      have := hn { m with senders := 0 } rfl rfl
      split
      · split
        · omega
        · exact Nat.le_add_right _ _
      · exact Nat.le_add_right _ _
  | clone =>
    simp only [World.step, World.clone] at h
    split at h
    · cases h
    · cases h
      split
      · split
        · exact Nat.le_add_right _ _
        · exact Nat.le_add_right _ _
      · exact Nat.le_add_right _ _
  | dropSender =>
    simp only [World.step, World.dropSender] at h
    split at h
    · cases h
    · cases h
      have := hn { m with senders := 0 } rfl rfl
      split
      · split
        · split
          · exact Nat.le_trans this (Nat.le_add_right _ _)
          · exact Nat.le_add_right _ _
        · exact Nat.le_add_right _ _
      · exact Nat.le_add_right _ _
  | poll v =>
    simp only [World.step, World.pollChange] at h
    split at h
    · cases h
      split
      · split
        · simp only [tally, polls, waits_pending, isWaker_some]; omega
        · exact Nat.le_add_right _ _
      · exact Nat.le_add_right _ _
    · cases h
  | dropReceiver =>
    simp only [World.step] at h
    split at h
    · cases h; exact Nat.le_add_right _ _
    · cases h

/-- **C99**, `channel`. -/
theorem C99_channel (a : α) (es : List (Ev α)) (os : List (Obs α)) (m : World α)
    (h : (World.new a).runs es = some (os, m)) (w : Waker) : m.woken.count w ≤ waits w (polls es os) := by
  have key : ∀ (es : List (Ev α)) (os : List (Obs α)) (m0 m : World α), runE World.step m0 es = some (os, m) →
      tally w m ≤ tally w m0 + waits w (polls es os) := by
    intro es
    induction es with
    | nil => intro os m0 m h; cases h; exact Nat.le_add_right _ _
    | cons e es ih =>
      intro os m0 m h
      simp only [runE] at h
      split at h
      · cases h
      · rename_i o m1 h1
        split at h
        · cases h
        · rename_i os' m2 h2
          cases h
          have a2 := step_tally w h1
          have := ih _ _ _ h2
          have hp : polls (e :: es) (o :: os') = polls [e] [o] ++ polls es os' := by cases e <;> cases o <;> rfl
          rw [hp, waits_append]
          omega
  have := key es os _ m h
  have h0 : tally w (World.new a) = 0 := rfl
  have : tally w m = m.woken.count w + if isWaker w m.waker then 1 else 0 := rfl
  omega

example : ∃ os m, (World.new 1).runs [.poll 7, .poll 7, .send 2, .poll 7, .poll 7, .close] = some (os, m) ∧
    m.woken = [7, 7] ∧ waits 7 (polls [.poll 7, .poll 7, .send 2, .poll 7, .poll 7, .close] os) = 2 :=
  ⟨_, _, rfl, rfl, rfl⟩

end Verif.Chan

/-! ## `Broadcaster` -/

namespace Verif.Bc

variable {α β : Type}

/-- The polls of a history, with the wakers given and the answers. -/
def polls : List Ev → List (Out α β) → List (Waker × Poll (Option β))
  | .poll _ w :: es, ⟨some r, _, _⟩ :: os => (w, r) :: polls es os
  | _ :: es, _ :: os => polls es os
  | _, _ => []

/-- The wakes of the present step and those that can come without a further poll. -/
def tally (w : Waker) (m : World α) : Nat := m.woken.count w + Verif.held w m.cell m.made

/-- Cells that do not exist hold no waker. -/
def Fresh (m : World α) : Prop := ∀ i, m.made ≤ i → (m.cell i).waker = none

theorem setCell_tally {m : World α} (hf : Fresh m) (w : Waker) (i : Nat) (c : Mut.ChangedWaker) :
    tally w (m.setCell i c) + (if isWaker w (m.cell i).waker then 1 else 0) ≤
      tally w m + (if isWaker w c.waker then 1 else 0) := by
  have h := held_set w m.cell i c m.made
  simp only [tally, World.setCell] at h ⊢
  by_cases hi : i < m.made
  · simp only [hi, true_and] at h; omega
  · have := hf i (by omega)
    simp only [hi, false_and, this, isWaker] at h ⊢
    simp at h ⊢
    omega

theorem setCell_fresh {m : World α} (hf : Fresh m) {i : Nat} {c : Mut.ChangedWaker} (h : i < m.made ∨ c.waker = none) :
    Fresh (m.setCell i c) := by
  intro j hj
  simp only [World.setCell] at hj ⊢
  split
  · rename_i e; subst e
    rcases h with h | h
    · omega
    · exact h
  · exact hf j hj

theorem retain_tally (w : Waker) (l : List Nat) {m : World α} (hf : Fresh m) :
    Fresh (World.retain l m).2 ∧ tally w (World.retain l m).2 ≤ tally w m ∧ (World.retain l m).2.made = m.made := by
  induction l generalizing m with
  | nil => exact ⟨hf, Nat.le_refl _, rfl⟩
  | cons i l ih =>
    simp only [World.retain]
    split
    · have h1 := setCell_tally hf w i ((m.cell i).wake false).1
      have hf1 : Fresh { m.setCell i ((m.cell i).wake false).1 with woken := m.woken ++ ((m.cell i).wake false).2 } :=
        setCell_fresh hf (.inr rfl)
      obtain ⟨a1, a2, a3⟩ := ih hf1
      refine ⟨a1, Nat.le_trans a2 ?_, a3⟩
      simp only [tally, List.count_append, Mut.ChangedWaker.wake, count_toList] at h1 ⊢
      simp only [World.setCell, isWaker] at h1 ⊢
      simp at h1 ⊢
      omega
    · exact ih hf

theorem notify_tally (w : Waker) {m : World α} (hf : Fresh m) :
    Fresh m.notify ∧ tally w m.notify ≤ tally w m ∧ m.notify.made = m.made :=
  retain_tally w m.wakers (m := { m with isChanged := true }) hf

theorem loop_tally (w : Waker) (script : List (Step α)) (changed : Bool) {m : World α} (hf : Fresh m) :
    Fresh (m.loop changed script).2 ∧ tally w (m.loop changed script).2 ≤ tally w m ∧
      (m.loop changed script).2.made = m.made := by
  induction script generalizing m changed with
  | nil => exact ⟨hf, Nat.le_refl _, rfl⟩
  | cons x rest ih =>
    obtain ⟨self, r⟩ := x
    have h2 : ∀ m1 : World α, Fresh m1 → Fresh (if self then m1.notify else m1) ∧
        tally w (if self then m1.notify else m1) ≤ tally w m1 ∧ (if self then m1.notify else m1).made = m1.made := by
      intro m1 hf1
      split
      · exact notify_tally w hf1
      · exact ⟨hf1, Nat.le_refl _, rfl⟩
    have h3 := h2 { m with todo := rest, hist := m.hist ++ [(self, r)] } hf
    simp only [World.loop]
    generalize (if self then World.notify { m with todo := rest, hist := m.hist ++ [(self, r)] }
      else { m with todo := rest, hist := m.hist ++ [(self, r)] }) = m2 at h3
    obtain ⟨a1, a2, a3⟩ := h3
    have a2 : tally w m2 ≤ tally w m := a2
    have a3 : m2.made = m.made := a3
    match r with
    | .ready (some a) =>
      obtain ⟨b1, b2, b3⟩ := ih true (m := { m2 with value := some a }) a1
      exact ⟨b1, Nat.le_trans b2 a2, b3.trans a3⟩
    | .ready none => exact ⟨a1, a2, a3⟩
    | .pending => exact ⟨a1, a2, a3⟩

theorem pollSignal_tally (w : Waker) {m : World α} (hf : Fresh m) :
    Fresh m.pollSignal ∧ tally w m.pollSignal ≤ tally w m ∧ m.pollSignal.made = m.made := by
  unfold World.pollSignal
  split
  · have := loop_tally w m.todo false hf
    split
    · rename_i m1 e; rw [e] at this; exact this
    · rename_i m1 e; rw [e] at this; exact this
  · exact ⟨hf, Nat.le_refl _, rfl⟩

theorem decide_tally (w : Waker) {m m' : World α} (hf : Fresh m) {i : Nat} (hi : i < m.made) {v : Waker} {f : α → β}
    {r : Poll (Option β)} (h : m.decide i v f = some (r, m')) : Fresh m' ∧ tally w m' ≤ tally w m + waits w [(v, r)] := by
  simp only [World.decide] at h
  split at h
  · split at h
    · cases h; exact ⟨hf, Nat.le_add_right _ _⟩
    · cases h
      have := setCell_tally hf w i ((m.cell i).setWaker v)
      refine ⟨setCell_fresh hf (.inl hi), ?_⟩
      simp only [waits_pending]
      have h4 : tally w (m.setCell i ((m.cell i).setWaker v)) ≤
          tally w m + (if isWaker w (some v) then 1 else 0) := Nat.le_trans (Nat.le_add_right _ _) this
      rwa [isWaker_some] at h4
  · split at h
    · cases h
    · cases h; exact ⟨hf, Nat.le_add_right _ _⟩

theorem step_tally (w : Waker) {f : Nat → α → β} {m m' : World α} {e : Ev} {o : Out α β} (hf : Fresh m)
    (h : m.step f e = some (o, m')) :
    Fresh m' ∧ o.woken.count w + Verif.held w m'.cell m'.made ≤ Verif.held w m.cell m.made + waits w (polls [e] [o]) := by
  have h0 : tally w { m with woken := [] } = Verif.held w m.cell m.made := by simp [tally]
  cases e with
  | poll i v =>
    simp only [World.step] at h
    split at h
    · rename_i hi
      split at h
      · cases h
      · rename_i r m1 hp
        cases h
        simp only [World.pollChange] at hp
        have key : Fresh m' ∧ tally w m' ≤ tally w { m with woken := [] } + waits w [(v, r)] := by
          split at hp
          · obtain ⟨a1, a2, a3⟩ := pollSignal_tally w (m := { m with woken := [], isChanged := false }) hf
            obtain ⟨b1, b2⟩ := decide_tally w a1 (by rw [a3]; exact hi.1) hp
            exact ⟨b1, Nat.le_trans b2 (Nat.add_le_add_right a2 _)⟩
          · exact decide_tally w (m := { m with woken := [] }) hf hi.1 hp
        exact ⟨key.1, by rw [← h0]; exact key.2⟩
    · cases h
  | wake =>
    cases h
    obtain ⟨a1, a2, -⟩ := notify_tally w (m := { m with woken := [] }) hf
    exact ⟨a1, by rw [← h0]; exact Nat.le_trans a2 (Nat.le_add_right _ _)⟩
  | subscribe =>
    cases h
    have h1 : Verif.held w (fun j => if j = m.made then Mut.ChangedWaker.new else m.cell j) (m.made + 1) =
        Verif.held w m.cell m.made := by
      have := held_set w m.cell m.made Mut.ChangedWaker.new m.made
      rw [held_succ]
      simp [isWaker, Mut.ChangedWaker.new] at this ⊢
      exact this
    refine ⟨?_, ?_⟩
    · intro i hi
      simp only [World.subscribe, World.setCell] at hi ⊢
      rw [if_neg (by omega)]
      exact hf i (by omega)
    · simp only [World.subscribe, World.setCell, List.count_nil]
      omega
  | dropSub i =>
    simp only [World.step] at h
    split at h
    · rename_i hi
      cases h
      have := setCell_tally (m := { m with woken := [] }) hf w i { m.cell i with alive := false }
      refine ⟨setCell_fresh (m := { m with woken := [] }) hf (.inl hi.1), ?_⟩
      rw [h0] at this
      simp only [tally] at this
      dsimp only at this ⊢
      omega
    · cases h

/-- **C99**, `Broadcaster`.  Each step lists the wakers it woke. -/
theorem C99_broadcaster (f : Nat → α → β) (script : List (Step α)) (es : List Ev) (os : List (Out α β)) (m : World α)
    (h : runE (World.step f) (World.new script) es = some (os, m)) (w : Waker) :
    (os.flatMap (·.woken)).count w ≤ waits w (polls es os) := by
  have key : ∀ (es : List Ev) (os : List (Out α β)) (m0 m : World α), Fresh m0 →
      runE (World.step f) m0 es = some (os, m) →
      (os.flatMap (·.woken)).count w + Verif.held w m.cell m.made ≤ Verif.held w m0.cell m0.made + waits w (polls es os) := by
    intro es
    induction es with
    | nil => intro os m0 m _ h; cases h; simp
    | cons e es ih =>
      intro os m0 m hf h
      simp only [runE] at h
      split at h
      · cases h
      · rename_i o m1 h1
        split at h
        · cases h
        · rename_i os' m2 h2
          cases h
          obtain ⟨a1, a2⟩ := step_tally w hf h1
          have := ih _ _ _ a1 h2
          have hp : polls (e :: es) (o :: os') = polls [e] [o] ++ polls es os' := by
            obtain ⟨_ | r, _, _⟩ := o <;> cases e <;> rfl
          rw [hp, waits_append]
          simp only [List.flatMap_cons, List.count_append]
          omega
  have := key es os _ m (fun _ _ => rfl) h
  have h0 : Verif.held w (World.new script).cell (World.new script).made = 0 := rfl
  omega

example : ∃ os m, runE (World.step fun _ : Nat => (id : Nat → Nat)) (World.new [(false, .ready (some 1)), (false, .pending)])
      [.subscribe, .poll 0 7, .poll 0 7, .wake, .wake] = some (os, m) ∧
    os.flatMap (·.woken) = [7] ∧ waits 7 (polls [.subscribe, .poll 0 7, .poll 0 7, .wake, .wake] os) = 1 :=
  ⟨_, _, rfl, rfl, rfl⟩

end Verif.Bc

/-! ## `cancelable_future` -/

namespace Verif.Cancelable

variable {ο : Type}

/-- The polls of a history, with the wakers given and the answers. -/
def polls : List Ev → List (Obs ο) → List (Waker × Poll ο)
  | .poll w :: es, .poll r :: os => (w, r) :: polls es os
  | _ :: es, _ :: os => polls es os
  | _, _ => []

/-- The wakes so far and those that can come without a further poll. -/
def tally (w : Waker) (m : World ο) : Nat := m.woken.count w + if isWaker w m.waker then 1 else 0

theorem step_tally (w : Waker) {m m' : World ο} {e : Ev} {o : Obs ο} (h : m.step e = some (o, m')) :
    tally w m' ≤ tally w m + waits w (polls [e] [o]) := by
  cases e with
  | poll v =>
    simp only [World.step, World.poll] at h
    split at h
    · split at h
      · cases h; exact Nat.le_add_right _ _
      · rename_i a m1 hp
        cases h
        split at hp
        · split at hp
          · cases hp
          · cases hp; exact Nat.le_add_right _ _
        · split at hp
          · cases hp
          · split at hp
            · cases hp
            · cases hp; exact Nat.le_add_right _ _
      · rename_i m1 hp
        cases h
        split at hp
        · split at hp
          · cases hp
          · cases hp
        · split at hp
          · cases hp
          · split at hp
            · cases hp
              simp only [tally, polls, waits_pending, isWaker_some]; omega
            · cases hp
    · cases h
  | discard =>
    simp only [World.step, World.discard] at h
    split at h
    · cases h
      split
      · split
        · rename_i v hv
          simp [tally, hv, isWaker, List.count_append, List.count_cons]
        · exact Nat.le_add_right _ _
      · exact Nat.le_add_right _ _
    · cases h
  | dropFuture =>
    simp only [World.step] at h
    split at h
    · cases h; exact Nat.le_add_right _ _
    · cases h

/-- **C99**, `cancelable_future`: its handle wakes at most once for each `Pending` (and only once at all). -/
theorem C99_cancelable (script : List (Poll ο)) (callback : ο) (es : List Ev) (os : List (Obs ο)) (m : World ο)
    (h : (World.init script callback).runs es = some (os, m)) (w : Waker) : m.woken.count w ≤ waits w (polls es os) := by
  have key : ∀ (es : List Ev) (os : List (Obs ο)) (m0 m : World ο), runE World.step m0 es = some (os, m) →
      tally w m ≤ tally w m0 + waits w (polls es os) := by
    intro es
    induction es with
    | nil => intro os m0 m h; cases h; exact Nat.le_add_right _ _
    | cons e es ih =>
      intro os m0 m h
      simp only [runE] at h
      split at h
      · cases h
      · rename_i o m1 h1
        split at h
        · cases h
        · rename_i os' m2 h2
          cases h
          have a2 := step_tally w h1
          have := ih _ _ _ h2
          have hp : polls (e :: es) (o :: os') = polls [e] [o] ++ polls es os' := by cases e <;> cases o <;> rfl
          rw [hp, waits_append]
          omega
  have := key es os _ m h
  have h0 : tally w (World.init script callback) = 0 := rfl
  have : tally w m = m.woken.count w + if isWaker w m.waker then 1 else 0 := rfl
  omega

example : ∃ os m, (World.init [.pending, .pending, .ready 5] 9).runs [.poll 7, .poll 7, .discard, .poll 7] = some (os, m) ∧
    m.woken = [7] ∧ waits 7 (polls [.poll 7, .poll 7, .discard, .poll 7] os) = 2 :=
  ⟨_, _, rfl, rfl, rfl⟩

end Verif.Cancelable
