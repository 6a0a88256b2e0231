import Verif.Props.Wakes
import Mathlib.Data.List.Perm.Basic

/-!
# A task is woken at most once for each `Pending` (C99), with threads
-/

/-! ## `MutableVec` and `MutableBTreeMap` -/

namespace Verif.HubConc

variable {S D O : Type}

/-- The polls of a history, with the wakers given and the answers. -/
def polls : List (Ev O) → List (Option (Poll (Option D))) → List (Waker × Poll (Option D))
  | .poll _ w :: es, some r :: os => (w, r) :: polls es os
  | _ :: es, _ :: os => polls es os
  | _, _ => []

/-- The wakes so far and those that can come without a further poll. -/
def tally (w : Waker) (h : Hub D) : Nat := h.woken.count w + h.links.countP fun c => isWaker w c.waker

theorem tally_set (w : Waker) {h : Hub D} {i : Nat} {c c' : Link D} (hc : h.links[i]? = some c) (v : List Waker) :
    (h.woken ++ v).count w + (h.links.set i c').countP (fun c => isWaker w c.waker) +
        (if isWaker w c.waker then 1 else 0) =
      tally w h + v.count w + if isWaker w c'.waker then 1 else 0 := by
  obtain ⟨hi, he⟩ := List.getElem?_eq_some_iff.1 hc
  have h1 := List.countP_set (p := fun c : Link D => isWaker w c.waker) (a := c') hi
  have h2 : (if isWaker w c.waker then 1 else 0) ≤ h.links.countP fun c => isWaker w c.waker := by
    split
    · rename_i hw
      exact List.countP_pos_iff.2 ⟨c, he ▸ List.getElem_mem hi, hw⟩
    · exact Nat.zero_le _
  rw [he] at h1
  simp only [tally, List.count_append]
  omega

theorem send_tally (w : Waker) (h : Hub D) (i : Nat) (d : D) : tally w (h.send i d).2 ≤ tally w h := by
  unfold Hub.send
  split
  · exact Nat.le_refl _
  · rename_i c hc
    split
    · have := tally_set w hc c.waker.toList (c' := { c with queue := c.queue ++ [d], waker := none })
      rw [count_toList] at this
      simp only [tally] at this ⊢
      simp only [isWaker] at this ⊢
      simp at this ⊢
      omega
    · exact Nat.le_refl _

theorem dropTx_tally (w : Waker) (h : Hub D) (i : Nat) : tally w (h.dropTx i) ≤ tally w h := by
  unfold Hub.dropTx
  split
  · exact Nat.le_refl _
  · rename_i c hc
    have := tally_set w hc c.waker.toList (c' := { c with txAlive := false, waker := none })
    rw [count_toList] at this
    simp only [tally] at this ⊢
    simp only [isWaker] at this ⊢
    simp at this ⊢
    omega

theorem dropRx_tally (w : Waker) (h : Hub D) (i : Nat) : tally w (h.dropRx i) ≤ tally w h := by
  unfold Hub.dropRx
  split
  · exact Nat.le_refl _
  · rename_i c hc
    have := tally_set w hc [] (c' := { c with rxAlive := false, queue := [], waker := none })
    simp only [tally] at this ⊢
    simp only [isWaker] at this ⊢
    simp at this ⊢
    omega

theorem pollRx_tally (w : Waker) (h : Hub D) (i : Nat) (v : Waker) :
    tally w (h.pollRx i v).2 ≤ tally w h + waits w [(v, (h.pollRx i v).1)] := by
  unfold Hub.pollRx
  split
  · exact Nat.le_add_right _ _
  · rename_i c hc
    split
    · rename_i d ds hq
      have := tally_set w hc [] (c' := { c with queue := ds, delivered := c.delivered ++ [d] })
      simp only [tally] at this ⊢
      simp at this ⊢
      omega
    · split
      · have := tally_set w hc [] (c' := { c with waker := some v })
        simp only [isWaker_some] at this
        simp only [waits_pending]
        simp only [tally] at this ⊢
        simp only [List.append_nil, List.count_nil] at this
        omega
      · exact Nat.le_add_right _ _

theorem step_tally (w : Waker) {api : Api S D O} {m m' : World S D} {e : Ev O} {o : Option (Poll (Option D))}
    (h : m.step api e = some (o, m')) : tally w m'.hub ≤ tally w m.hub + waits w (polls [e] [o]) := by
  cases e with
  | call o =>
    simp only [World.step] at h
    split at h
    · cases h
    · split at h
      · cases h
      · cases h; exact Nat.le_add_right _ _
  | tick =>
    simp only [World.step, Option.map_eq_some_iff] at h
    obtain ⟨m1, h, h1⟩ := h
    cases h1
    simp only [World.tick] at h
    split at h
    · split at h
      · cases h
      · cases h; exact Nat.le_trans (dropTx_tally w _ _) (Nat.le_add_right _ _)
    · split at h
      · cases h; exact Nat.le_trans (send_tally w _ _ _) (Nat.le_add_right _ _)
      · cases h; exact Nat.le_add_right _ _
      · split at h
        · cases h; exact Nat.le_add_right _ _
        · cases h; exact Nat.le_add_right _ _
  | subscribe =>
    simp only [World.step] at h
    split at h
    · cases h
    · cases h
      simp [tally, Hub.subscribe, isWaker, List.countP_append]
  | poll i v =>
    simp only [World.step] at h
    split at h
    · cases h; exact pollRx_tally w _ _ _
    · cases h
  | dropRx i =>
    simp only [World.step] at h
    split at h
    · cases h; exact Nat.le_trans (dropRx_tally w _ _) (Nat.le_add_right _ _)
    · cases h
  | cloneHandle =>
    simp only [World.step] at h
    split at h
    · cases h
    · cases h; exact Nat.le_add_right _ _
  | dropHandle =>
    simp only [World.step] at h
    split at h
    · cases h
    · split at h
      · split at h
        · cases h
        · cases h; exact Nat.le_add_right _ _
      · cases h; exact Nat.le_add_right _ _

theorem runs_tally (api : Api S D O) (s : S) (es : List (Ev O)) (os : List (Option (Poll (Option D)))) (m : World S D)
    (h : (World.init s).runs api es = some (os, m)) (w : Waker) : m.hub.woken.count w ≤ waits w (polls es os) := by
  have key : ∀ (es : List (Ev O)) (os : List (Option (Poll (Option D)))) (m0 m : World S D),
      runE (World.step api) m0 es = some (os, m) → tally w m.hub ≤ tally w m0.hub + waits w (polls es os) := by
    intro es
    induction es with
    | nil => intro os m0 m h; cases h; exact Nat.le_add_right _ _
    | cons e es ih =>
      intro os m0 m h
      simp only [runE] at h
      split at h
      · cases h
      · rename_i o m1 h1
        split at h
        · cases h
        · rename_i os' m2 h2
          cases h
          have a2 := step_tally w h1
          have := ih _ _ _ h2
          have hp : polls (e :: es) (o :: os') = polls [e] [o] ++ polls es os' := by cases e <;> cases o <;> rfl
          rw [hp, waits_append]
          omega
  have := key es os _ m h
  have h0 : tally w (World.init (D := D) s).hub = 0 := rfl
  have : tally w m.hub = m.hub.woken.count w + m.hub.links.countP fun c => isWaker w c.waker := rfl
  omega

/-- **C99**, `MutableVec`, with subscribers polled and dropped on other threads. -/
theorem C99_vec {α : Type} (xs : List α) (es : List (Ev (MutVec.Op α))) (os : List (Option (Poll (Option (VecDiff α)))))
    (m : World (List α) (VecDiff α)) (h : (World.init xs).runs (vecApi α) es = some (os, m)) (w : Waker) :
    m.hub.woken.count w ≤ waits w (polls es os) := runs_tally _ _ _ _ _ h w

/-- **C99**, `MutableBTreeMap`, with subscribers polled and dropped on other threads. -/
theorem C99_map {K V : Type} [LinearOrder K] (x : MutMap.BMap K V) (es : List (Ev (MutMap.Op K V)))
    (os : List (Option (Poll (Option (MapDiff K V))))) (m : World (MutMap.BMap K V) (MapDiff K V))
    (h : (World.init x).runs (mapApi K V) es = some (os, m)) (w : Waker) :
    m.hub.woken.count w ≤ waits w (polls es os) := runs_tally _ _ _ _ _ h w

/-- A poll that answers `Pending`, then two pushes: woken once. -/
example : let es : List (Ev (MutVec.Op Nat)) := [.subscribe, .poll 0 7, .poll 0 7, .call (.push 2), .tick, .tick,
      .tick, .tick, .call (.push 3), .tick, .tick]
    ∃ os m, (World.init [1]).runs (vecApi Nat) es = some (os, m) ∧ m.hub.woken = [7] ∧ waits 7 (polls es os) = 1 := by
  intro es
  refine ⟨_, _, rfl, ?_, ?_⟩
  · rfl
  · rfl

end Verif.HubConc

/-! ## `channel` -/

namespace Verif.ChanConc

variable {α : Type}

/-- The call is about to wake `w`. -/
def Pc.wakesThis (w : Waker) : Pc α → Bool
  | .wake _ v => v == w
  | _ => false

/-- The wakes so far and those that can come without a further poll. -/
def tally (w : Waker) (m : World α) : Nat :=
  m.woken.count w + (if isWaker w m.waker then 1 else 0) + m.calls.countP (Pc.wakesThis w)

theorem exec_tally (w : Waker) (m : World α) (pc : Pc α) :
    (m.exec pc).1.calls = m.calls ∧ (m.exec pc).1.answers = m.answers ∧
    (m.exec pc).1.woken.count w + (if isWaker w (m.exec pc).1.waker then 1 else 0) +
        (if ((m.exec pc).2.map (Pc.wakesThis w)).getD false then 1 else 0) =
      m.woken.count w + (if isWaker w m.waker then 1 else 0) + if pc.wakesThis w then 1 else 0 := by
  rcases m with ⟨value, waker, senders, calls, r, handles, closed, answers, woken, regAt⟩
  cases pc with
  | notify b =>
    cases waker with
    | none => exact ⟨rfl, rfl, rfl⟩
    | some v => simp [World.exec, Pc.wakesThis, isWaker]
  | wake b v =>
    refine ⟨rfl, rfl, ?_⟩
    simp only [World.exec, Pc.wakesThis, List.count_append, List.count_cons, List.count_nil, Option.map_none, Option.getD_none]
    simp only [Nat.zero_add, Bool.false_eq_true, if_false, Nat.add_zero]
    rw [Nat.add_right_comm]
    rfl
  | sendHas a => simp only [World.exec]; split <;> exact ⟨rfl, rfl, rfl⟩
  | closeHas => simp only [World.exec]; split <;> exact ⟨rfl, rfl, rfl⟩
  | cloneHas => simp only [World.exec]; split <;> exact ⟨rfl, rfl, rfl⟩
  | dropHas => simp only [World.exec]; split <;> exact ⟨rfl, rfl, rfl⟩
  | dropSub => simp only [World.exec]; split <;> exact ⟨rfl, rfl, rfl⟩
  | _ => exact ⟨rfl, rfl, rfl⟩

theorem step_tally (w : Waker) {m m' : World α} {e : Ev α} {o : Unit} (h : m.step e = some (o, m')) :
    tally w m' + waits w m.answers ≤ tally w m + waits w m'.answers := by
  cases e with
  | callSend a =>
    simp only [World.step] at h
    split at h
    · cases h
    · cases h; simp [tally, List.countP_append, List.countP_cons, Pc.wakesThis]
  | callClose =>
    simp only [World.step] at h
    split at h
    · cases h
    · cases h; simp [tally, List.countP_append, List.countP_cons, Pc.wakesThis]
  | callClone =>
    simp only [World.step] at h
    split at h
    · cases h
    · cases h; simp [tally, List.countP_append, List.countP_cons, Pc.wakesThis]
  | callDrop =>
    simp only [World.step] at h
    split at h
    · cases h; simp [tally, List.countP_append, List.countP_cons, Pc.wakesThis]
    · cases h
  | step i =>
    simp only [World.step] at h
    split at h
    · cases h
    · rename_i pc hpc
      obtain ⟨hi, he⟩ := List.getElem?_eq_some_iff.1 hpc
      obtain ⟨a1, a2, a3⟩ := exec_tally w m pc
      have h2 : (if pc.wakesThis w then 1 else 0) ≤ m.calls.countP (Pc.wakesThis w) := by
        split
        · rename_i hw
          exact List.countP_pos_iff.2 ⟨pc, he ▸ List.getElem_mem hi, hw⟩
        · exact Nat.zero_le _
      split at h
      · rename_i m1 pc1 e1
        cases h
        rw [e1] at a1 a2 a3
        dsimp only at a1 a2 a3
        have h1 := List.countP_set (p := Pc.wakesThis w) (a := pc1) hi
        rw [he] at h1
        simp only [Option.map_some, Option.getD_some] at a3
        simp only [tally, a2]
        omega
      · rename_i m1 e1
        cases h
        rw [e1] at a1 a2 a3
        dsimp only at a1 a2 a3
        have h1 : (m.calls.eraseIdx i).countP (Pc.wakesThis w) + (if pc.wakesThis w then 1 else 0) = m.calls.countP (Pc.wakesThis w) := by
          have := (List.getElem_cons_eraseIdx_perm hi).countP_eq (Pc.wakesThis w)
          rw [List.countP_cons, he] at this
          exact this
        simp only [Option.map_none, Option.getD_none] at a3
        simp only [tally, a2]
        simp at a3
        omega
  | callPoll v =>
    simp only [World.step] at h
    split at h
    · cases h; exact Nat.le_refl _
    · cases h
  | rstep =>
    simp only [World.step] at h
    split at h
    · cases h
    · split at h
      · cases h; simp [tally, waits_append, waits_ready]
      · cases h; exact Nat.le_refl _
    · split at h
      · cases h; simp [tally, waits_append, waits_ready]
      · cases h; exact Nat.le_refl _
    · cases h
      simp only [tally, waits_append, waits_pending, isWaker_some]
      omega

/-- **C99**, `channel`, for every schedule of threads. -/
theorem C99_channel_threads (a : α) (es : List (Ev α)) (m : World α) (h : (World.init a).runs es = some m) (w : Waker) :
    m.woken.count w ≤ waits w m.answers := by
  have key : ∀ (es : List (Ev α)) (os : List Unit) (m0 m : World α), runE World.step m0 es = some (os, m) →
      tally w m + waits w m0.answers ≤ tally w m0 + waits w m.answers := by
    intro es
    induction es with
    | nil => intro os m0 m h; cases h; exact Nat.le_refl _
    | cons e es ih =>
      intro os m0 m h
      simp only [runE] at h
      split at h
      · cases h
      · rename_i o m1 h1
        split at h
        · cases h
        · rename_i os' m2 h2
          cases h
          have a2 := step_tally w h1
          have := ih _ _ _ h2
          omega
  simp only [World.runs, Option.map_eq_some_iff] at h
  obtain ⟨⟨os, m1⟩, h, rfl⟩ := h
  have := key es os _ m1 h
  have h0 : tally w (World.init a) = 0 := rfl
  have : tally w m1 = m1.woken.count w + (if isWaker w m1.waker then 1 else 0) + m1.calls.countP (Pc.wakesThis w) := rfl
  dsimp only
  omega

example : ∃ m, (World.init 1).runs [.callPoll 7, .rstep, .callPoll 7, .rstep, .rstep, .rstep, .callSend 2, .step 0, .step 0,
      .step 0, .step 0] = some m ∧ m.woken = [7] ∧ waits 7 m.answers = 1 :=
  ⟨_, rfl, rfl, rfl⟩

end Verif.ChanConc

/-! ## `cancelable_future` -/

namespace Verif.CancelableConc

/-- The wakes so far and those that can come without a further poll. -/
def tally (w : Waker) (m : World) : Nat :=
  m.woken.count w + (if isWaker w m.waker then 1 else 0) + if m.d = .wake w then 1 else 0

theorem step_tally (w : Waker) {m m' : World} {e : Ev} {o : Unit} (h : m.step e = some (o, m')) :
    tally w m' + m.answers.count (w, true) ≤ tally w m + m'.answers.count (w, true) := by
  cases e with
  | poll v =>
    simp only [World.step] at h
    split at h
    · cases h; exact Nat.le_refl _
    · cases h
  | pLoad =>
    simp only [World.step] at h
    split at h
    · split at h
      · cases h; simp [tally]
      · cases h; exact Nat.le_refl _
    · cases h
  | pInner b =>
    simp only [World.step] at h
    split at h
    · split at h
      · cases h; exact Nat.le_refl _
      · cases h; simp [tally]
    · cases h
  | pLock =>
    simp only [World.step] at h
    split at h
    · split at h
      · cases h
      · cases h; exact Nat.le_refl _
    · cases h
  | pStore =>
    simp only [World.step] at h
    split at h
    · rename_i v hp
      cases h
      simp only [tally, isWaker_some, List.count_append, List.count_cons, List.count_nil]
      by_cases hv : v = w
      · subst hv; simp; omega
      · simp [hv]
    · cases h
  | dLock =>
    simp only [World.step] at h
    split at h
    · rename_i hd
      split at h
      · cases h
      · cases h; simp [tally, hd]
    · cases h
  | dStore =>
    simp only [World.step] at h
    split at h
    · rename_i hd; cases h; simp [tally, hd]
    · cases h
  | dTake =>
    simp only [World.step] at h
    split at h
    · rename_i hd
      split at h
      · rename_i v hv; cases h; simp [tally, hd, hv, isWaker]
      · cases h; simp [tally, hd]
    · cases h
  | dWake =>
    simp only [World.step] at h
    split at h
    · rename_i v hd
      cases h
      simp only [tally, hd, List.count_append, List.count_cons, List.count_nil]
      by_cases hv : v = w
      · subst hv; simp; omega
      · simp [hv]
    · cases h

/-- **C99**, `cancelable_future`, for every schedule of threads (`(w, true)`: a poll with `w` answered `Pending`). -/
theorem C99_cancelable_threads (es : List Ev) (m : World) (h : World.init.runs es = some m) (w : Waker) :
    m.woken.count w ≤ m.answers.count (w, true) := by
  have key : ∀ (es : List Ev) (os : List Unit) (m0 m : World), runE World.step m0 es = some (os, m) →
      tally w m + m0.answers.count (w, true) ≤ tally w m0 + m.answers.count (w, true) := by
    intro es
    induction es with
    | nil => intro os m0 m h; cases h; exact Nat.le_refl _
    | cons e es ih =>
      intro os m0 m h
      simp only [runE] at h
      split at h
      · cases h
      · rename_i o m1 h1
        split at h
        · cases h
        · rename_i os' m2 h2
          cases h
          have a2 := step_tally w h1
          have := ih _ _ _ h2
          omega
  simp only [World.runs, Option.map_eq_some_iff] at h
  obtain ⟨⟨os, m1⟩, h, rfl⟩ := h
  have := key es os _ m1 h
  have h0 : tally w World.init = 0 := rfl
  have : tally w m1 = m1.woken.count w + (if isWaker w m1.waker then 1 else 0) + if m1.d = .wake w then 1 else 0 := rfl
  dsimp only
  omega

example : ∃ m, World.init.runs [.poll 7, .pLoad, .pInner true, .pLock, .pStore, .dLock, .dStore, .dTake, .dWake] = some m ∧
    m.woken = [7] ∧ m.answers = [(7, true)] :=
  ⟨_, rfl, rfl, rfl⟩

end Verif.CancelableConc

/-! ## `Mutable` -/

namespace Verif.MutConc

variable {α : Type}

/-- The thread with the lock is about to wake `w` for signal `i`. -/
def Phase.wakesThis (i : Nat) (w : Waker) : Phase → Bool
  | .wake j v => j == i && v == w
  | _ => false

/-- The polls of a signal. -/
def Sig.polls (s : Sig α) : List (Waker × Poll (Option α)) := s.answers.map fun a => (a.waker, a.answer)

/-- The signal a phase is about. -/
def Phase.about : Phase → List Nat
  | .next => []
  | .take i => [i]
  | .wake i _ => [i]

/-- The wakes so far of signal `i` and those that can come without a further poll. -/
def tally (i : Nat) (w : Waker) (m : World α) : Nat :=
  (m.sigs i).woken.count w + (if isWaker w (m.sigs i).waker then 1 else 0) +
    match m.writer with
    | some wr => if wr.phase.wakesThis i w then 1 else 0
    | none => 0

/-- Nothing refers to signals that do not exist. -/
structure Tied (m : World α) : Prop where
  signals : ∀ i ∈ m.signals, i < m.made
  writer : ∀ wr, m.writer = some wr → (∀ i ∈ wr.todo, i < m.made) ∧ ∀ i ∈ wr.phase.about, i < m.made
  born : ∀ i, (m.sigs i).pc ≠ .unborn → i < m.made

structure Tallied (i : Nat) (w : Waker) (m : World α) : Prop extends Tied m where
  le : tally i w m ≤ waits w (m.sigs i).polls

theorem step_tallied (i : Nat) (w : Waker) {m m' : World α} {e : Ev α} {o : Unit} (hi : Tallied i w m)
    (h : m.step e = some (o, m')) : Tallied i w m' := by
  obtain ⟨⟨t1, t2, t3⟩, hle⟩ := hi
  cases e with
  | write a =>
    simp only [World.step] at h
    split at h
    · cases h
    · rename_i hw
      split at h
      · cases h
      · cases h
        refine ⟨⟨t1, ?_, t3⟩, ?_⟩
        · intro wr h'; cases h'; exact ⟨t1, by simp [Phase.about]⟩
        · simpa [tally, hw, Phase.wakesThis] using hle
  | wstep =>
    simp only [World.step] at h
    split at h
    · cases h
    · rename_i wr hw
      cases h
      obtain ⟨u1, u2⟩ := t2 wr hw
      simp only [World.wstep]
      cases hp : wr.phase with
      | next =>
        simp only
        cases ht : wr.todo with
        | nil =>
          refine ⟨⟨?_, by simp, t3⟩, ?_⟩
          · intro j hj
            dsimp only at hj
            split at hj
            · exact t1 j hj
            · cases hj
          · simpa [tally, hw, hp, Phase.wakesThis] using hle
        | cons j rest =>
          rw [ht] at u1
          refine ⟨⟨t1, ?_, ?_⟩, ?_⟩
          · rintro wr' h'
            cases h'
            exact ⟨fun k hk => u1 k (by simp [hk]), by simpa [Phase.about, World.upd] using u1 j (by simp)⟩
          · intro k hk
            simp only [World.upd] at hk
            split at hk
            · rename_i e; subst e; exact t3 _ hk
            · exact t3 k hk
          · simp only [tally, World.upd, hw, hp, Phase.wakesThis, Sig.polls] at hle ⊢
            split
            · rename_i e; subst e; simpa using hle
            · simpa using hle
      | take j =>
        have hj : j < m.made := u2 j (by simp [hp, Phase.about])
        simp only
        cases hk : (m.sigs j).waker with
        | none =>
          refine ⟨⟨t1, ?_, t3⟩, ?_⟩
          · rintro wr' h'
            cases h'
            exact ⟨u1, by simp [Phase.about]⟩
          · simpa [tally, hw, hp, Phase.wakesThis] using hle
        | some v =>
          refine ⟨⟨t1, ?_, ?_⟩, ?_⟩
          · rintro wr' h'
            cases h'
            exact ⟨u1, by simpa [Phase.about, World.upd] using hj⟩
          · intro k hk
            simp only [World.upd] at hk
            split at hk
            · rename_i e; subst e; exact t3 _ hk
            · exact t3 k hk
          · simp only [tally, World.upd, hw, hp, Phase.wakesThis, Sig.polls] at hle ⊢
            split
            · rename_i e; subst e
              simp only [hk, isWaker] at hle ⊢
              simpa using hle
            · rename_i e
              have : ¬ j = i := fun h => e h.symm
              simpa [this] using hle
      | wake j v =>
        simp only
        refine ⟨⟨t1, ?_, ?_⟩, ?_⟩
        · rintro wr' h'
          cases h'
          exact ⟨u1, by simp [Phase.about]⟩
        · intro k hk
          simp only [World.upd] at hk
          split at hk
          · rename_i e; subst e; exact t3 _ hk
          · exact t3 k hk
        · simp only [tally, World.upd, hw, hp, Phase.wakesThis, Sig.polls] at hle ⊢
          split
          · rename_i e; subst e
            simp only [List.count_append, List.count_cons, List.count_nil] at hle ⊢
            simp at hle ⊢
            omega
          · rename_i e
            have : ¬ j = i := fun h => e h.symm
            simpa [this] using hle
  | clone =>
    simp only [World.step] at h
    split at h
    · cases h
    · cases h; exact ⟨⟨t1, t2, t3⟩, hle⟩
  | drop =>
    simp only [World.step] at h
    split at h
    · cases h; exact ⟨⟨t1, t2, t3⟩, hle⟩
    · split at h
      · cases h; exact ⟨⟨t1, t2, t3⟩, hle⟩
      · cases h
  | endLock =>
    simp only [World.step] at h
    split at h
    · cases h
    · rename_i hw
      split at h
      · cases h
        refine ⟨⟨t1, ?_, t3⟩, ?_⟩
        · intro wr h'; cases h'; exact ⟨t1, by simp [Phase.about]⟩
        · simpa [tally, hw, Phase.wakesThis] using hle
      · cases h
  | subscribe =>
    cases h
    refine ⟨⟨fun j hj => Nat.lt_succ_of_lt (t1 j hj), ?_, ?_⟩, ?_⟩
    · intro wr hw
      obtain ⟨u1, u2⟩ := t2 wr hw
      exact ⟨fun j hj => Nat.lt_succ_of_lt (u1 j hj), fun j hj => Nat.lt_succ_of_lt (u2 j hj)⟩
    · intro k hk
      simp only [World.upd] at hk ⊢
      split at hk
      · omega
      · exact Nat.lt_succ_of_lt (t3 k hk)
    · simp only [tally, World.upd, Sig.polls] at hle ⊢
      split
      · rename_i e
        cases hw : m.writer with
        | none => simp [isWaker]
        | some wr =>
          have u2 := (t2 wr hw).2
          cases hp : wr.phase with
          | wake j v =>
            have := u2 j (by simp [hp, Phase.about])
            have : ¬ j = i := by omega
            simp [isWaker, hp, Phase.wakesThis, this]
          | _ => simp [isWaker, hp, Phase.wakesThis]
      · exact hle
  | poll j v =>
    simp only [World.step] at h
    split at h
    · rename_i hj
      cases h
      refine ⟨⟨t1, t2, ?_⟩, ?_⟩
      · intro k hk
        simp only [World.upd] at hk
        split at hk
        · rename_i e; subst e; exact t3 _ (by rw [hj]; simp)
        · exact t3 k hk
      · simp only [tally, World.upd, Sig.polls] at hle ⊢
        split
        · rename_i e; subst e; exact hle
        · exact hle
    · cases h
  | sstep j =>
    simp only [World.step] at h
    split at h
    · cases h
    · rename_i m1 hs
      cases h
      have keep : ∀ (s : Sig α), (m.sigs j).pc ≠ .unborn →
          (s.woken.count w + (if isWaker w s.waker then 1 else 0) + waits w (m.sigs j).polls ≤
            (m.sigs j).woken.count w + (if isWaker w (m.sigs j).waker then 1 else 0) + waits w s.polls) →
          Tallied i w (m.upd j s) := by
        intro s hn hs
        refine ⟨⟨t1, t2, ?_⟩, ?_⟩
        · intro k hk
          simp only [World.upd] at hk
          split at hk
          · rename_i e; subst e; exact t3 _ hn
          · exact t3 k hk
        · simp only [tally, World.upd] at hle ⊢
          split
          · rename_i e; subst e
            omega
          · exact hle
      simp only [World.sstep] at hs
      cases hp : (m.sigs j).pc with
      | unborn => simp [hp] at hs
      | idle => simp [hp] at hs
      | make =>
        simp only [hp, Option.some.injEq] at hs
        subst hs
        exact keep _ (by rw [hp]; simp) (Nat.le_refl _)
      | push =>
        simp only [hp] at hs
        split at hs
        · cases hs
        · cases hs
          have := keep { m.sigs j with pc := .idle } (by rw [hp]; simp) (Nat.le_refl _)
          refine ⟨⟨?_, this.writer, this.born⟩, this.le⟩
          intro k hk
          simp only [List.mem_append, List.mem_singleton] at hk
          rcases hk with hk | rfl
          · exact t1 k hk
          · exact t3 k (by rw [hp]; simp)
      | swap v c =>
        simp only [hp] at hs
        split at hs
        · cases hs; exact keep _ (by rw [hp]; simp) (Nat.le_refl _)
        · cases hs; exact keep _ (by rw [hp]; simp) (Nat.le_refl _)
      | read v c =>
        simp only [hp] at hs
        split at hs
        · cases hs
        · cases hs
          refine keep _ (by rw [hp]; simp) ?_
          simp [Sig.polls, waits_append, waits_ready]
      | load v c =>
        simp only [hp] at hs
        split at hs
        · cases hs
          refine keep _ (by rw [hp]; simp) ?_
          simp [Sig.polls, waits_append, waits_ready]
        · cases hs; exact keep _ (by rw [hp]; simp) (Nat.le_refl _)
      | setWaker v c =>
        simp only [hp] at hs
        split at hs
        · cases hs
        · cases hs
          refine keep _ (by rw [hp]; simp) ?_
          simp only [Sig.polls, List.map_append, List.map_cons, List.map_nil, waits_append, waits_pending, isWaker_some]
          omega

/-- **C99**, `Mutable`, for every schedule of threads and each of its signals. -/
theorem C99_mutable_threads (a : α) (es : List (Ev α)) (m : World α) (h : (World.init a).runs es = some m) (i : Nat)
    (w : Waker) : (m.sigs i).woken.count w ≤ waits w ((m.sigs i).answers.map fun a => (a.waker, a.answer)) := by
  have key : ∀ (es : List (Ev α)) (os : List Unit) (m0 m : World α), Tallied i w m0 →
      runE World.step m0 es = some (os, m) → Tallied i w m := by
    intro es
    induction es with
    | nil => intro os m0 m hi h; cases h; exact hi
    | cons e es ih =>
      intro os m0 m hi h
      simp only [runE] at h
      split at h
      · cases h
      · rename_i o m1 h1
        split at h
        · cases h
        · rename_i os' m2 h2
          cases h
          exact ih _ _ _ (step_tallied i w hi h1) h2
  simp only [World.runs, Option.map_eq_some_iff] at h
  obtain ⟨⟨os, m1⟩, h, rfl⟩ := h
  have := (key es os _ m1 ⟨⟨by simp [World.init], by simp [World.init], by simp [World.init, Sig.unborn]⟩,
    Nat.le_refl _⟩ h).le
  simp only [tally, Sig.polls] at this
  dsimp only
  omega

example : ∃ m, (World.init 1).runs [.subscribe, .sstep 0, .sstep 0, .poll 0 7, .sstep 0, .sstep 0, .poll 0 7, .sstep 0,
      .sstep 0, .sstep 0, .write 2, .wstep, .wstep, .wstep, .wstep] = some m ∧
    (m.sigs 0).woken = [7] ∧ waits 7 ((m.sigs 0).answers.map fun a => (a.waker, a.answer)) = 1 :=
  ⟨_, rfl, rfl, rfl⟩

end Verif.MutConc

/-! ## `Broadcaster` -/

namespace Verif.BcConc

variable {α : Type}

/-- The thread in `notify` is about to wake `w` for subscriber `i`. -/
def Notifier.wakesThis (i : Nat) (w : Waker) (n : Notifier) : Bool := n.wake == some (i, w)

/-- The wakes so far of subscriber `i` and those that can come without a further poll. -/
def tally (i : Nat) (w : Waker) (m : World α) : Nat :=
  (m.subs i).woken.count w + (if isWaker w (m.subs i).waker then 1 else 0) +
    match m.notifier with
    | some n => if n.wakesThis i w then 1 else 0
    | none => 0

/-- Nothing refers to subscribers that do not exist. -/
structure Tied (m : World α) : Prop where
  wakers : ∀ i ∈ m.wakers, i < m.made
  notifier : ∀ n, m.notifier = some n → (∀ i ∈ n.todo, i < m.made) ∧ ∀ i w, n.wake = some (i, w) → i < m.made
  born : ∀ i, (m.subs i).pc ≠ .unborn → i < m.made

structure Tallied (i : Nat) (w : Waker) (m : World α) : Prop extends Tied m where
  le : tally i w m ≤ waits w (m.subs i).answers

theorem pollSignal_keeps (m : World α) : m.pollSignal.wakers = m.wakers ∧ m.pollSignal.notifier = m.notifier ∧
    m.pollSignal.subs = m.subs ∧ m.pollSignal.made = m.made := by
  unfold World.pollSignal
  split
  · exact ⟨rfl, rfl, rfl, rfl⟩
  · exact ⟨rfl, rfl, rfl, rfl⟩

theorem step_tallied (i : Nat) (w : Waker) {m m' : World α} {e : Ev} {o : Unit} (hi : Tallied i w m)
    (h : m.step e = some (o, m')) : Tallied i w m' := by
  obtain ⟨⟨t1, t2, t3⟩, hle⟩ := hi
  cases e with
  | wake =>
    simp only [World.step] at h
    split at h
    · cases h
    · rename_i hw
      cases h
      refine ⟨⟨t1, ?_, t3⟩, ?_⟩
      · rintro n h'; cases h'; exact ⟨t1, by simp⟩
      · simpa [tally, hw, Notifier.wakesThis] using hle
  | nstep =>
    simp only [World.step] at h
    split at h
    · cases h
    · rename_i n hw
      cases h
      obtain ⟨u1, u2⟩ := t2 n hw
      simp only [World.nstep]
      rcases hp : n.wake with _ | ⟨j, v⟩
      · simp only
        cases ht : n.todo with
        | nil =>
          refine ⟨⟨t1, by simp, t3⟩, ?_⟩
          simpa [tally, hw, hp, Notifier.wakesThis] using hle
        | cons j rest =>
          rw [ht] at u1
          simp only
          cases hk : (m.subs j).waker with
          | none =>
            refine ⟨⟨t1, ?_, t3⟩, ?_⟩
            · rintro n' h'; cases h'; exact ⟨fun k hk => u1 k (by simp [hk]), by simp⟩
            · simpa [tally, hw, hp, Notifier.wakesThis] using hle
          | some v =>
            refine ⟨⟨t1, ?_, ?_⟩, ?_⟩
            · rintro n' h'
              cases h'
              refine ⟨fun k hk => u1 k (by simp [hk]), ?_⟩
              intro k x hx
              cases hx
              exact u1 j (by simp)
            · intro k hk
              simp only [World.upd] at hk
              split at hk
              · rename_i e; subst e; exact t3 _ hk
              · exact t3 k hk
            · simp only [tally, World.upd, hw, hp, Notifier.wakesThis] at hle ⊢
              split
              · rename_i e; subst e
                simp only [hk, isWaker] at hle ⊢
                simpa using hle
              · rename_i e
                have : ¬ j = i := fun h => e h.symm
                simpa [this] using hle
      · simp only
        refine ⟨⟨t1, ?_, ?_⟩, ?_⟩
        · rintro n' h'; cases h'; exact ⟨u1, by simp⟩
        · intro k hk
          simp only [World.upd] at hk
          split at hk
          · rename_i e; subst e; exact t3 _ hk
          · exact t3 k hk
        · simp only [tally, World.upd, hw, hp, Notifier.wakesThis] at hle ⊢
          split
          · rename_i e; subst e
            simp only [List.count_append, List.count_cons, List.count_nil] at hle ⊢
            simp at hle ⊢
            omega
          · rename_i e
            have : ¬ j = i := fun h => e h.symm
            simpa [this] using hle
  | subscribe =>
    cases h
    refine ⟨⟨fun j hj => Nat.lt_succ_of_lt (t1 j hj), ?_, ?_⟩, ?_⟩
    · intro n hw
      obtain ⟨u1, u2⟩ := t2 n hw
      exact ⟨fun j hj => Nat.lt_succ_of_lt (u1 j hj), fun j x hj => Nat.lt_succ_of_lt (u2 j x hj)⟩
    · intro k hk
      simp only [World.upd] at hk ⊢
      split at hk
      · omega
      · exact Nat.lt_succ_of_lt (t3 k hk)
    · simp only [tally, World.upd] at hle ⊢
      split
      · rename_i e
        cases hw : m.notifier with
        | none => simp [isWaker]
        | some n =>
          have u2 := (t2 n hw).2
          have : (n.wake == some (i, w)) = false := by
            cases hb : n.wake == some (i, w) with
            | false => rfl
            | true =>
              have := u2 i w (by simpa using hb)
              omega
          simp [isWaker, Notifier.wakesThis, this]
      · exact hle
  | poll j v =>
    simp only [World.step] at h
    split at h
    · rename_i hj
      cases h
      refine ⟨⟨t1, t2, ?_⟩, ?_⟩
      · intro k hk
        simp only [World.upd] at hk
        split at hk
        · rename_i e; subst e; exact t3 _ (by rw [hj]; simp)
        · exact t3 k hk
      · simp only [tally, World.upd] at hle ⊢
        split
        · rename_i e; subst e; exact hle
        · exact hle
    · cases h
  | sstep j =>
    simp only [World.step] at h
    split at h
    · cases h
    · rename_i m1 hs
      cases h
      have keep : ∀ (s : Sub α), (m.subs j).pc ≠ .unborn →
          (s.woken.count w + (if isWaker w s.waker then 1 else 0) + waits w (m.subs j).answers ≤
            (m.subs j).woken.count w + (if isWaker w (m.subs j).waker then 1 else 0) + waits w s.answers) →
          Tallied i w (m.upd j s) := by
        intro s hn hs
        refine ⟨⟨t1, t2, ?_⟩, ?_⟩
        · intro k hk
          simp only [World.upd] at hk
          split at hk
          · rename_i e; subst e; exact t3 _ hn
          · exact t3 k hk
        · simp only [tally, World.upd] at hle ⊢
          split
          · rename_i e; subst e
            omega
          · exact hle
      have hdec : ∀ v, ((m.decideSub j v).woken.count w + (if isWaker w (m.decideSub j v).waker then 1 else 0) +
            waits w (m.subs j).answers ≤
          (m.subs j).woken.count w + (if isWaker w (m.subs j).waker then 1 else 0) +
            waits w (m.decideSub j v).answers) := by
        intro v
        simp only [World.decideSub]
        split
        · split
          · simp [waits_append, waits_ready]
          · simp only [waits_append, waits_pending, isWaker_some]; omega
        · simp [waits_append, waits_ready]
      simp only [World.sstep] at hs
      cases hp : (m.subs j).pc with
      | unborn => simp [hp] at hs
      | idle => simp [hp] at hs
      | make =>
        simp only [hp] at hs
        split at hs
        · cases hs
        · cases hs
          have := keep { m.subs j with pc := .idle } (by rw [hp]; simp) (Nat.le_refl _)
          refine ⟨⟨?_, this.notifier, this.born⟩, this.le⟩
          intro k hk
          simp only [List.mem_append, List.mem_singleton] at hk
          rcases hk with hk | rfl
          · exact t1 k hk
          · exact t3 k (by rw [hp]; simp)
      | swap v =>
        simp only [hp] at hs
        split at hs
        · cases hs
          have := keep { m.subs j with pc := .wantWrite v } (by rw [hp]; simp) (Nat.le_refl _)
          exact ⟨⟨this.wakers, this.notifier, this.born⟩, this.le⟩
        · cases hs; exact keep _ (by rw [hp]; simp) (Nat.le_refl _)
      | wantWrite v =>
        simp only [hp] at hs
        split at hs
        · cases hs
        · cases hs
          have := keep { m.subs j with pc := .decide v } (by rw [hp]; simp) (Nat.le_refl _)
          obtain ⟨k1, k2, k3, k4⟩ := pollSignal_keeps m
          refine ⟨⟨?_, ?_, ?_⟩, ?_⟩
          · simp only [World.upd, k1, k4]; exact this.wakers
          · simp only [World.upd, k2, k4]; exact this.notifier
          · simp only [World.upd, k3, k4]; exact this.born
          · have := this.le
            simp only [tally, World.upd, k2, k3] at this ⊢
            exact this
      | decide v =>
        simp only [hp, Option.some.injEq] at hs
        subst hs
        have := keep (m.decideSub j v) (by rw [hp]; simp) (hdec v)
        exact ⟨⟨this.wakers, this.notifier, this.born⟩, this.le⟩
      | wantRead v =>
        simp only [hp] at hs
        split at hs
        · cases hs
        · cases hs
          exact keep (m.decideSub j v) (by rw [hp]; simp) (hdec v)

/-- **C99**, `Broadcaster`, for every schedule of threads and each of its subscribers. -/
theorem C99_broadcaster_threads (script : List (Poll (Option α))) (es : List Ev) (m : World α)
    (h : (World.init script).runs es = some m) (i : Nat) (w : Waker) :
    (m.subs i).woken.count w ≤ waits w (m.subs i).answers := by
  have key : ∀ (es : List Ev) (os : List Unit) (m0 m : World α), Tallied i w m0 →
      runE World.step m0 es = some (os, m) → Tallied i w m := by
    intro es
    induction es with
    | nil => intro os m0 m hi h; cases h; exact hi
    | cons e es ih =>
      intro os m0 m hi h
      simp only [runE] at h
      split at h
      · cases h
      · rename_i o m1 h1
        split at h
        · cases h
        · rename_i os' m2 h2
          cases h
          exact ih _ _ _ (step_tallied i w hi h1) h2
  simp only [World.runs, Option.map_eq_some_iff] at h
  obtain ⟨⟨os, m1⟩, h, rfl⟩ := h
  have := (key es os _ m1 ⟨⟨by simp [World.init], by simp [World.init], by simp [World.init, Sub.unborn]⟩,
    Nat.le_refl _⟩ h).le
  simp only [tally] at this
  dsimp only
  omega

example : ∃ m, (World.init [.ready (some 1), .pending]).runs [.subscribe, .sstep 0, .poll 0 7, .sstep 0, .sstep 0, .sstep 0,
      .poll 0 7, .sstep 0, .sstep 0, .wake, .nstep, .nstep, .nstep] = some m ∧
    (m.subs 0).woken = [7] ∧ waits 7 (m.subs 0).answers = 1 :=
  ⟨_, rfl, rfl, rfl⟩

end Verif.BcConc
