import Verif.Props.Timing
import Verif.Props.Tells
import Verif.Props.WholeVec

/-!
# C104 for pipelines on a `MutableVec`
-/

namespace Verif.MutVec

variable {α β : Type}

/-- Something that is done with the `MutableVec` itself, and not with one of its subscribers. -/
def Ev.isCall : Ev α → Bool
  | .poll _ _ => false
  | .dropRx _ => false
  | _ => true

/-- Contents and handles after an event. -/
def Ev.vh : Ev α → List α × Nat → Option (List α × Nat)
  | .op o, x => if x.2 = 0 then some x else (o.spec x.1).map fun r => (r.2, x.2)
  | .cloneHandle, x => if x.2 = 0 then some x else some (x.1, x.2 + 1)
  | .dropHandle, x => some (x.1, x.2 - 1)
  | _, x => some x

theorem retainSend_handles (d : VecDiff α) (ss : List Nat) (w : World α) : (retainSend d ss w).2.handles = w.handles := by
  induction ss generalizing w with
  | nil => rfl
  | cons s ss ih =>
    simp only [retainSend]
    rw [ih]
    exact (send_rest w s d).2.2.1

theorem notifyAll_handles (w : World α) (ds : List (VecDiff α)) : (notifyAll w ds).handles = w.handles := by
  induction ds generalizing w with
  | nil => rfl
  | cons d ds ih =>
    show (notifyAll (w.notify d) ds).handles = _
    rw [ih]
    exact retainSend_handles d w.senders w

theorem step_vh (w : World α) (e : Ev α) :
    (w.step e).map (fun w => (w.values, w.handles)) = e.vh (w.values, w.handles) := by
  cases e with
  | op o =>
    simp only [World.step, Ev.vh]
    split
    · rfl
    · rw [exec_eq]
      cases o.spec w.values with
      | none => rfl
      | some r => simp [notifyAll_handles]
  | subscribe =>
    simp only [World.step, Ev.vh]
    split
    · rfl
    · simp [World.signalVec]
  | poll id cx =>
    simp only [World.step, Ev.vh]
    split
    · simp [(pollRx_other w id (id + 1) cx (by omega)).2.1, (pollRx_other w id (id + 1) cx (by omega)).2.2.1]
    · rfl
  | dropRx id =>
    simp only [World.step, Ev.vh]
    split
    · simp [(dropRx_spec w id 0).2.1, (dropRx_spec w id 0).2.2.1]
    · rfl
  | cloneHandle =>
    simp only [World.step, Ev.vh]
    split <;> rfl
  | dropHandle =>
    simp only [World.step, Ev.vh]
    split
    · rename_i h; simp [h]
    · rename_i h
      simp [(dropHandle_spec h).1, (dropHandle_spec h).2.1]

theorem sentTo_calls (k n : Nat) (w w' : World α) (hv : w.values = w'.values) (hh : w.handles = w'.handles) (h : List (Ev α)) :
    sentTo k n w h = sentTo k n w' (h.filter Ev.isCall) := by
  induction h generalizing w w' n with
  | nil => rfl
  | cons e es ih =>
    have h1 := step_vh w e
    have h2 := step_vh w' e
    rw [← hv, ← hh, ← h1] at h2
    cases hc : e.isCall with
    | true =>
      rw [List.filter_cons_of_pos hc]
      simp only [sentTo]
      cases hs : w.step e with
      | none =>
        cases hs' : w'.step e with
        | none => cases e <;> simp [hv, hh]
        | some w1' => simp [hs, hs'] at h2
      | some w1 =>
        cases hs' : w'.step e with
        | none => simp [hs, hs'] at h2
        | some w1' =>
          simp only [hs, hs', Option.map_some, Option.some.injEq, Prod.mk.injEq] at h2
          simp only [ih _ w1 w1' h2.1.symm h2.2.symm]
          cases e <;> simp [hv, hh]
    | false =>
      rw [List.filter_cons_of_neg (by simp [hc])]
      simp only [sentTo]
      have hx : e.vh (w.values, w.handles) = some (w.values, w.handles) := by cases e <;> simp_all [Ev.isCall, Ev.vh]
      rw [hx] at h1
      cases hs : w.step e with
      | none => simp [hs] at h1
      | some w1 =>
        simp only [hs, Option.map_some, Option.some.injEq, Prod.mk.injEq] at h1
        simp only [ih _ w1 w' (h1.1.trans hv) (h1.2.trans hh)]
        cases e <;> simp_all [Ev.isCall]

theorem sentTo_mono (k n : Nat) (w : World α) (h h' : List (Ev α)) : sentTo k n w h <+: sentTo k n w (h ++ h') := by
  induction h generalizing w n with
  | nil => exact List.nil_prefix
  | cons e es ih =>
    simp only [List.cons_append, sentTo]
    split
    · exact List.prefix_refl _
    · exact (List.prefix_append_right_inj _).2 (ih _ _)

theorem received_sentTo {vs : List α} {h : List (Ev α)} {w : World α} (hr : (World.init vs).runs h = some w) (k : Nat) :
    received k (World.init vs) h <+: sentTo k 0 (World.init vs) (h.filter Ev.isCall) := by
  rw [← sentTo_calls k 0 _ _ rfl rfl]
  by_cases hk : ∃ c, w.chans[k]? = some c
  · obtain ⟨c, hc⟩ := hk
    exact (C97_vec vs h w hr k c hc).2
  · have hlog := runs_log (inv_init vs) hr k
    have h0 : (World.init vs).log k = [] := by simp [World.log, World.init]
    rw [h0, List.nil_append] at hlog
    rw [← hlog]
    have : w.chans[k]? = none := by
      cases hx : w.chans[k]? with
      | none => rfl
      | some c => exact absurd ⟨c, hx⟩ hk
    simp [World.log, this]

/-- **C104** on a `MutableVec`: in two histories with the same calls on the `MutableVec` (or in which one makes more of them
than the other), in which the subscribers are polled at any times, and other subscribers are dropped at any times, what a
pipeline without `chain` has sent in one history is the beginning of what it has sent in the other. -/
theorem C104_from_vec (vs : List α) (h h' : List (Ev α)) (w w' : World α) (hr : (World.init vs).runs h = some w)
    (hr' : (World.init vs).runs h' = some w') (hc : h.filter Ev.isCall <+: h'.filter Ev.isCall) (p : Pipe α β)
    (hs : p.Straight) (t t' : Trace β) (he : p.Exec (fun k => polled k (World.init vs) h) t)
    (he' : p.Exec (fun k => polled k (World.init vs) h') t') : t.diffs <+: t'.diffs ∨ t'.diffs <+: t.diffs := by
  obtain ⟨x, hx⟩ := hc
  have a := (received_sentTo hr p.head).trans (sentTo_mono _ _ _ _ x)
  rw [hx] at a
  rcases List.prefix_or_prefix_of_prefix a (received_sentTo hr' p.head) with b | b
  · exact C104_same_changes p hs _ _ t t' he he' (by simpa only [polled_diffs] using b)
  · exact (C104_same_changes p hs _ _ t' t he' he (by simpa only [polled_diffs] using b)).symm

/-- **C104** on a `MutableVec`: if moreover nothing waits for the subscriber in either history and the pipelines last answered
`Pending` or their end, then they have sent exactly the same changes. -/
theorem C104_from_vec_rest (vs : List α) (h h' : List (Ev α)) (w w' : World α) (hr : (World.init vs).runs h = some w)
    (hr' : (World.init vs).runs h' = some w') (hc : h.filter Ev.isCall = h'.filter Ev.isCall) (p : Pipe α β)
    (hs : p.Straight) (t t' : Trace β) (he : p.Exec (fun k => polled k (World.init vs) h) t)
    (he' : p.Exec (fun k => polled k (World.init vs) h') t') (ht : AtRest t) (ht' : AtRest t')
    (hq : ∃ c, w.chans[p.head]? = some c ∧ c.rxAlive = true ∧ c.queue = [])
    (hq' : ∃ c, w'.chans[p.head]? = some c ∧ c.rxAlive = true ∧ c.queue = []) : t.diffs = t'.diffs := by
  obtain ⟨c, c1, c2, c3⟩ := hq
  obtain ⟨c', c1', c2', c3'⟩ := hq'
  have a := (C97_vec vs h w hr _ c c1).1 c2
  have a' := (C97_vec vs h' w' hr' _ c' c1').1 c2'
  rw [c3, List.append_nil, sentTo_calls _ 0 _ _ rfl rfl, hc] at a
  rw [c3', List.append_nil, sentTo_calls _ 0 _ _ rfl rfl, ← a] at a'
  exact (C104_at_rest p hs _ _ t t' he he' ht').2 ht (by simp only [polled_diffs]; exact a'.symm)

/-- A pipeline that is polled after each call, and the same one in a history with the same calls in which it is polled only at
the end and another subscriber is polled and dropped. -/
def fastHist : List (Ev Nat) :=
  [.subscribe, .subscribe, .poll 0 1, .op (.push 3), .poll 0 2, .poll 0 2, .op (.insert 0 4), .poll 0 3, .poll 0 3]

def slowHist : List (Ev Nat) :=
  [.subscribe, .subscribe, .op (.push 3), .poll 1 9, .dropRx 1, .op (.insert 0 4), .poll 0 8, .poll 0 8, .poll 0 8, .poll 0 8]

def fastOut : Trace Nat :=
  [(1, .ready (some (.replace [4]))), (2, .pending), (3, .ready (some (.insertAt 0 8))), (3, .pending)]

def slowOut : Trace Nat :=
  [(8, .ready (some (.replace [4]))), (8, .ready (some (.insertAt 0 8))), (8, .pending)]

example : ∃ w w', (World.init [1, 2]).runs fastHist = some w ∧ (World.init [1, 2]).runs slowHist = some w' ∧
    fastHist.filter Ev.isCall = slowHist.filter Ev.isCall ∧
    timedPipe.Exec (fun k => polled k (World.init [1, 2]) fastHist) fastOut ∧
    timedPipe.Exec (fun k => polled k (World.init [1, 2]) slowHist) slowOut ∧ AtRest fastOut ∧ AtRest slowOut ∧
    (∃ c, w.chans[timedPipe.head]? = some c ∧ c.rxAlive = true ∧ c.queue = []) ∧
    (∃ c, w'.chans[timedPipe.head]? = some c ∧ c.rxAlive = true ∧ c.queue = []) :=
  ⟨_, _, rfl, rfl, rfl,
    ⟨[(1, .ready (some (.replace [2]))), (2, .pending), (3, .ready (some (.insertAt 0 4))), (3, .pending)],
      ⟨_, rfl, _, rfl, rfl⟩, _, rfl, rfl⟩,
    ⟨[(8, .ready (some (.replace [2]))), (8, .ready (some (.insertAt 0 4))), (8, .pending)],
      ⟨_, rfl, _, rfl, rfl⟩, _, rfl, rfl⟩,
    ⟨3, .pending, rfl, .inl rfl⟩, ⟨8, .pending, rfl, .inl rfl⟩, ⟨_, rfl, rfl, rfl⟩, ⟨_, rfl, rfl, rfl⟩⟩

end Verif.MutVec
