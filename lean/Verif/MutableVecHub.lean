import Verif.HubConcApi
import Verif.HubProofs

/-!
# The channels of a `MutableVec` as a `Hub`
-/

namespace Verif.HubConc

variable {α : Type}

theorem hubOf_send (w : MutVec.World α) (s : Nat) (d : VecDiff α) :
    (hubOf w).send s d = ((w.send s d).1, hubOf (w.send s d).2) := by
  unfold Hub.send MutVec.World.send hubOf
  simp only [List.getElem?_map]
  cases hc : w.chans[s]? with
  | none => simp
  | some c =>
    simp only [Option.map_some, linkOf]
    split <;> simp [List.map_set, linkOf]

theorem hubOf_retain (d : VecDiff α) (ss : List Nat) (w : MutVec.World α) :
    hubRetain d ss (hubOf w) = ((MutVec.retainSend d ss w).1, hubOf (MutVec.retainSend d ss w).2) := by
  induction ss generalizing w with
  | nil => rfl
  | cons s ss ih => simp only [hubRetain, MutVec.retainSend, hubOf_send, ih]

theorem hubOf_notifyAll (w : MutVec.World α) (ds : List (VecDiff α)) :
    hubOf (MutVec.notifyAll w ds) = ds.foldl Hub.notify (hubOf w) := by
  induction ds generalizing w with
  | nil => rfl
  | cons d ds ih =>
    rw [MutVec.notifyAll_cons, ih, List.foldl_cons]
    congr 1
    unfold Hub.notify MutVec.World.notify
    show _ = _
    have : (hubOf w).senders = w.senders := rfl
    rw [this, hubOf_retain]
    rfl

theorem hubOf_links (w : MutVec.World α) (i : Nat) :
    (hubOf w).links[i]? = w.chans[i]?.map linkOf := by simp [hubOf]

theorem hubOf_values (w : MutVec.World α) (vs : List α) : hubOf { w with values := vs } = hubOf w :=
  rfl

theorem hubOf_rxLive (w : MutVec.World α) (id : Nat) : (hubOf w).rxLive id = w.rxLive id := by
  unfold Hub.rxLive MutVec.World.rxLive
  rw [hubOf_links]
  cases w.chans[id]? <;> rfl

theorem hubOf_pollRx (w : MutVec.World α) (id : Nat) (cx : Waker) :
    (hubOf w).pollRx id cx = ((w.pollRx id cx).1, hubOf (w.pollRx id cx).2) := by
  unfold Hub.pollRx MutVec.World.pollRx
  rw [hubOf_links]
  cases hc : w.chans[id]? with
  | none => rfl
  | some c =>
    simp only [Option.map_some, linkOf]
    cases c.queue with
    | nil =>
      simp only
      split <;> simp [hubOf, List.map_set, linkOf]
    | cons d ds => simp [hubOf, List.map_set, linkOf]

theorem hubOf_dropRx (w : MutVec.World α) (id : Nat) :
    (hubOf w).dropRx id = hubOf (w.dropRx id) := by
  unfold Hub.dropRx MutVec.World.dropRx
  rw [hubOf_links]
  cases hc : w.chans[id]? with
  | none => rfl
  | some c => simp [hubOf, List.map_set, linkOf]

theorem hubOf_dropTx (w : MutVec.World α) (id : Nat) :
    (hubOf w).dropTx id = hubOf (w.dropTx id) := by
  unfold Hub.dropTx MutVec.World.dropTx
  rw [hubOf_links]
  cases hc : w.chans[id]? with
  | none => rfl
  | some c => simp [hubOf, List.map_set, linkOf]

theorem hubOf_dropSenders (ss : List Nat) (w : MutVec.World α) :
    hubDropSenders ss (hubOf w) = hubOf (MutVec.dropSenders ss w) := by
  induction ss generalizing w with
  | nil => rfl
  | cons s ss ih => simp only [hubDropSenders, MutVec.dropSenders, hubOf_dropTx, ih]

theorem hubOf_dropHandle (w : MutVec.World α) : (hubOf w).dropHandle = hubOf w.dropHandle := by
  have := hubOf_dropSenders w.senders { w with handles := w.handles - 1 }
  have h1 : ({ hubOf w with handles := (hubOf w).handles - 1 } : Hub (VecDiff α)) =
      hubOf { w with handles := w.handles - 1 } := rfl
  have h2 : (hubOf w).senders = w.senders := rfl
  unfold Hub.dropHandle MutVec.World.dropHandle
  simp only [h1]
  show (if w.handles - 1 = 0 then _ else _) = _
  split
  · show ({ hubDropSenders w.senders (hubOf { w with handles := w.handles - 1 }) with
      senders := [] } : Hub (VecDiff α)) = _
    rw [this]; rfl
  · rfl

theorem hubOf_signalVec (w : MutVec.World α) : hubOf w.signalVec =
    (hubOf w).subscribe (if w.values.length > 0 then [.replace w.values] else []) := by
  simp [MutVec.World.signalVec, Hub.subscribe, hubOf, MutVec.Chan.new, linkOf]

end Verif.HubConc
