import Verif.HubConc
import Verif.MutableVecProofs
import Verif.MutableBTreeMapProofs

/-!
# `MutableVec` and `MutableBTreeMap` as containers that broadcast

The diffs broadcast by each call and the contents it leaves, which
`MutVec.exec_eq` and `MutMap.exec_eq` prove of the function-by-function models in
`Verif/MutableVec.lean` and `Verif/MutableBTreeMap.lean`.
-/

namespace Verif.HubConc

/-- `MutableVec`: the methods `/repo/src/signal_vec.rs:2874-3104`, `3216-3361`, and what
`signal_vec_copy`/`signal_vec_clone` queue for a new subscriber (`3003-3015`, `3056-3068`). -/
def vecApi (α : Type) : Api (List α) (VecDiff α) (MutVec.Op α) where
  eff o l := (o.spec l).map fun r => (o.diffs l, r.2)
  first l := if l.length > 0 then [.replace l] else []

/-- `MutableBTreeMap`: the methods `/repo/src/signal_map.rs:578-684`, and what
`signal_map_cloned`/`signal_map` queue for a new subscriber (`626-641`, `669-684`). -/
def mapApi (K V : Type) [LinearOrder K] : Api (MutMap.BMap K V) (MapDiff K V) (MutMap.Op K V) where
  eff o m := some (o.diffs m, o.next m)
  first m := if m.1.isEmpty then [] else [.replace m.1]

/-- The channel of a `MutableVec` (`/repo/src/signal_vec.rs:3003-3015`) in the vocabulary of `Hub`. -/
def linkOf {α : Type} (c : MutVec.Chan α) : Link (VecDiff α) :=
  ⟨c.queue, c.rxAlive, c.txAlive, c.waker, c.delivered⟩

/-- Senders, channels, handles and wakers of a `MutableVec` (`/repo/src/signal_vec.rs:2825-2828`) in
the vocabulary of `Hub`. -/
def hubOf {α : Type} (w : MutVec.World α) : Hub (VecDiff α) :=
  ⟨w.senders, w.chans.map linkOf, w.handles, w.woken⟩

end Verif.HubConc
