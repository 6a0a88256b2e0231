import Verif.MutableBTreeMapSolo
import Verif.HubConcApi
import Mathlib.Data.Nat.Basic

/-!
# Subscribers of a `MutableBTreeMap`, and subscribers on other threads, are independent (C86)

C04 says this of the subscribers of a `MutableVec`, call by call.  Models:
`Verif/MutableBTreeMap.lean` (each call is one event) and `Verif/HubConc.lean` (each send is a
step).  Specification vocabulary: `MutMap.onlyOne` and `HubConc.mine` (what subscriber `k` and the
users of the handles did), `MutMap.received` (the diffs a subscriber got).
-/

namespace Verif

namespace MutMap

variable {K V : Type} [LinearOrder K]

/-- **C86.**  Two histories in which the `MutableBTreeMap` is used in the same way, and subscriber
`k` of the first subscribes, polls and is dropped at the same points as subscriber `k'` of the second
(the other subscribers may do anything, or not exist), deliver the same diffs to them, in the same
order, and leave the same contents and the same channel: what is queued, the waker that waits, and
whether the sender is alive. -/
theorem C86_map_independent (vs : BMap K V) (h h' : List (Ev K V)) (k k' : Nat)
    (hsame : onlyOne k 0 h = onlyOne k' 0 h') (w w' : World K V)
    (hr : (World.init vs).runs h = some w) (hr' : (World.init vs).runs h' = some w') :
    received k (World.init vs) h = received k' (World.init vs) h' ∧
    w.values = w'.values ∧ w.hub.links[k]? = w'.hub.links[k']? := by
  obtain ⟨v, m, g1, g2, g3⟩ := sim_runs (sim_init k vs) hr
  obtain ⟨v', m', g1', g2', g3'⟩ := sim_runs (sim_init k' vs) hr'
  rw [hsame] at g1 g3
  rw [g1] at g1'
  cases g1'
  exact ⟨g3.symm.trans g3', g2.values.symm.trans g2'.values,
    g2.hub.link.symm.trans g2'.hub.link⟩

/-- **C86.**  A history can always be cut down to a single subscriber. -/
theorem C86_map_solo (vs : BMap K V) (h : List (Ev K V)) (k : Nat) (w : World K V)
    (hr : (World.init vs).runs h = some w) :
    ∃ v, (World.init vs).runs (onlyOne k 0 h) = some v ∧ v.values = w.values ∧
      v.hub.links[0]? = w.hub.links[k]? ∧
      received 0 (World.init vs) (onlyOne k 0 h) = received k (World.init vs) h := by
  obtain ⟨v, m, g1, g2, g3⟩ := sim_runs (sim_init k vs) hr
  exact ⟨v, g1, g2.values, g2.hub.link, g3⟩

/-- Two subscribers; the second one is dropped on the way. -/
def demoTwo : List (Ev Nat Nat) :=
  [.op (.insert 1 10), .subscribe, .subscribe, .poll 1 5, .op (.insert 2 20), .poll 0 6, .dropRx 0,
   .op (.remove 1), .poll 1 7, .op .clear, .poll 1 8, .poll 1 9]

example : onlyOne 1 0 demoTwo =
    [.op (.insert 1 10), .subscribe, .poll 0 5, .op (.insert 2 20), .op (.remove 1), .poll 0 7,
     .op .clear, .poll 0 8, .poll 0 9] := rfl

example : received 1 (World.init BMap.empty) demoTwo =
    [.replace [(1, 10)], .insert 2 20, .remove 1, .clear] := by decide

end MutMap

namespace HubConc

variable {S D O : Type}

/-- **C86.**  Whatever subscriber `k` and the users of the handles saw in a history where any number
of subscribers are polled and dropped on other threads, between any two sends, they could have seen
with `k` the only subscriber there ever was: there is a history of the container whose events, apart
from the steps inside calls, are the calls and handle changes of the given one and what `k` did, in
the same order and with the same answers to its polls; and at the end contents and `k`'s channel
(what is queued, the waker that waits, whether the sender is alive) are the same.  It has no more
steps, and no call is still running in it that is not running in the given one. -/
theorem C86_alone (api : Api S D O) (s : S) (k : Nat) (es : List (Ev O))
    (os : List (Option (Poll (Option D)))) (w : World S D)
    (h : (World.init s).runs api es = some (os, w)) :
    ∃ es' os' w', (World.init s).runs api es' = some (os', w') ∧
      mine 0 0 es' os' = mine k 0 es os ∧
      es'.filter (fun e => !e.isTick) = (mine k 0 es os).map (·.1) ∧
      w'.values = w.values ∧ w'.hub.links[0]? = w.hub.links[k]? ∧ w'.hub.links.length ≤ 1 ∧
      w'.hub.handles = w.hub.handles ∧
      es'.length ≤ es.length ∧ w'.job.isSome = w.job.isSome := by
  obtain ⟨es', os', v, n, h1, h2, h3, h4, h5⟩ :=
    sim_runs (sim_init k s) (m := 0) (.inl ⟨Nat.zero_le k, rfl⟩) h
  exact ⟨es', os', v, h1, h3, h4, h2.values, h2.link, h2.only, h2.handles, h5, job_isSome h2⟩

/-- A `swap` in a `MutableVec` while subscriber 1 is dropped between its two diffs, and subscriber 2
is polled. -/
def demoThree : List (Ev (MutVec.Op Nat)) :=
  [.subscribe, .subscribe, .subscribe, .poll 2 7, .poll 2 7, .call (.swap 0 2), .tick, .tick,
   .poll 0 3, .tick, .dropRx 1, .poll 2 8, .tick, .poll 2 9, .tick, .tick, .tick, .tick, .tick,
   .poll 2 10]

/-- The same for subscriber 2 alone. -/
def demoLone : List (Ev (MutVec.Op Nat)) :=
  [.subscribe, .poll 0 7, .poll 0 7, .call (.swap 0 2), .tick,
   .poll 0 8, .tick, .poll 0 9, .tick, .tick, .tick, .poll 0 10]

example : ((World.init [1, 2, 3]).runs (vecApi Nat) demoThree).map
      (fun r => (mine 2 0 demoThree r.1, r.2.values, r.2.hub.links[2]?)) =
    ((World.init [1, 2, 3]).runs (vecApi Nat) demoLone).map
      (fun r => (mine 0 0 demoLone r.1, r.2.values, r.2.hub.links[0]?)) := by rfl

example : ((World.init [1, 2, 3]).runs (vecApi Nat) demoThree).map
      (fun r => (mine 2 0 demoThree r.1, r.2.values)) =
    some ([(.subscribe, none), (.poll 0 7, some (.ready (some (.replace [1, 2, 3])))),
      (.poll 0 7, some .pending), (.call (.swap 0 2), none), (.poll 0 8, some .pending),
      (.poll 0 9, some (.ready (some (.move 0 2)))),
      (.poll 0 10, some (.ready (some (.move 1 0))))], [3, 2, 1]) := by rfl

/-- The same for a map. -/
example : ((World.init MutMap.BMap.empty).runs (mapApi Nat Nat)
      [.subscribe, .subscribe, .call (.insert 3 30), .tick, .poll 1 1, .tick, .dropRx 0, .tick,
       .poll 1 2]).map (fun r => (mine 1 0 ([.subscribe, .subscribe, .call (.insert 3 30), .tick,
        .poll 1 1, .tick, .dropRx 0, .tick, .poll 1 2] : List (Ev (MutMap.Op Nat Nat))) r.1).map
          (·.2)) =
    some [none, none, some .pending, some (.ready (some (.insert 3 30)))] := by rfl

end HubConc

end Verif
