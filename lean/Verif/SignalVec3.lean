import Verif.SignalVec1

/-!
# `SignalVec::map_signal` and `SignalVec::filter_signal_cloned`

Model of `/repo/src/signal_vec.rs:1485-1874`.  The callbacks are pure functions here: the inner
signal made from element `t` is the input with script `g t`.  `PendingBuilder` (`1461-1482`) is a
list; its `first` and `rest` are head and tail.
-/

namespace Verif

variable {α β ι : Type}

/-- `unwrap`, `/repo/src/signal_vec.rs:1485-1490`. -/
def unwrapPoll : Poll (Option α) → Option α
  | .ready (some x) => some x
  | _ => none

/-! ## `map_signal` -/

/-- An element of `signals`, `/repo/src/signal_vec.rs:1499`.  `tag` is a ghost field: the element of
the input the signal was made from. -/
structure MState (ι β : Type) where
  tag : ι
  sig : Inp (Option β)
deriving DecidableEq, Repr

/-- `Box::pin(callback(value))` and `unwrap(signal.as_mut().poll_change(cx))`,
`/repo/src/signal_vec.rs:1535-1536`. -/
def MState.new (g : ι → List (Poll (Option β))) (w : Waker) (tag : ι) : Option (β × MState ι β) :=
  match (Src.mk' (g tag)).poll w with
  | (r, src) =>
    match unwrapPoll r with
    | none => none
    | some poll => some (poll, ⟨tag, ⟨src, true⟩⟩)

/-- The `values.into_iter().map(…).collect()` of `Replace`, `/repo/src/signal_vec.rs:1534-1539`. -/
def mapNewAll (g : ι → List (Poll (Option β))) (w : Waker) :
    List ι → Option (List β × List (MState ι β))
  | [] => some ([], [])
  | t :: ts =>
    match MState.new g w t with
    | none => none
    | some (b, s) =>
      match mapNewAll g w ts with
      | none => none
      | some (bs, ss) => some (b :: bs, s :: ss)

/-- `MapSignal`, `/repo/src/signal_vec.rs:1495-1502`. -/
structure VMapSignal (ι β : Type) where
  signal : Inp (Option (VecDiff ι))
  signals : List (MState ι β)
  pending : List (VecDiff β)

/-- `SignalVec::map_signal`, `/repo/src/signal_vec.rs:210-222`. -/
def VMapSignal.init (script : List (Poll (Option (VecDiff ι)))) : VMapSignal ι β :=
  ⟨Inp.mk' script, [], []⟩

/-- Loop body on a change of the input, `/repo/src/signal_vec.rs:1528-1587`: loop variables `signals`
and `new_pending`. -/
def mapSignalBody (g : ι → List (Poll (Option β))) (w : Waker)
    (s : List (MState ι β) × List (VecDiff β)) (change : VecDiff ι) :
    Ctl (List (MState ι β) × List (VecDiff β)) Empty :=
  let (signals, newPending) := s
  match change with
  | .replace values =>
    match mapNewAll g w values with
    | none => .panic
    | some (values, signals) => .cont (signals, newPending ++ [.replace values])
  | .insertAt index value =>
    match MState.new g w value with
    | none => .panic
    | some (poll, signal) =>
      match vInsert signals index signal with
      | none => .panic
      | some signals => .cont (signals, newPending ++ [.insertAt index poll])
  | .updateAt index value =>
    match MState.new g w value with
    | none => .panic
    | some (poll, signal) =>
      match vSet signals index signal with
      | none => .panic
      | some signals => .cont (signals, newPending ++ [.updateAt index poll])
  | .push value =>
    match MState.new g w value with
    | none => .panic
    | some (poll, signal) => .cont (signals ++ [signal], newPending ++ [.push poll])
  | .move oldIndex newIndex =>
    match vRemove signals oldIndex with
    | none => .panic
    | some (value, signals) =>
      match vInsert signals newIndex value with
      | none => .panic
      | some signals => .cont (signals, newPending ++ [.move oldIndex newIndex])
  | .removeAt index =>
    match vRemove signals index with
    | none => .panic
    | some (_, signals) => .cont (signals, newPending ++ [.removeAt index])
  | .pop =>
    match vPop signals with
    | (none, _) => .panic
    | (some _, signals) => .cont (signals, newPending ++ [.pop])
  | .clear => .cont ([], newPending ++ [.clear])

/-- The `for (index, signal)` loop, `/repo/src/signal_vec.rs:1596-1610`: `has_pending`,
`new_pending` and the signals afterwards. -/
def pollSignals (w : Waker) : Nat → List (VecDiff β) → List (MState ι β) →
    Bool × List (VecDiff β) × List (MState ι β)
  | _, newPending, [] => (false, newPending, [])
  | index, newPending, s :: ss =>
    match s.sig.poll w with
    | (some (.ready (some value)), i) =>
      let (hp, np, ss) := pollSignals w (index + 1) (newPending ++ [.updateAt index value]) ss
      (hp, np, ⟨s.tag, i⟩ :: ss)
    | (some (.ready none), i) =>
      let (hp, np, ss) := pollSignals w (index + 1) newPending ss
      (hp, np, ⟨s.tag, i⟩ :: ss)
    | (some .pending, i) =>
      let (_, np, ss) := pollSignals w (index + 1) newPending ss
      (true, np, ⟨s.tag, i⟩ :: ss)
    | (none, i) =>
      let (hp, np, ss) := pollSignals w (index + 1) newPending ss
      (hp, np, ⟨s.tag, i⟩ :: ss)

/-- `/repo/src/signal_vec.rs:1592-1621`, the part after the input loop. -/
def VMapSignal.finish (w : Waker) (done : Bool) (signal : Inp (Option (VecDiff ι)))
    (signals : List (MState ι β)) (newPending : List (VecDiff β)) :
    Poll (Option (VecDiff β)) × VMapSignal ι β :=
  match pollSignals w 0 newPending signals with
  | (_, first :: rest, signals) => (.ready (some first), ⟨signal, signals, rest⟩)
  | (hasPending, [], signals) =>
    if done && !hasPending then (.ready none, ⟨signal, signals, []⟩)
    else (.pending, ⟨signal, signals, []⟩)

/-- `MapSignal::poll_vec_change`, `/repo/src/signal_vec.rs:1510-1622`. -/
def VMapSignal.poll (g : ι → List (Poll (Option β))) (w : Waker) (s : VMapSignal ι β) :
    Option (Poll (Option (VecDiff β)) × VMapSignal ι β) :=
  match s.pending with
  | diff :: rest => some (.ready (some diff), { s with pending := rest })
  | [] =>
    match s.signal.loop w (mapSignalBody g w) (s.signals, []) with
    | (.panic, _, _) => none
    | (.ret _, _, _) => none
    | (.ended, (signals, np), i) => some (VMapSignal.finish w true i signals np)
    | (.pending, (signals, np), i) => some (VMapSignal.finish w false i signals np)

/-! ## `filter_signal_cloned` -/

/-- `FilterSignalClonedState`, `/repo/src/signal_vec.rs:1627-1632`.  `isIn` is `exists`. -/
structure FCState (α : Type) where
  signal : Inp (Option Bool)
  value : α
  isIn : Bool
deriving DecidableEq, Repr

/-- `FilterSignalCloned::find_index`, `/repo/src/signal_vec.rs:1646-1648`; slicing panics when out of
range. -/
def fcFindIndex (signals : List (FCState α)) (index : Nat) : Option Nat :=
  if index ≤ signals.length then some (((signals.take index).filter (·.isIn)).length) else none

/-- `Box::pin(callback(value))` and `unwrap(signal.as_mut().poll_change(cx))`,
`/repo/src/signal_vec.rs:1682-1689`. -/
def FCState.new (g : α → List (Poll (Option Bool))) (w : Waker) (value : α) : Option (FCState α) :=
  match (Src.mk' (g value)).poll w with
  | (r, src) =>
    match unwrapPoll r with
    | none => none
    | some poll => some ⟨⟨src, true⟩, value, poll⟩

/-- The `values.into_iter().filter(…).collect()` of `Replace`, `/repo/src/signal_vec.rs:1681-1692`. -/
def fcNewAll (g : α → List (Poll (Option Bool))) (w : Waker) :
    List α → Option (List α × List (FCState α))
  | [] => some ([], [])
  | value :: values =>
    match FCState.new g w value with
    | none => none
    | some s =>
      match fcNewAll g w values with
      | none => none
      | some (vs, ss) => some (if s.isIn then value :: vs else vs, s :: ss)

/-- `FilterSignalCloned`, `/repo/src/signal_vec.rs:1637-1643`. -/
structure VFilterSignal (α : Type) where
  signal : Inp (Option (VecDiff α))
  signals : List (FCState α)
  pending : List (VecDiff α)

/-- `SignalVec::filter_signal_cloned`, `/repo/src/signal_vec.rs:333-344`. -/
def VFilterSignal.init (script : List (Poll (Option (VecDiff α)))) : VFilterSignal α :=
  ⟨Inp.mk' script, [], []⟩

/-- Loop body on a change of the input, `/repo/src/signal_vec.rs:1675-1813`: loop variables `signals`
and `new_pending`. -/
def filterSignalBody (g : α → List (Poll (Option Bool))) (w : Waker)
    (s : List (FCState α) × List (VecDiff α)) (change : VecDiff α) :
    Ctl (List (FCState α) × List (VecDiff α)) Empty :=
  let (signals, newPending) := s
  match change with
  | .replace values =>
    match fcNewAll g w values with
    | none => .panic
    | some (values, signals) => .cont (signals, newPending ++ [.replace values])
  | .insertAt index value =>
    match FCState.new g w value with
    | none => .panic
    | some state =>
      match vInsert signals index state with
      | none => .panic
      | some signals =>
        if state.isIn then
          match fcFindIndex signals index with
          | none => .panic
          | some i => .cont (signals, newPending ++ [.insertAt i value])
        else .cont (signals, newPending)
  | .updateAt index value =>
    match FCState.new g w value with
    | none => .panic
    | some state =>
      match signals[index]? with
      | none => .panic
      | some old =>
        let signals := signals.set index state
        if state.isIn then
          if old.isIn then
            match fcFindIndex signals index with
            | none => .panic
            | some i => .cont (signals, newPending ++ [.updateAt i value])
          else
            match fcFindIndex signals index with
            | none => .panic
            | some i => .cont (signals, newPending ++ [.insertAt i value])
        else
          if old.isIn then
            match fcFindIndex signals index with
            | none => .panic
            | some i => .cont (signals, newPending ++ [.removeAt i])
          else .cont (signals, newPending)
  | .push value =>
    match FCState.new g w value with
    | none => .panic
    | some state =>
      if state.isIn then .cont (signals ++ [state], newPending ++ [.push value])
      else .cont (signals ++ [state], newPending)
  | .move oldIndex newIndex =>
    match vRemove signals oldIndex with
    | none => .panic
    | some (state, signals) =>
      match vInsert signals newIndex state with
      | none => .panic
      | some signals =>
        if state.isIn then
          match fcFindIndex signals oldIndex, fcFindIndex signals newIndex with
          | some i, some j => .cont (signals, newPending ++ [.move i j])
          | _, _ => .panic
        else .cont (signals, newPending)
  | .removeAt index =>
    match vRemove signals index with
    | none => .panic
    | some (state, signals) =>
      if state.isIn then
        match fcFindIndex signals index with
        | none => .panic
        | some i => .cont (signals, newPending ++ [.removeAt i])
      else .cont (signals, newPending)
  | .pop =>
    match vPop signals with
    | (none, _) => .panic
    | (some state, signals) =>
      if state.isIn then .cont (signals, newPending ++ [.pop]) else .cont (signals, newPending)
  | .clear => .cont ([], newPending ++ [.clear])

/-- The inner `loop` on one signal, `/repo/src/signal_vec.rs:1830-1845`: whether it is `Pending`, and
the new state. -/
def FCState.drain (w : Waker) (s : FCState α) : Bool × FCState α :=
  match s.signal.loop w (fun (_ : Bool) (b : Bool) => (Ctl.cont b : Ctl Bool Empty)) s.isIn with
  | (.pending, b, i) => (true, ⟨i, s.value, b⟩)
  | (_, b, i) => (false, ⟨i, s.value, b⟩)

/-- The `for state in signals` loop, `/repo/src/signal_vec.rs:1826-1861`. -/
def drainSignals (w : Waker) : Nat → List (VecDiff α) → List (FCState α) →
    Bool × List (VecDiff α) × List (FCState α)
  | _, newPending, [] => (false, newPending, [])
  | realIndex, newPending, s :: ss =>
    let old := s.isIn
    let (p, s) := s.drain w
    let newPending :=
      if s.isIn ≠ old then
        if s.isIn then newPending ++ [.insertAt realIndex s.value]
        else newPending ++ [.removeAt realIndex]
      else newPending
    let realIndex := if s.isIn then realIndex + 1 else realIndex
    let (hp, np, ss) := drainSignals w realIndex newPending ss
    (p || hp, np, s :: ss)

/-- `/repo/src/signal_vec.rs:1818-1872`, the part after the input loop. -/
def VFilterSignal.finish (w : Waker) (done : Bool) (signal : Inp (Option (VecDiff α)))
    (signals : List (FCState α)) (newPending : List (VecDiff α)) :
    Poll (Option (VecDiff α)) × VFilterSignal α :=
  match drainSignals w 0 newPending signals with
  | (_, first :: rest, signals) => (.ready (some first), ⟨signal, signals, rest⟩)
  | (hasPending, [], signals) =>
    if done && !hasPending then (.ready none, ⟨signal, signals, []⟩)
    else (.pending, ⟨signal, signals, []⟩)

/-- `FilterSignalCloned::poll_vec_change`, `/repo/src/signal_vec.rs:1658-1873`. -/
def VFilterSignal.poll (g : α → List (Poll (Option Bool))) (w : Waker) (s : VFilterSignal α) :
    Option (Poll (Option (VecDiff α)) × VFilterSignal α) :=
  match s.pending with
  | diff :: rest => some (.ready (some diff), { s with pending := rest })
  | [] =>
    match s.signal.loop w (filterSignalBody g w) (s.signals, []) with
    | (.panic, _, _) => none
    | (.ret _, _, _) => none
    | (.ended, (signals, np), i) => some (VFilterSignal.finish w true i signals np)
    | (.pending, (signals, np), i) => some (VFilterSignal.finish w false i signals np)

end Verif
