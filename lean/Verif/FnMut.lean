import Verif.SignalVec3
import Verif.SignalVec5
import Verif.SignalVec6
import Verif.SignalMap
import Verif.SignalB

/-!
# Callbacks with state

In `SignalVec3`, `SignalVec5`, `SignalVec6`, `SignalMap` and `SignalB` the callbacks that make signals, lists and
futures are pure functions.  In the code they are `FnMut`.  Here they are: a callback is a function `f` of the
arguments of its earlier calls and its argument, and each combinator keeps the arguments of the calls so far in
`calls`.  The `tag` of what a call made (a ghost) is the pair of both.
-/

namespace Verif

variable {α β ι τ σ : Type}

/-- What is made by the call on `t.2` after calls on `t.1`. -/
def byCall {S : Type} (f : List ι → ι → S) (t : List ι × ι) : S := f t.1 t.2

/-! ## `map_signal` -/

/-- `Box::pin(callback(value))` and `unwrap(signal.as_mut().poll_change(cx))`,
`/repo/src/signal_vec.rs:1535-1536`: what is made, and the calls afterwards. -/
def MState.newF (f : List ι → ι → List (Poll (Option β))) (w : Waker) (calls : List ι) (value : ι) :
    Option (β × MState (List ι × ι) β × List ι) :=
  match (Src.mk' (f calls value)).poll w with
  | (r, src) =>
    match unwrapPoll r with
    | none => none
    | some poll => some (poll, ⟨(calls, value), ⟨src, true⟩⟩, calls ++ [value])

/-- The `values.into_iter().map(…).collect()` of `Replace`, `/repo/src/signal_vec.rs:1534-1539`. -/
def mapNewAllF (f : List ι → ι → List (Poll (Option β))) (w : Waker) :
    List ι → List ι → Option (List β × List (MState (List ι × ι) β) × List ι)
  | calls, [] => some ([], [], calls)
  | calls, t :: ts =>
    match MState.newF f w calls t with
    | none => none
    | some (b, s, calls) =>
      match mapNewAllF f w calls ts with
      | none => none
      | some (bs, ss, calls) => some (b :: bs, s :: ss, calls)

/-- `MapSignal`, `/repo/src/signal_vec.rs:1495-1502`. -/
structure VMapSignalF (ι β : Type) where
  signal : Inp (Option (VecDiff ι))
  signals : List (MState (List ι × ι) β)
  pending : List (VecDiff β)
  calls : List ι

/-- `SignalVec::map_signal`, `/repo/src/signal_vec.rs:210-222`. -/
def VMapSignalF.init (script : List (Poll (Option (VecDiff ι)))) : VMapSignalF ι β :=
  ⟨Inp.mk' script, [], [], []⟩

/-- Loop body on a change of the input, `/repo/src/signal_vec.rs:1528-1587`: loop variables `signals`,
`new_pending`, and the calls. -/
def mapSignalBodyF (f : List ι → ι → List (Poll (Option β))) (w : Waker)
    (s : (List (MState (List ι × ι) β) × List (VecDiff β)) × List ι) (change : VecDiff ι) :
    Ctl ((List (MState (List ι × ι) β) × List (VecDiff β)) × List ι) Empty :=
  let ((signals, newPending), calls) := s
  match change with
  | .replace values =>
    match mapNewAllF f w calls values with
    | none => .panic
    | some (values, signals, calls) => .cont ((signals, newPending ++ [.replace values]), calls)
  | .insertAt index value =>
    match MState.newF f w calls value with
    | none => .panic
    | some (poll, signal, calls) =>
      match vInsert signals index signal with
      | none => .panic
      | some signals => .cont ((signals, newPending ++ [.insertAt index poll]), calls)
  | .updateAt index value =>
    match MState.newF f w calls value with
    | none => .panic
    | some (poll, signal, calls) =>
      match vSet signals index signal with
      | none => .panic
      | some signals => .cont ((signals, newPending ++ [.updateAt index poll]), calls)
  | .push value =>
    match MState.newF f w calls value with
    | none => .panic
    | some (poll, signal, calls) => .cont ((signals ++ [signal], newPending ++ [.push poll]), calls)
  | .move oldIndex newIndex =>
    match vRemove signals oldIndex with
    | none => .panic
    | some (value, signals) =>
      match vInsert signals newIndex value with
      | none => .panic
      | some signals => .cont ((signals, newPending ++ [.move oldIndex newIndex]), calls)
  | .removeAt index =>
    match vRemove signals index with
    | none => .panic
    | some (_, signals) => .cont ((signals, newPending ++ [.removeAt index]), calls)
  | .pop =>
    match vPop signals with
    | (none, _) => .panic
    | (some _, signals) => .cont ((signals, newPending ++ [.pop]), calls)
  | .clear => .cont (([], newPending ++ [.clear]), calls)

/-- `/repo/src/signal_vec.rs:1592-1621`, the part after the input loop. -/
def VMapSignalF.finish (w : Waker) (done : Bool) (signal : Inp (Option (VecDiff ι)))
    (signals : List (MState (List ι × ι) β)) (newPending : List (VecDiff β)) (calls : List ι) :
    Poll (Option (VecDiff β)) × VMapSignalF ι β :=
  match pollSignals w 0 newPending signals with
  | (_, first :: rest, signals) => (.ready (some first), ⟨signal, signals, rest, calls⟩)
  | (hasPending, [], signals) =>
    if done && !hasPending then (.ready none, ⟨signal, signals, [], calls⟩)
    else (.pending, ⟨signal, signals, [], calls⟩)

/-- `MapSignal::poll_vec_change`, `/repo/src/signal_vec.rs:1510-1622`. -/
def VMapSignalF.poll (f : List ι → ι → List (Poll (Option β))) (w : Waker) (s : VMapSignalF ι β) :
    Option (Poll (Option (VecDiff β)) × VMapSignalF ι β) :=
  match s.pending with
  | diff :: rest => some (.ready (some diff), { s with pending := rest })
  | [] =>
    match s.signal.loop w (mapSignalBodyF f w) ((s.signals, []), s.calls) with
    | (.panic, _, _) => none
    | (.ret _, _, _) => none
    | (.ended, ((signals, np), calls), i) => some (VMapSignalF.finish w true i signals np calls)
    | (.pending, ((signals, np), calls), i) => some (VMapSignalF.finish w false i signals np calls)

/-! ## `filter_signal_cloned`

The changes waiting in `pending` carry the ghost of their elements, which is taken off when they are sent. -/

/-- A change without the ghosts. -/
def VecDiff.bare (d : VecDiff (List ι × ι)) : VecDiff ι := d.map Prod.snd

/-- `Box::pin(callback(&value))` and `unwrap(signal.as_mut().poll_change(cx))`,
`/repo/src/signal_vec.rs:1682-1689`. -/
def FCState.newF (f : List α → α → List (Poll (Option Bool))) (w : Waker) (calls : List α) (value : α) :
    Option (FCState (List α × α) × List α) :=
  match (Src.mk' (f calls value)).poll w with
  | (r, src) =>
    match unwrapPoll r with
    | none => none
    | some poll => some (⟨⟨src, true⟩, (calls, value), poll⟩, calls ++ [value])

/-- The `values.into_iter().filter(…).collect()` of `Replace`, `/repo/src/signal_vec.rs:1681-1692`. -/
def fcNewAllF (f : List α → α → List (Poll (Option Bool))) (w : Waker) :
    List α → List α → Option (List (List α × α) × List (FCState (List α × α)) × List α)
  | calls, [] => some ([], [], calls)
  | calls, value :: values =>
    match FCState.newF f w calls value with
    | none => none
    | some (s, calls) =>
      match fcNewAllF f w calls values with
      | none => none
      | some (vs, ss, calls) => some (if s.isIn then s.value :: vs else vs, s :: ss, calls)

/-- `FilterSignalCloned`, `/repo/src/signal_vec.rs:1637-1643`. -/
structure VFilterSignalF (α : Type) where
  signal : Inp (Option (VecDiff α))
  signals : List (FCState (List α × α))
  pending : List (VecDiff (List α × α))
  calls : List α

/-- `SignalVec::filter_signal_cloned`, `/repo/src/signal_vec.rs:333-344`. -/
def VFilterSignalF.init (script : List (Poll (Option (VecDiff α)))) : VFilterSignalF α :=
  ⟨Inp.mk' script, [], [], []⟩

/-- Loop body on a change of the input, `/repo/src/signal_vec.rs:1675-1813`: loop variables `signals`,
`new_pending`, and the calls. -/
def filterSignalBodyF (f : List α → α → List (Poll (Option Bool))) (w : Waker)
    (s : (List (FCState (List α × α)) × List (VecDiff (List α × α))) × List α) (change : VecDiff α) :
    Ctl ((List (FCState (List α × α)) × List (VecDiff (List α × α))) × List α) Empty :=
  let ((signals, newPending), calls) := s
  match change with
  | .replace values =>
    match fcNewAllF f w calls values with
    | none => .panic
    | some (values, signals, calls) => .cont ((signals, newPending ++ [.replace values]), calls)
  | .insertAt index value =>
    match FCState.newF f w calls value with
    | none => .panic
    | some (state, calls) =>
      match vInsert signals index state with
      | none => .panic
      | some signals =>
        if state.isIn then
          match fcFindIndex signals index with
          | none => .panic
          | some i => .cont ((signals, newPending ++ [.insertAt i state.value]), calls)
        else .cont ((signals, newPending), calls)
  | .updateAt index value =>
    match FCState.newF f w calls value with
    | none => .panic
    | some (state, calls) =>
      match signals[index]? with
      | none => .panic
      | some old =>
        let signals := signals.set index state
        if state.isIn then
          if old.isIn then
            match fcFindIndex signals index with
            | none => .panic
            | some i => .cont ((signals, newPending ++ [.updateAt i state.value]), calls)
          else
            match fcFindIndex signals index with
            | none => .panic
            | some i => .cont ((signals, newPending ++ [.insertAt i state.value]), calls)
        else
          if old.isIn then
            match fcFindIndex signals index with
            | none => .panic
            | some i => .cont ((signals, newPending ++ [.removeAt i]), calls)
          else .cont ((signals, newPending), calls)
  | .push value =>
    match FCState.newF f w calls value with
    | none => .panic
    | some (state, calls) =>
      if state.isIn then .cont ((signals ++ [state], newPending ++ [.push state.value]), calls)
      else .cont ((signals ++ [state], newPending), calls)
  | .move oldIndex newIndex =>
    match vRemove signals oldIndex with
    | none => .panic
    | some (state, signals) =>
      match vInsert signals newIndex state with
      | none => .panic
      | some signals =>
        if state.isIn then
          match fcFindIndex signals oldIndex, fcFindIndex signals newIndex with
          | some i, some j => .cont ((signals, newPending ++ [.move i j]), calls)
          | _, _ => .panic
        else .cont ((signals, newPending), calls)
  | .removeAt index =>
    match vRemove signals index with
    | none => .panic
    | some (state, signals) =>
      if state.isIn then
        match fcFindIndex signals index with
        | none => .panic
        | some i => .cont ((signals, newPending ++ [.removeAt i]), calls)
      else .cont ((signals, newPending), calls)
  | .pop =>
    match vPop signals with
    | (none, _) => .panic
    | (some state, signals) =>
      if state.isIn then .cont ((signals, newPending ++ [.pop]), calls)
      else .cont ((signals, newPending), calls)
  | .clear => .cont (([], newPending ++ [.clear]), calls)

/-- `/repo/src/signal_vec.rs:1818-1872`, the part after the input loop. -/
def VFilterSignalF.finish (w : Waker) (done : Bool) (signal : Inp (Option (VecDiff α)))
    (signals : List (FCState (List α × α))) (newPending : List (VecDiff (List α × α))) (calls : List α) :
    Poll (Option (VecDiff α)) × VFilterSignalF α :=
  match drainSignals w 0 newPending signals with
  | (_, first :: rest, signals) => (.ready (some first.bare), ⟨signal, signals, rest, calls⟩)
  | (hasPending, [], signals) =>
    if done && !hasPending then (.ready none, ⟨signal, signals, [], calls⟩)
    else (.pending, ⟨signal, signals, [], calls⟩)

/-- `FilterSignalCloned::poll_vec_change`, `/repo/src/signal_vec.rs:1658-1873`. -/
def VFilterSignalF.poll (f : List α → α → List (Poll (Option Bool))) (w : Waker) (s : VFilterSignalF α) :
    Option (Poll (Option (VecDiff α)) × VFilterSignalF α) :=
  match s.pending with
  | diff :: rest => some (.ready (some diff.bare), { s with pending := rest })
  | [] =>
    match s.signal.loop w (filterSignalBodyF f w) ((s.signals, []), s.calls) with
    | (.panic, _, _) => none
    | (.ret _, _, _) => none
    | (.ended, ((signals, np), calls), i) => some (VFilterSignalF.finish w true i signals np calls)
    | (.pending, ((signals, np), calls), i) => some (VFilterSignalF.finish w false i signals np calls)

/-! ## `map_future` -/

/-- `MapFuture`, `/repo/src/signal/signal.rs:1248-1255`. -/
structure SMapFutureF (α β : Type) where
  signal : Inp (Option α)
  future : Option (Made (List α × α) β)
  first : Bool
  /-- Ghost: the futures that were dropped. -/
  old : List (Made (List α × α) β)
  calls : List α

/-- `SignalExt::map_future`, `/repo/src/signal/signal.rs:298-308`. -/
def SMapFutureF.init (script : List (Poll (Option α))) : SMapFutureF α β :=
  ⟨Inp.mk' script, none, true, [], []⟩

/-- Loop body, `/repo/src/signal/signal.rs:1276-1280`. -/
def mapFutureBodyF (f : List α → α → List (Poll β))
    (s : (Option (Made (List α × α) β) × List (Made (List α × α) β)) × List α) (value : α) :
    Ctl ((Option (Made (List α × α) β) × List (Made (List α × α) β)) × List α) Empty :=
  .cont ((some ⟨(s.2, value), Src.mk' (f s.2 value)⟩, s.1.2 ++ s.1.1.toList), s.2 ++ [value])

/-- What follows the loop, `/repo/src/signal/signal.rs:1286-1308`. -/
def SMapFutureF.finish (w : Waker) (done : Bool) (m : SMapFutureF α β) :
    Poll (Option (Option β)) × SMapFutureF α β :=
  match m.future with
  | some future =>
    match future.src.poll w with
    | (.ready value, s) =>
      (.ready (some (some value)), ⟨m.signal, none, false, m.old ++ [⟨future.tag, s⟩], m.calls⟩)
    | (.pending, s) =>
      let m' : SMapFutureF α β := ⟨m.signal, some ⟨future.tag, s⟩, false, m.old, m.calls⟩
      if m.first then (.ready (some none), m') else (.pending, m')
  | none =>
    let m' : SMapFutureF α β := ⟨m.signal, none, false, m.old, m.calls⟩
    if m.first then (.ready (some none), m')
    else if done then (.ready none, m')
    else (.pending, m')

/-- `MapFuture::poll_change`, `/repo/src/signal/signal.rs:1263-1309`. -/
def SMapFutureF.poll (f : List α → α → List (Poll β)) (w : Waker) (m : SMapFutureF α β) :
    Option (Poll (Option (Option β)) × SMapFutureF α β) :=
  match m.signal.loop w (mapFutureBodyF f) ((m.future, m.old), m.calls) with
  | (.ended, ((future, old), calls), i) => some (SMapFutureF.finish w true ⟨i, future, m.first, old, calls⟩)
  | (.pending, ((future, old), calls), i) => some (SMapFutureF.finish w false ⟨i, future, m.first, old, calls⟩)
  | (.ret _, _, _) => none
  | (.panic, _, _) => none

/-! ## `delay_remove` -/

/-- `DelayRemove`, `/repo/src/signal_vec.rs:2554-2563`.  `pending` as in `filter_signal_cloned`; `gone` as in
`VDelay`. -/
structure VDelayF (α : Type) where
  signal : Inp (Option (VecDiff α))
  futures : List (DState (List α × α))
  pending : List (VecDiff (List α × α))
  gone : List (DState (List α × α))
  calls : List α

/-- `SignalVec::delay_remove`, `/repo/src/signal_vec.rs:544-554`. -/
def VDelayF.init (script : List (Poll (Option (VecDiff α)))) : VDelayF α :=
  ⟨Inp.mk' script, [], [], [], []⟩

/-- `DelayRemoveState::new(callback(&value))`, `/repo/src/signal_vec.rs:2546-2551`. -/
def DState.newF (f : List α → α → List (Poll Unit)) (calls : List α) (value : α) : DState (List α × α) :=
  ⟨(calls, value), Src.mk' (f calls value), false⟩

/-- `values.iter().map(|value| DelayRemoveState::new(callback(value))).collect()` and the loop that pushes,
`/repo/src/signal_vec.rs:2659-2676`: the new states and the calls afterwards. -/
def delayNewAllF (f : List α → α → List (Poll Unit)) : List α → List α → List (DState (List α × α)) × List α
  | calls, [] => ([], calls)
  | calls, value :: values =>
    let (states, calls') := delayNewAllF f (calls ++ [value]) values
    (DState.newF f calls value :: states, calls')

/-- What goes on with the calls. -/
def goOnF (calls : List α) : Option σ → Ctl (σ × List α) Empty
  | some v => .cont (v, calls)
  | none => .panic

/-- The body of the loop, `/repo/src/signal_vec.rs:2659-2740`, on one change. -/
def delayBodyF (f : List α → α → List (Poll Unit)) (w : Waker) (s : DVars (List α × α) × List α)
    (change : VecDiff α) : Ctl (DVars (List α × α) × List α) Empty :=
  let (v, calls) := s
  match change with
  | .replace values =>
    if v.futures.length = 0 then
      let (states, calls) := delayNewAllF f calls values
      .cont (⟨states, v.newPending ++ [.replace (states.map (·.tag))], v.gone⟩, calls)
    else
      match v.removeExisting w with
      | none => .panic
      | some v =>
        let (states, calls) := delayNewAllF f calls values
        .cont (⟨v.futures ++ states, v.newPending ++ states.map (fun s => .push s.tag), v.gone⟩, calls)
  | .insertAt index value =>
    let index := (findLive v.futures index).getD v.futures.length
    let state := DState.newF f calls value
    match vInsert v.futures index state with
    | none => .panic
    | some fs => .cont (⟨fs, v.newPending ++ [.insertAt index state.tag], v.gone⟩, calls ++ [value])
  | .push value =>
    let state := DState.newF f calls value
    .cont (⟨v.futures ++ [state], v.newPending ++ [.push state.tag], v.gone⟩, calls ++ [value])
  | .updateAt index value =>
    match findLive v.futures index with
    | none => .panic
    | some index =>
      let state := DState.newF f calls value
      match vSet v.futures index state with
      | none => .panic
      | some fs => .cont (⟨fs, v.newPending ++ [.updateAt index state.tag], v.gone⟩, calls ++ [value])
  | .move oldIndex newIndex =>
    match findLive v.futures oldIndex with
    | none => .panic
    | some oldIndex =>
      match vRemove v.futures oldIndex with
      | none => .panic
      | some (s, fs) =>
        let newIndex := (findLive fs newIndex).getD fs.length
        match vInsert fs newIndex s with
        | none => .panic
        | some fs => .cont (⟨fs, v.newPending ++ [.move oldIndex newIndex], v.gone⟩, calls)
  | .removeAt index =>
    match findLive v.futures index with
    | none => .panic
    | some index => goOnF calls (v.removeOne w index)
  | .pop =>
    match findLastLive v.futures with
    | none => .panic
    | some index => goOnF calls (v.removeOne w index)
  | .clear => goOnF calls (v.removeExisting w)

/-- The end of the poll, `/repo/src/signal_vec.rs:2744-2774`. -/
def VDelayF.finish (w : Waker) (done : Bool) (signal : Inp (Option (VecDiff α))) (v : DVars (List α × α))
    (calls : List α) : Option (Poll (Option (VecDiff α)) × VDelayF α) :=
  let (marked, pendingRemovals) := pollRemoving w v.futures
  match DVars.removeAll ⟨marked.map (·.1), v.newPending, v.gone⟩ (indexesOf 0 marked).reverse with
  | none => none
  | some v =>
    match v.newPending with
    | first :: rest => some (.ready (some first.bare), ⟨signal, v.futures, rest, v.gone, calls⟩)
    | [] =>
      if done && !pendingRemovals then some (.ready none, ⟨signal, v.futures, [], v.gone, calls⟩)
      else some (.pending, ⟨signal, v.futures, [], v.gone, calls⟩)

/-- `DelayRemove::poll_vec_change`, `/repo/src/signal_vec.rs:2638-2775`. -/
def VDelayF.poll (f : List α → α → List (Poll Unit)) (w : Waker) (m : VDelayF α) :
    Option (Poll (Option (VecDiff α)) × VDelayF α) :=
  match m.pending with
  | diff :: rest => some (.ready (some diff.bare), ⟨m.signal, m.futures, rest, m.gone, m.calls⟩)
  | [] =>
    match m.signal.loop w (delayBodyF f w) (⟨m.futures, [], m.gone⟩, m.calls) with
    | (.ended, (v, calls), i) => VDelayF.finish w true i v calls
    | (.pending, (v, calls), i) => VDelayF.finish w false i v calls
    | _ => none

/-! ## `map_value_signal` -/

section
variable {K V : Type} [LinearOrder K]

/-- `MapValueSignal`, `/repo/src/signal_map.rs:280-287`. -/
structure MMapSignalF (K V β : Type) where
  signal : Inp (Option (MapDiff K V))
  signals : List (K × MState (List V × V) β)
  pending : List (MapDiff K β)
  calls : List V

/-- `SignalMapExt::map_value_signal`, `/repo/src/signal_map.rs:111-122`. -/
def MMapSignalF.init (script : List (Poll (Option (MapDiff K V)))) : MMapSignalF K V β :=
  ⟨Inp.mk' script, [], [], []⟩

/-- The `entries.into_iter().map(…).collect()` of `Replace`, `/repo/src/signal_map.rs:321-326`. -/
def newEntriesF (f : List V → V → List (Poll (Option β))) (w : Waker) :
    List V → List (K × V) → List (K × MState (List V × V) β) →
    Option (List (K × β) × List (K × MState (List V × V) β) × List V)
  | calls, [], signals => some ([], signals, calls)
  | calls, e :: es, signals =>
    match MState.newF f w calls e.2 with
    | none => none
    | some (poll, signal, calls) =>
      match newEntriesF f w calls es (bInsert e.1 signal signals).2 with
      | none => none
      | some (entries, signals, calls) => some ((e.1, poll) :: entries, signals, calls)

/-- Loop body on a change of the input, `/repo/src/signal_map.rs:315-354`. -/
def mapValueBodyF (f : List V → V → List (Poll (Option β))) (w : Waker)
    (s : (List (K × MState (List V × V) β) × List (MapDiff K β)) × List V) (change : MapDiff K V) :
    Ctl ((List (K × MState (List V × V) β) × List (MapDiff K β)) × List V) Empty :=
  let ((signals, newPending), calls) := s
  match change with
  | .replace entries =>
    match newEntriesF f w calls entries [] with
    | none => .panic
    | some (entries, signals, calls) => .cont ((signals, newPending ++ [.replace entries]), calls)
  | .insert key value =>
    match MState.newF f w calls value with
    | none => .panic
    | some (poll, signal, calls) =>
      .cont (((bInsert key signal signals).2, newPending ++ [.insert key poll]), calls)
  | .update key value =>
    match MState.newF f w calls value with
    | none => .panic
    | some (poll, signal, calls) =>
      match bUpdate key signal signals with
      | none => .panic
      | some signals => .cont ((signals, newPending ++ [.update key poll]), calls)
  | .remove key => .cont (((bRemove key signals).2, newPending ++ [.remove key]), calls)
  | .clear => .cont (([], newPending ++ [.clear]), calls)

/-- `/repo/src/signal_map.rs:361-390`, the part after the input loop. -/
def MMapSignalF.finish (w : Waker) (done : Bool) (signal : Inp (Option (MapDiff K V)))
    (signals : List (K × MState (List V × V) β)) (newPending : List (MapDiff K β)) (calls : List V) :
    Poll (Option (MapDiff K β)) × MMapSignalF K V β :=
  match pollEntries w newPending signals with
  | (_, first :: rest, signals) => (.ready (some first), ⟨signal, signals, rest, calls⟩)
  | (hasPending, [], signals) =>
    if done && !hasPending then (.ready none, ⟨signal, signals, [], calls⟩)
    else (.pending, ⟨signal, signals, [], calls⟩)

/-- `MapValueSignal::poll_map_change`, `/repo/src/signal_map.rs:297-391`. -/
def MMapSignalF.poll (f : List V → V → List (Poll (Option β))) (w : Waker) (s : MMapSignalF K V β) :
    Option (Poll (Option (MapDiff K β)) × MMapSignalF K V β) :=
  match s.pending with
  | diff :: rest => some (.ready (some diff), { s with pending := rest })
  | [] =>
    match s.signal.loop w (mapValueBodyF f w) ((s.signals, []), s.calls) with
    | (.panic, _, _) => none
    | (.ret _, _, _) => none
    | (.ended, ((signals, np), calls), i) => some (MMapSignalF.finish w true i signals np calls)
    | (.pending, ((signals, np), calls), i) => some (MMapSignalF.finish w false i signals np calls)

end

/-! ## `switch_signal_vec` -/

/-- `SwitchSignalVec`, `/repo/src/signal/signal.rs:1644-1651`. -/
structure VSwitchF (τ α : Type) where
  signal : Inp (Option τ)
  inner : Inp (Option (VecDiff α))
  len : Nat
  /-- Ghost: the call `inner` was made by. -/
  cur : Option (List τ × τ)
  calls : List τ

/-- `Signal::switch_signal_vec`, `/repo/src/signal/signal.rs:448-458`. -/
def VSwitchF.init (script : List (Poll (Option τ))) : VSwitchF τ α :=
  ⟨Inp.mk' script, ⟨Src.mk' [], false⟩, 0, none, []⟩

/-- `SwitchSignalVec::poll_vec_change` after the first loop, `/repo/src/signal/signal.rs:1711-1787`. -/
def VSwitchF.finish (f : List τ → τ → List (Poll (Option (VecDiff α)))) (w : Waker) (signalDone : Bool)
    (value : Option τ) (signal : Inp (Option τ)) (m : VSwitchF τ α) :
    Option (Poll (Option (VecDiff α)) × VSwitchF τ α) :=
  match value with
  | some value =>
    let cur := some (m.calls, value)
    let calls := m.calls ++ [value]
    match (Inp.mk' (f m.calls value)).poll w with
    | (some .pending, inner) =>
      let (r, len) := newSignalVec m.len
      some (r, ⟨signal, inner, len, cur, calls⟩)
    | (some (.ready (some d)), inner) =>
      if m.len = 0 then
        match calculateLen m.len d with
        | none => none
        | some len => some (.ready (some d), ⟨signal, inner, len, cur, calls⟩)
      else
        match d.apply [] with
        | none => none
        | some values =>
          some (.ready (some (.replace values)), ⟨signal, inner, values.length, cur, calls⟩)
    | (_, inner) =>
      if signalDone then some (.ready none, ⟨signal, inner, m.len, cur, calls⟩)
      else
        let (r, len) := newSignalVec m.len
        some (r, ⟨signal, inner, len, cur, calls⟩)
  | none =>
    match m.inner.poll w with
    | (some .pending, inner) => some (.pending, ⟨signal, inner, m.len, m.cur, m.calls⟩)
    | (some (.ready (some d)), inner) =>
      match calculateLen m.len d with
      | none => none
      | some len => some (.ready (some d), ⟨signal, inner, len, m.cur, m.calls⟩)
    | (_, inner) =>
      if signalDone then some (.ready none, ⟨signal, inner, m.len, m.cur, m.calls⟩)
      else some (.pending, ⟨signal, inner, m.len, m.cur, m.calls⟩)

/-- `SwitchSignalVec::poll_vec_change`, `/repo/src/signal/signal.rs:1659-1788`. -/
def VSwitchF.poll (f : List τ → τ → List (Poll (Option (VecDiff α)))) (w : Waker) (m : VSwitchF τ α) :
    Option (Poll (Option (VecDiff α)) × VSwitchF τ α) :=
  match m.signal.loop w lastValue none with
  | (.ended, value, signal) => VSwitchF.finish f w true value signal m
  | (.pending, value, signal) => VSwitchF.finish f w false value signal m
  | _ => none

end Verif
