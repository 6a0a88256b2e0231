import Verif.Input

/-!
# Model of `delay_remove`
-/

namespace Verif

variable {α σ : Type}

/-- `DelayRemoveState`, `/repo/src/signal_vec.rs:2538-2552`.  The future is the script made from the
element by the callback, a pure function here.  `tag` is a ghost: the element the state belongs to. -/
structure DState (α : Type) where
  tag : α
  future : Src Unit
  isRemoving : Bool
deriving DecidableEq, Repr

/-- `DelayRemoveState::new(callback(value))`, `/repo/src/signal_vec.rs:2546-2551`. -/
def DState.new (g : α → List (Poll Unit)) (value : α) : DState α := ⟨value, Src.mk' (g value), false⟩

/-- `DelayRemove`, `/repo/src/signal_vec.rs:2554-2563`.  `gone` is a ghost: the states removed by
`remove_index`, in the order of removal. -/
structure VDelay (α : Type) where
  signal : Inp (Option (VecDiff α))
  futures : List (DState α)
  pending : List (VecDiff α)
  gone : List (DState α)

/-- `SignalVec::delay_remove`, `/repo/src/signal_vec.rs:544-554`. -/
def VDelay.init (script : List (Poll (Option (VecDiff α)))) : VDelay α :=
  ⟨Inp.mk' script, [], [], []⟩

/-- The local variables of the poll: `futures`, `new_pending`, and the ghost `gone`. -/
structure DVars (α : Type) where
  futures : List (DState α)
  newPending : List (VecDiff α)
  gone : List (DState α)

/-- `new_pending.push(Self::remove_index(futures, index))`, `/repo/src/signal_vec.rs:2570-2579`;
`futures.len() - 1` overflows on an empty vector. -/
def DVars.removeIndex (v : DVars α) (index : Nat) : Option (DVars α) :=
  if v.futures.length = 0 then none
  else if index = v.futures.length - 1 then
    match vPop v.futures with
    | (some s, fs) => some ⟨fs, v.newPending ++ [.pop], v.gone ++ [s]⟩
    | (none, _) => none
  else
    match vRemove v.futures index with
    | some (s, fs) => some ⟨fs, v.newPending ++ [.removeAt index], v.gone ++ [s]⟩
    | none => none

/-- The loops `for index in indexes.into_iter().rev()`, `/repo/src/signal_vec.rs:2625-2627`,
`2763-2765`; the argument is the reversed list. -/
def DVars.removeAll (v : DVars α) : List Nat → Option (DVars α)
  | [] => some v
  | i :: is =>
    match v.removeIndex i with
    | some v => v.removeAll is
    | none => none

/-- `should_remove`, `/repo/src/signal_vec.rs:2581-2591`: `none` is the failed assertion. -/
def DState.shouldRemove (w : Waker) (s : DState α) : Option (Bool × DState α) :=
  if s.isRemoving then none
  else
    match s.future.poll w with
    | (.ready (), f) => some (true, ⟨s.tag, f, false⟩)
    | (.pending, f) => some (false, ⟨s.tag, f, true⟩)

/-- `find_index`, `/repo/src/signal_vec.rs:2593-2609`; `parentIndex` counts down instead of `seen`
counting up. -/
def findLive : List (DState α) → Nat → Option Nat
  | [], _ => none
  | s :: ss, parentIndex =>
    if s.isRemoving then (findLive ss parentIndex).map (· + 1)
    else
      match parentIndex with
      | 0 => some 0
      | k + 1 => (findLive ss k).map (· + 1)

/-- `find_last_index`, `/repo/src/signal_vec.rs:2611-2613`. -/
def findLastLive : List (DState α) → Option Nat
  | [] => none
  | s :: ss =>
    match findLastLive ss with
    | some i => some (i + 1)
    | none => if s.isRemoving then none else some 0

/-- The `indexes` collected by a `for (index, future) in futures.iter_mut().enumerate()` loop that
marks each future with whether its index is pushed, starting at `n`. -/
def indexesOf (n : Nat) : List (σ × Bool) → List Nat
  | [] => []
  | (_, true) :: l => n :: indexesOf (n + 1) l
  | (_, false) :: l => indexesOf (n + 1) l

/-- The first loop of `remove_existing_futures`, `/repo/src/signal_vec.rs:2616-2622`.  The assertion in
`should_remove` cannot fail here. -/
def markExisting (w : Waker) : List (DState α) → List (DState α × Bool)
  | [] => []
  | s :: ss =>
    match s.shouldRemove w with
    | some (b, s) => (s, b) :: markExisting w ss
    | none => (s, false) :: markExisting w ss

/-- `remove_existing_futures`, `/repo/src/signal_vec.rs:2615-2628`. -/
def DVars.removeExisting (w : Waker) (v : DVars α) : Option (DVars α) :=
  let marked := markExisting w v.futures
  DVars.removeAll ⟨marked.map (·.1), v.newPending, v.gone⟩ (indexesOf 0 marked).reverse

/-- `should_remove(&mut futures[index], cx)` and the removal, `/repo/src/signal_vec.rs:2724-2726`,
`2732-2734`. -/
def DVars.removeOne (w : Waker) (v : DVars α) (index : Nat) : Option (DVars α) :=
  match v.futures[index]? with
  | none => none
  | some s =>
    match s.shouldRemove w with
    | none => none
    | some (true, s) => DVars.removeIndex ⟨v.futures.set index s, v.newPending, v.gone⟩ index
    | some (false, s) => some ⟨v.futures.set index s, v.newPending, v.gone⟩

/-- A loop body that goes on. -/
def goOn : Option σ → Ctl σ Empty
  | some v => .cont v
  | none => .panic

/-- The body of the loop, `/repo/src/signal_vec.rs:2659-2740`, on one change. -/
def delayBody (g : α → List (Poll Unit)) (w : Waker) (v : DVars α) (change : VecDiff α) :
    Ctl (DVars α) Empty :=
  match change with
  | .replace values =>
    if v.futures.length = 0 then
      .cont ⟨values.map (DState.new g), v.newPending ++ [.replace values], v.gone⟩
    else
      match v.removeExisting w with
      | none => .panic
      | some v => .cont ⟨v.futures ++ values.map (DState.new g), v.newPending ++ values.map .push, v.gone⟩
  | .insertAt index value =>
    let index := (findLive v.futures index).getD v.futures.length
    match vInsert v.futures index (DState.new g value) with
    | none => .panic
    | some fs => .cont ⟨fs, v.newPending ++ [.insertAt index value], v.gone⟩
  | .push value =>
    .cont ⟨v.futures ++ [DState.new g value], v.newPending ++ [.push value], v.gone⟩
  | .updateAt index value =>
    match findLive v.futures index with
    | none => .panic
    | some index =>
      match vSet v.futures index (DState.new g value) with
      | none => .panic
      | some fs => .cont ⟨fs, v.newPending ++ [.updateAt index value], v.gone⟩
  | .move oldIndex newIndex =>
    match findLive v.futures oldIndex with
    | none => .panic
    | some oldIndex =>
      match vRemove v.futures oldIndex with
      | none => .panic
      | some (s, fs) =>
        let newIndex := (findLive fs newIndex).getD fs.length
        match vInsert fs newIndex s with
        | none => .panic
        | some fs => .cont ⟨fs, v.newPending ++ [.move oldIndex newIndex], v.gone⟩
  | .removeAt index =>
    match findLive v.futures index with
    | none => .panic
    | some index => goOn (v.removeOne w index)
  | .pop =>
    match findLastLive v.futures with
    | none => .panic
    | some index => goOn (v.removeOne w index)
  | .clear => goOn (v.removeExisting w)

/-- The loop over the futures being removed, `/repo/src/signal_vec.rs:2748-2760`: the futures with
whether they are ready, and `pending_removals`. -/
def pollRemoving (w : Waker) : List (DState α) → List (DState α × Bool) × Bool
  | [] => ([], false)
  | s :: ss =>
    let (l, p) := pollRemoving w ss
    if s.isRemoving then
      match s.future.poll w with
      | (.ready (), f) => ((⟨s.tag, f, true⟩, true) :: l, p)
      | (.pending, f) => ((⟨s.tag, f, true⟩, false) :: l, true)
    else ((s, false) :: l, p)

/-- The end of the poll, `/repo/src/signal_vec.rs:2744-2774`. -/
def VDelay.finish (w : Waker) (done : Bool) (signal : Inp (Option (VecDiff α))) (v : DVars α) :
    Option (Poll (Option (VecDiff α)) × VDelay α) :=
  let (marked, pendingRemovals) := pollRemoving w v.futures
  match DVars.removeAll ⟨marked.map (·.1), v.newPending, v.gone⟩ (indexesOf 0 marked).reverse with
  | none => none
  | some v =>
    match v.newPending with
    | first :: rest => some (.ready (some first), ⟨signal, v.futures, rest, v.gone⟩)
    | [] =>
      if done && !pendingRemovals then some (.ready none, ⟨signal, v.futures, [], v.gone⟩)
      else some (.pending, ⟨signal, v.futures, [], v.gone⟩)

/-- `DelayRemove::poll_vec_change`, `/repo/src/signal_vec.rs:2638-2775`. -/
def VDelay.poll (g : α → List (Poll Unit)) (w : Waker) (m : VDelay α) :
    Option (Poll (Option (VecDiff α)) × VDelay α) :=
  match m.pending with
  | diff :: rest => some (.ready (some diff), ⟨m.signal, m.futures, rest, m.gone⟩)
  | [] =>
    match m.signal.loop w (delayBody g w) ⟨m.futures, [], m.gone⟩ with
    | (.ended, v, i) => VDelay.finish w true i v
    | (.pending, v, i) => VDelay.finish w false i v
    | _ => none

end Verif
