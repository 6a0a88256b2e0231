import Verif.VecDiff

/-!
# Model of `MutableVec` (`/repo/src/signal_vec.rs:2778-3482`)

A world with one `MutableVec` (any number of handles, all sharing one `MutableVecState`) and any
number of subscribers (`MutableSignalVec`).  API calls take the `RwLock` for their whole duration,
so they are atomic: one event each.  A panic is `none`.
-/

namespace Verif.MutVec

variable {α β : Type}

/-- One `futures_channel::mpsc::unbounded` channel between the `MutableVecState` and one
`MutableSignalVec` (`/repo/src/signal_vec.rs:3003-3015`, `3056-3068`, `3468-3481`).  External code,
modelled as a FIFO queue.  `delivered` is a ghost: the diffs the receiver has returned so far. -/
structure Chan (α : Type) where
  queue : List (VecDiff α)
  rxAlive : Bool
  txAlive : Bool
  waker : Option Waker
  delivered : List (VecDiff α)
deriving DecidableEq, Repr

/-- `MutableVecState` (`2825-2828`): `values` and `senders` (a sender is named by the index of its
channel).  The rest is the environment: all channels ever created, the number of live
`MutableVec` handles (the `Arc` count, `3366`, `3459-3464`), and the log of wakers woken. -/
structure World (α : Type) where
  values : List α
  senders : List Nat
  chans : List (Chan α)
  handles : Nat
  woken : List Waker
deriving DecidableEq, Repr

/-- `From<T> for MutableVec` (`3402-3410`), `new_with_values` (`3371`), `new` (`3376`). -/
def World.init (values : List α) : World α :=
  { values := values, senders := [], chans := [], handles := 1, woken := [] }

/-- `UnboundedSender::unbounded_send` (external): fails iff the receiver was dropped; otherwise
enqueues and wakes the registered waker. The `bool` is `is_ok()`. -/
def World.send (w : World α) (id : Nat) (d : VecDiff α) : Bool × World α :=
  match w.chans[id]? with
  | none => (false, w)
  | some c =>
    if c.rxAlive then
      (true, { w with
        chans := w.chans.set id { c with queue := c.queue ++ [d], waker := none },
        woken := w.woken ++ c.waker.toList })
    else (false, w)

/-- The `senders.retain(…)` of `MutableVecState::notify` (`2834-2836`). -/
def retainSend (d : VecDiff α) : List Nat → World α → List Nat × World α
  | [], w => ([], w)
  | s :: ss, w =>
    let r := w.send s d
    let rest := retainSend d ss r.2
    (if r.1 then s :: rest.1 else rest.1, rest.2)

/-- `MutableVecState::notify` (`2833-2837`). -/
def World.notify (w : World α) (d : VecDiff α) : World α :=
  let r := retainSend d w.senders w
  { r.2 with senders := r.1 }

/-- The `senders.retain(…)` of `MutableVecState::notify_with` (`2855-2870`), with its captured
variables `len` and `copy`.  Cloning a value yields the value. -/
def retainWith (mk : β → VecDiff α) :
    List Nat → Nat → Option β → World α → Option (List Nat × World α)
  | [], _, _, w => some ([], w)
  | s :: ss, len, copy, w =>
    match copy with
    | none => none
    | some value =>
      if len = 0 then none else
      let len := len - 1
      let copy := if len = 0 then none else some value
      let r := w.send s (mk value)
      match retainWith mk ss len copy r.2 with
      | none => none
      | some (rest, w') => some (if r.1 then s :: rest else rest, w')

/-- `MutableVecState::notify_with` (`2840-2872`); also `notify_clone` (`3047-3053`). -/
def World.notifyWith (w : World α) (value : β) (change : World α → β → Option (World α))
    (mk : β → VecDiff α) : Option (World α) :=
  let len := w.senders.length
  if len = 0 then change w value
  else
    let copy := some value
    match change w value with
    | none => none
    | some w' =>
      match retainWith mk w'.senders len copy w' with
      | none => none
      | some (ss, w'') => some { w'' with senders := ss }

/-- `MutableVecState::pop` (`2874-2882`). -/
def World.pop (w : World α) : Option α × World α :=
  let r := vPop w.values
  let w := { w with values := r.2 }
  if r.1.isSome then (r.1, w.notify .pop) else (r.1, w)

/-- `MutableVecState::remove` (`2884-2897`). -/
def World.remove (w : World α) (index : Nat) : Option (α × World α) :=
  let len := w.values.length
  match vRemove w.values index with
  | none => none
  | some (value, vs) =>
    let w := { w with values := vs }
    if index = len - 1 then some (value, w.notify .pop)
    else some (value, w.notify (.removeAt index))

/-- `MutableVecState::move_from_to` (`2899-2905`). -/
def World.moveFromTo (w : World α) (oldIndex newIndex : Nat) : Option (World α) :=
  if oldIndex ≠ newIndex then
    match vRemove w.values oldIndex with
    | none => none
    | some (value, vs) =>
      match vInsert vs newIndex value with
      | none => none
      | some vs => some ({ w with values := vs }.notify (.move oldIndex newIndex))
  else some w

/-- `MutableVecState::clear` (`2907-2913`). -/
def World.clear (w : World α) : World α :=
  if w.values.length > 0 then { w with values := [] }.notify .clear else w

/-- The indices pushed to `removals` by the closure in `retain` (`2923-2933`). -/
def removals (f : α → Bool) : Nat → List α → List Nat
  | _, [] => []
  | index, a :: as => if !f a then index :: removals f (index + 1) as else removals f (index + 1) as

/-- The loops over removed indices, `2940-2949` and `2961-2970`. -/
def World.notifyRemovals : List Nat → Nat → World α → Option (World α)
  | [], _, w => some w
  | index :: is, len, w =>
    if len = 0 then none else
    let len := len - 1
    if index = len then notifyRemovals is len (w.notify .pop)
    else notifyRemovals is len (w.notify (.removeAt index))

/-- `MutableVecState::retain` (`2915-2952`). -/
def World.retain (w : World α) (f : α → Bool) : Option (World α) :=
  let len := w.values.length
  if len > 0 then
    let rem := removals f 0 w.values
    let w := { w with values := w.values.filter f }
    if w.values.length = 0 then some (w.notify .clear)
    else World.notifyRemovals rem.reverse len w
  else some w

/-- The indices `start..end` of a `Range`, ascending. -/
def rangeList (start stop : Nat) : List Nat := List.range' start (stop - start)

/-- `MutableVecState::remove_range` (`2954-2973`). -/
def World.removeRange (w : World α) (start stop len : Nat) : Option (World α) :=
  if stop > start then
    if start = 0 ∧ stop = len then some (w.notify .clear)
    else World.notifyRemovals (rangeList start stop).reverse len w
  else some w

/-- `std::ops::Bound<usize>`. -/
inductive Bound where
  | included (n : Nat)
  | excluded (n : Nat)
  | unbounded
deriving DecidableEq, Repr

/-- `convert_range` (`2796-2821`).  The two `checked_add` panics at `usize::MAX` are subsumed by
the range checks, since lengths are below `usize::MAX`. -/
def convertRange (lo hi : Bound) (len : Nat) : Option (Nat × Nat) :=
  let start := match lo with
    | .included s => s
    | .excluded s => s + 1
    | .unbounded => 0
  let stop := match hi with
    | .included e => e + 1
    | .excluded e => e
    | .unbounded => len
  if start > stop then none
  else if stop > len then none
  else some (start, stop)

/-- `MutableVecState::drain` (`2975-2980`).  Simplified: the returned `Drain` is dropped (not
leaked), so the elements are removed; the drained elements are the result. -/
def World.drain (w : World α) (lo hi : Bound) : Option (List α × World α) :=
  let len := w.values.length
  match convertRange lo hi len with
  | none => none
  | some (start, stop) =>
    match w.removeRange start stop len with
    | none => none
    | some w =>
      some ((w.values.drop start).take (stop - start),
        { w with values := w.values.take start ++ w.values.drop stop })

/-- `MutableVecState::truncate` (`2982-2990`). -/
def World.truncate (w : World α) (len : Nat) : Option (World α) :=
  let stop := w.values.length
  match w.removeRange len stop stop with
  | none => none
  | some w => some { w with values := w.values.take len }

/-- A new channel, as created in `signal_vec_copy` / `signal_vec_clone`. -/
def Chan.new (queue : List (VecDiff α)) : Chan α :=
  { queue := queue, rxAlive := true, txAlive := true, waker := none, delivered := [] }

/-- `signal_vec_copy` (`3003-3015`) and `signal_vec_clone` (`3056-3068`), which differ only in how
the values are copied. -/
def World.signalVec (w : World α) : World α :=
  let queue := if w.values.length > 0 then [VecDiff.replace w.values] else []
  { w with chans := w.chans ++ [Chan.new queue], senders := w.senders ++ [w.chans.length] }

/-- `push_copy` (`3017-3020`). -/
def World.pushCopy (w : World α) (value : α) : World α :=
  { w with values := w.values ++ [value] }.notify (.push value)

/-- `insert_copy` (`3022-3030`). -/
def World.insertCopy (w : World α) (index : Nat) (value : α) : Option (World α) :=
  if index = w.values.length then some (w.pushCopy value)
  else
    match vInsert w.values index value with
    | none => none
    | some vs => some ({ w with values := vs }.notify (.insertAt index value))

/-- `set_copy` (`3032-3035`). -/
def World.setCopy (w : World α) (index : Nat) (value : α) : Option (World α) :=
  match vSet w.values index value with
  | none => none
  | some vs => some ({ w with values := vs }.notify (.updateAt index value))

/-- `replace_copy` (`3037-3042`). -/
def World.replaceCopy (w : World α) (values : List α) : Option (World α) :=
  w.notifyWith values (fun this values => some { this with values := values })
    (fun values => .replace values)

/-- `push_clone` (`3070-3074`). -/
def World.pushClone (w : World α) (value : α) : Option (World α) :=
  w.notifyWith value (fun this value => some { this with values := this.values ++ [value] })
    (fun value => .push value)

/-- `insert_clone` (`3076-3085`). -/
def World.insertClone (w : World α) (index : Nat) (value : α) : Option (World α) :=
  if index = w.values.length then w.pushClone value
  else
    w.notifyWith value
      (fun this value =>
        match vInsert this.values index value with
        | none => none
        | some vs => some { this with values := vs })
      (fun value => .insertAt index value)

/-- `set_clone` (`3087-3091`). -/
def World.setClone (w : World α) (index : Nat) (value : α) : Option (World α) :=
  w.notifyWith value
    (fun this value =>
      match vSet this.values index value with
      | none => none
      | some vs => some { this with values := vs })
    (fun value => .updateAt index value)

/-- `replace_clone` (`3093-3097`). -/
def World.replaceClone (w : World α) (values : List α) : Option (World α) :=
  w.notifyWith values (fun this values => some { this with values := values })
    (fun values => .replace values)

/-- `extend` (`3100-3104`, `3356-3361`). -/
def World.extend (w : World α) : List α → Option (World α)
  | [] => some w
  | value :: iter =>
    match w.pushClone value with
    | none => none
    | some w => w.extend iter

/-- `MutableVecLockMut::swap` (`3237-3246`). -/
def World.swap (w : World α) (a b : Nat) : Option (World α) :=
  if a < b then
    match w.moveFromTo a b with
    | none => none
    | some w => w.moveFromTo (b - 1) a
  else if a > b then
    match w.moveFromTo a b with
    | none => none
    | some w => w.moveFromTo (b + 1) a
  else some w

/-- The `while i < end` loop of `reverse` (`3271-3274`); the first argument is `end - i`. -/
def World.reverseLoop (stop : Nat) : Nat → Nat → World α → Option (World α)
  | 0, _, w => some w
  | n + 1, i, w =>
    match w.moveFromTo stop i with
    | none => none
    | some w => reverseLoop stop n (i + 1) w

/-- `MutableVecLockMut::reverse` (`3264-3276`). -/
def World.reverse (w : World α) : Option (World α) :=
  let len := w.values.length
  if len > 1 then
    let stop := len - 1
    World.reverseLoop stop stop 0 w
  else some w

/-- `MutableVecLockMut::apply_vec_diff` (`3339-3350`). -/
def World.applyVecDiff (w : World α) : VecDiff α → Option (World α)
  | .replace values => w.replaceClone values
  | .insertAt index value => w.insertClone index value
  | .updateAt index value => w.setClone index value
  | .removeAt index =>
    match w.remove index with
    | none => none
    | some (_, w) => some w
  | .move oldIndex newIndex => w.moveFromTo oldIndex newIndex
  | .push value => w.pushClone value
  | .pop =>
    match w.pop with
    | (none, _) => none
    | (some _, w) => some w
  | .clear => some w.clear

/-- The mutating methods of `MutableVecLockMut` (`3216-3361`). -/
inductive Op (α : Type) where
  | pop
  | remove (index : Nat)
  | clear
  | moveFromTo (oldIndex newIndex : Nat)
  | swap (a b : Nat)
  | retain (f : α → Bool)
  | drain (lo hi : Bound)
  | truncate (len : Nat)
  | reverse
  | push (value : α)
  | insert (index : Nat) (value : α)
  | set (index : Nat) (value : α)
  | replace (values : List α)
  | pushCloned (value : α)
  | insertCloned (index : Nat) (value : α)
  | setCloned (index : Nat) (value : α)
  | replaceCloned (values : List α)
  | applyVecDiff (diff : VecDiff α)
  | extend (values : List α)

/-- Return values of the methods. -/
inductive Ret (α : Type) where
  | unit
  | opt (a : Option α)
  | val (a : α)
  | list (as : List α)
deriving DecidableEq, Repr

/-- Method dispatch (`3216-3361`). -/
def World.exec (w : World α) : Op α → Option (Ret α × World α)
  | .pop => some (.opt w.pop.1, w.pop.2)
  | .remove i => (w.remove i).map fun r => (.val r.1, r.2)
  | .clear => some (.unit, w.clear)
  | .moveFromTo i j => (w.moveFromTo i j).map fun w => (.unit, w)
  | .swap a b => (w.swap a b).map fun w => (.unit, w)
  | .retain f => (w.retain f).map fun w => (.unit, w)
  | .drain lo hi => (w.drain lo hi).map fun r => (.list r.1, r.2)
  | .truncate n => (w.truncate n).map fun w => (.unit, w)
  | .reverse => w.reverse.map fun w => (.unit, w)
  | .push a => some (.unit, w.pushCopy a)
  | .insert i a => (w.insertCopy i a).map fun w => (.unit, w)
  | .set i a => (w.setCopy i a).map fun w => (.unit, w)
  | .replace vs => (w.replaceCopy vs).map fun w => (.unit, w)
  | .pushCloned a => (w.pushClone a).map fun w => (.unit, w)
  | .insertCloned i a => (w.insertClone i a).map fun w => (.unit, w)
  | .setCloned i a => (w.setClone i a).map fun w => (.unit, w)
  | .replaceCloned vs => (w.replaceClone vs).map fun w => (.unit, w)
  | .applyVecDiff d => (w.applyVecDiff d).map fun w => (.unit, w)
  | .extend vs => (w.extend vs).map fun w => (.unit, w)

/-- `MutableSignalVec::poll_vec_change` (`3478-3480`), i.e. `UnboundedReceiver::poll_next`
(external): pop the queue; if empty, the end if the sender is gone, else register the waker. -/
def World.pollRx (w : World α) (id : Nat) (cx : Waker) : Poll (Option (VecDiff α)) × World α :=
  match w.chans[id]? with
  | none => (.pending, w)
  | some c =>
    match c.queue with
    | d :: ds =>
      (.ready (some d),
        { w with chans := w.chans.set id { c with queue := ds, delivered := c.delivered ++ [d] } })
    | [] =>
      if c.txAlive then
        (.pending, { w with chans := w.chans.set id { c with waker := some cx } })
      else (.ready none, w)

/-- Dropping a `MutableSignalVec` drops its receiver (external): the queue is discarded and later
sends fail. -/
def World.dropRx (w : World α) (id : Nat) : World α :=
  match w.chans[id]? with
  | none => w
  | some c => { w with chans := w.chans.set id { c with rxAlive := false, queue := [], waker := none } }

/-- Dropping an `UnboundedSender` (external): marks the channel as closed and wakes the receiver. -/
def World.dropTx (w : World α) (id : Nat) : World α :=
  match w.chans[id]? with
  | none => w
  | some c =>
    { w with
      chans := w.chans.set id { c with txAlive := false, waker := none },
      woken := w.woken ++ c.waker.toList }

/-- Dropping all senders of a dropped `MutableVecState`. -/
def dropSenders : List Nat → World α → World α
  | [], w => w
  | s :: ss, w => dropSenders ss (w.dropTx s)

/-- Dropping one `MutableVec` handle (`3366`: an `Arc`); the last one drops the state and with it
all senders. -/
def World.dropHandle (w : World α) : World α :=
  let w := { w with handles := w.handles - 1 }
  if w.handles = 0 then { dropSenders w.senders w with senders := [] } else w

/-- Everything that can happen in the world.  `op`, `subscribe`, `cloneHandle` and `dropHandle`
need a live handle, `poll` and `dropRx` a live receiver; an event that lacks it cannot be written
in Rust and leaves the world unchanged. -/
inductive Ev (α : Type) where
  | op (o : Op α)
  | subscribe
  | poll (id : Nat) (cx : Waker)
  | dropRx (id : Nat)
  | cloneHandle
  | dropHandle

/-- The receiver `id` exists and was not dropped. -/
def World.rxLive (w : World α) (id : Nat) : Bool :=
  match w.chans[id]? with
  | some c => c.rxAlive
  | none => false

/-- One event; `none` if an operation panics. -/
def World.step (w : World α) : Ev α → Option (World α)
  | .op o => if w.handles = 0 then some w else (w.exec o).map (·.2)
  | .subscribe => if w.handles = 0 then some w else some w.signalVec
  | .poll id cx => if w.rxLive id then some (w.pollRx id cx).2 else some w
  | .dropRx id => if w.rxLive id then some (w.dropRx id) else some w
  | .cloneHandle => if w.handles = 0 then some w else some { w with handles := w.handles + 1 }
  | .dropHandle => if w.handles = 0 then some w else some w.dropHandle

/-- A history of events. -/
def World.runs (w : World α) : List (Ev α) → Option (World α)
  | [] => some w
  | e :: es =>
    match w.step e with
    | none => none
    | some w' => w'.runs es

end Verif.MutVec
