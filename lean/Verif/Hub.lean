import Verif.Basic

/-!
# Broadcasting to `mpsc` channels

The part of `MutableBTreeMap` that has nothing to do with maps: the list of senders, the channels
(external code, modelled as FIFO queues), the `Arc` handles and the wakers woken.
-/

namespace Verif

variable {D β : Type}

/-- One `futures_channel::mpsc::unbounded` channel (external code), e.g.
`/repo/src/signal_map.rs:627`, `933-950`.  `delivered` is a ghost: what the receiver has returned. -/
structure Link (D : Type) where
  queue : List D
  rxAlive : Bool
  txAlive : Bool
  waker : Option Waker
  delivered : List D
deriving DecidableEq, Repr

/-- The field `senders` of `MutableBTreeState` (`/repo/src/signal_map.rs:526-530`; a sender is named
by the index of its channel) and the environment: all channels ever created, the number of live
handles (the `Arc` count, `806`), and the log of wakers woken. -/
structure Hub (D : Type) where
  senders : List Nat
  links : List (Link D)
  handles : Nat
  woken : List Waker
deriving DecidableEq, Repr

/-- `UnboundedSender::unbounded_send` (external): fails iff the receiver was dropped; otherwise
enqueues and wakes the registered waker. The `bool` is `is_ok()`. -/
def Hub.send (h : Hub D) (id : Nat) (d : D) : Bool × Hub D :=
  match h.links[id]? with
  | none => (false, h)
  | some c =>
    if c.rxAlive then
      (true, { h with
        links := h.links.set id { c with queue := c.queue ++ [d], waker := none },
        woken := h.woken ++ c.waker.toList })
    else (false, h)

/-- The `senders.retain(…)` of `MutableBTreeState::notify` (`/repo/src/signal_map.rs:536-538`). -/
def hubRetain (d : D) : List Nat → Hub D → List Nat × Hub D
  | [], h => ([], h)
  | s :: ss, h =>
    let r := h.send s d
    let rest := hubRetain d ss r.2
    (if r.1 then s :: rest.1 else rest.1, rest.2)

/-- `MutableBTreeState::notify` (`/repo/src/signal_map.rs:535-539`). -/
def Hub.notify (h : Hub D) (d : D) : Hub D :=
  let r := hubRetain d h.senders h
  { r.2 with senders := r.1 }

/-- The `senders.retain(…)` of `MutableBTreeState::notify_clone` (`/repo/src/signal_map.rs:552-563`),
with its captured variables `len` and `copy`; `none` is a panic.  Cloning a value yields the value. -/
def hubRetainWith (mk : β → D) :
    List Nat → Nat → Option β → Hub D → Option (List Nat × Hub D)
  | [], _, _, h => some ([], h)
  | s :: ss, len, copy, h =>
    match copy with
    | none => none
    | some value =>
      if len = 0 then none else
      let len := len - 1
      let copy := if len = 0 then none else some value
      let r := h.send s (mk value)
      match hubRetainWith mk ss len copy r.2 with
      | none => none
      | some (rest, h') => some (if r.1 then s :: rest else rest, h')

/-- `MutableBTreeState::notify_clone` (`/repo/src/signal_map.rs:545-566`). -/
def Hub.notifyClone (h : Hub D) (value : Option β) (mk : β → D) : Option (Hub D) :=
  match value with
  | none => some h
  | some value =>
    let len := h.senders.length
    if len > 0 then
      match hubRetainWith mk h.senders len (some value) h with
      | none => none
      | some (ss, h') => some { h' with senders := ss }
    else some h

/-- `MutableBTreeState::change` (`/repo/src/signal_map.rs:569-576`). -/
def Hub.change (h : Hub D) (value : β) : Option β :=
  if h.senders = [] then none else some value

/-- Creating a channel, sending it `first` and registering its sender
(`/repo/src/signal_map.rs:627-640`, `670-683`). -/
def Hub.subscribe (h : Hub D) (first : List D) : Hub D :=
  { h with
    senders := h.senders ++ [h.links.length],
    links := h.links ++ [⟨first, true, true, none, []⟩] }

/-- `UnboundedReceiver::poll_next` (external): pop the queue; if empty, the end if the sender is
gone, else register the waker. -/
def Hub.pollRx (h : Hub D) (id : Nat) (cx : Waker) : Poll (Option D) × Hub D :=
  match h.links[id]? with
  | none => (.pending, h)
  | some c =>
    match c.queue with
    | d :: ds =>
      (.ready (some d),
        { h with links := h.links.set id { c with queue := ds, delivered := c.delivered ++ [d] } })
    | [] =>
      if c.txAlive then
        (.pending, { h with links := h.links.set id { c with waker := some cx } })
      else (.ready none, h)

/-- Dropping a receiver (external): the queue is discarded and later sends fail. -/
def Hub.dropRx (h : Hub D) (id : Nat) : Hub D :=
  match h.links[id]? with
  | none => h
  | some c => { h with links := h.links.set id { c with rxAlive := false, queue := [], waker := none } }

/-- Dropping an `UnboundedSender` (external): marks the channel as closed and wakes the receiver. -/
def Hub.dropTx (h : Hub D) (id : Nat) : Hub D :=
  match h.links[id]? with
  | none => h
  | some c =>
    { h with
      links := h.links.set id { c with txAlive := false, waker := none },
      woken := h.woken ++ c.waker.toList }

/-- Dropping all senders of a dropped state. -/
def hubDropSenders : List Nat → Hub D → Hub D
  | [], h => h
  | s :: ss, h => hubDropSenders ss (h.dropTx s)

/-- Dropping one handle (an `Arc`, `/repo/src/signal_map.rs:806`); the last one drops the state and
with it all senders. -/
def Hub.dropHandle (h : Hub D) : Hub D :=
  let h := { h with handles := h.handles - 1 }
  if h.handles = 0 then { hubDropSenders h.senders h with senders := [] } else h

/-- The receiver `id` exists and was not dropped. -/
def Hub.rxLive (h : Hub D) (id : Nat) : Bool :=
  match h.links[id]? with
  | some c => c.rxAlive
  | none => false

end Verif
