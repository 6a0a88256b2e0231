import Verif.Basic
import Verif.Hist

/-!
# `channel`: release/acquire model

`/repo/src/signal/channel.rs`, with the memory orderings that the code asks for instead of sequential
consistency.  `Verif/ChannelConc.lean` has one step per access to shared memory, and every access sees
the latest write; here a load sees any write that is not older than what its thread knows.

* `value` and `waker` are only accessed by `swap` with `AcqRel` (`/repo/src/atomic.rs:85-103`).  A
  read-modify-write reads the last write in the modification order of its location, so these accesses
  see the latest value; but threads learn from each other through them: the swap acquires what the
  last swap released.
* `senders` is loaded with `Acquire` (line 22), changed by `fetch_add` and `fetch_sub` with `AcqRel`
  (lines 27, 33) and stored to with `Release` (line 38).  All its values are kept, in modification
  order.  A thread knows a number `v`: it has seen the write number `v` (or has learnt of it).  A load
  gives the value of any write from number `v` on, and then the thread knows that write.  A
  read-modify-write reads the last one.

What a thread knows is its *view*.  `value` and `waker` carry the view of the thread that wrote them.

The steps are taken in an order that extends both happens-before and the modification orders, so that
writes are always added at the end.  Such an order exists for every execution of this code that is
consistent in the release/acquire sense: the writes to `value` and `waker` are read-modify-writes, each
of which synchronises with the one before it, so their modification orders are part of
happens-before; and a cycle of happens-before and the modification order of `senders` could be
shortened to one within that modification order, since writes to one location that are ordered by
happens-before are in the same order there.

How threads know of each other by other means (a handle was sent to another thread, a thread was
joined, a task was woken) is up to the environment: every call and every poll starts with some view.
The `Receiver` is not dropped.
-/

namespace Verif.ChanRA

variable {α : Type}

/-- The methods of `Sender`. -/
inductive Op where
  | send
  | close
  | clone
  | drop
deriving DecidableEq

/-- Where a running call on a `Sender` is, as in `Verif/ChannelConc.lean`.  The `…Has` steps load
`senders` (`has_senders`, line 22); `notify` is the `take` of the waker and `wake` the call of
`Waker::wake` (lines 41-45). -/
inductive Pc (α : Type) where
  /-- `send`, lines 55-69 -/
  | sendHas (a : α)
  | sendStore (a : α)
  /-- `close`, lines 71-78 -/
  | closeHas
  | closeStore
  /-- `clone`, lines 82-93; `cloneRet`: the new handle is about to be returned -/
  | cloneHas
  | cloneAdd
  | cloneRet
  /-- `drop`, lines 97-107 -/
  | dropHas
  | dropSub
  | notify (op : Op)
  | wake (op : Op) (w : Waker)
deriving DecidableEq

/-- A running call, and the view of its thread. -/
structure Call (α : Type) where
  pc : Pc α
  view : Nat
deriving DecidableEq

/-- Where the receiving thread is in `poll_change`, lines 123-137. -/
inductive RPc where
  | idle
  /-- about to take the value (line 124) -/
  | take (w : Waker)
  /-- no value; about to load `senders` (line 126) -/
  | has (w : Waker)
  /-- about to store the waker (line 127) -/
  | store (w : Waker)
deriving DecidableEq

/-- Shared memory (`Inner`, lines 11-16): `value` and `waker` with the views they carry, the values of
`senders`, in modification order, as `old ++ [cur]` (integers, as in `Verif/ChannelConc.lean`).  The
running calls, the receiving thread and its view.  Ghosts: the number of existing `Sender`s, whether some
`close` has stored, the greatest view of a call that has returned, the values stored, the answers of
the polls, the wakers woken, and how many had been woken when the waker was last stored. -/
structure World (α : Type) where
  value : Option α
  valueView : Nat
  waker : Option Waker
  wakerView : Nat
  old : List Int
  cur : Int
  calls : List (Call α)
  r : RPc
  rview : Nat
  handles : Nat
  closed : Bool
  returned : Nat
  stored : List α
  answers : List (Waker × Poll (Option α))
  woken : List Waker
  regAt : Nat

/-- `channel`, `/repo/src/signal/channel.rs:140-156`. -/
def World.init (initial : α) : World α :=
  ⟨some initial, 0, none, 0, [], 1, [], .idle, 0, 1, false, 0, [initial], [], [], 0⟩

/-- A write to `senders`. -/
def World.write (m : World α) (n : Int) : World α := { m with old := m.old ++ [m.cur], cur := n }

/-- The number of the last write to `senders`. -/
def World.last (m : World α) : Nat := m.old.length

/-- `senders.load(Acquire)` by a thread with view `view` gives the write number `k`. -/
def World.load (m : World α) (view k : Nat) : Option Int :=
  if view ≤ k then (m.old ++ [m.cur])[k]? else none

/-- A step of one of the threads. -/
inductive Ev (α : Type) where
  /-- a call starts; `view` is what its thread knows -/
  | callSend (a : α) (view : Nat)
  | callClose (view : Nat)
  | callClone (view : Nat)
  | callDrop (view : Nat)
  /-- the `i`th running call makes a step; a load reads the write number `k` -/
  | step (i k : Nat)
  | callPoll (w : Waker) (view : Nat)
  /-- the receiving thread makes a step; a load reads the write number `k` -/
  | rstep (k : Nat)
deriving DecidableEq

/-- The call is a `drop`, which owns its handle; all other calls borrow theirs. -/
def Pc.owns : Pc α → Bool
  | .dropHas => true
  | .dropSub => true
  | .notify op => op = .drop
  | .wake op _ => op = .drop
  | _ => false

/-- What a call with view `v` does next; a load reads the write number `k`.  The new state, its new
view, and where it is then (`none`: it has returned). -/
def World.exec (m : World α) (v k : Nat) : Pc α → Option (World α × Nat × Option (Pc α))
  | .sendHas a =>
    match m.load v k with
    | none => none
    | some n => some (m, k, if n = 0 then none else some (.sendStore a))
  | .sendStore a =>
    let v' := max v m.valueView
    some ({ m with value := some a, valueView := v', stored := m.stored ++ [a] }, v', some (.notify .send))
  | .closeHas =>
    match m.load v k with
    | none => none
    | some n => some (m, k, if n = 0 then none else some .closeStore)
  | .closeStore =>
    some ({ m.write 0 with closed := true }, m.last + 1, some (.notify .close))
  | .cloneHas =>
    match m.load v k with
    | none => none
    | some n => some (m, k, some (if n = 0 then .cloneRet else .cloneAdd))
  | .cloneAdd => some (m.write (m.cur + 1), m.last + 1, some .cloneRet)
  | .cloneRet => some ({ m with handles := m.handles + 1 }, v, none)
  | .dropHas =>
    match m.load v k with
    | none => none
    | some n => some (m, k, if n = 0 then none else some .dropSub)
  | .dropSub =>
    some (m.write (m.cur - 1), m.last + 1, if m.cur = 1 then some (.notify .drop) else none)
  | .notify op =>
    let v' := max v m.wakerView
    match m.waker with
    | some w => some ({ m with waker := none, wakerView := v' }, v', some (.wake op w))
    | none => some ({ m with wakerView := v' }, v', none)
  | .wake _ w => some ({ m with woken := m.woken ++ [w] }, v, none)

/-- One step; `none` if it cannot happen.  Calls need a handle; a drop needs a handle that no call
borrows (as in `Verif/ChannelConc.lean`).  A view is the number of a write. -/
def World.step (m : World α) : Ev α → Option (Unit × World α)
  | .callSend a v =>
    if m.handles = 0 ∨ m.last < v then none
    else some ((), { m with calls := m.calls ++ [⟨.sendHas a, v⟩] })
  | .callClose v =>
    if m.handles = 0 ∨ m.last < v then none
    else some ((), { m with calls := m.calls ++ [⟨.closeHas, v⟩] })
  | .callClone v =>
    if m.handles = 0 ∨ m.last < v then none
    else some ((), { m with calls := m.calls ++ [⟨.cloneHas, v⟩] })
  | .callDrop v =>
    if (2 ≤ m.handles ∨ (m.handles = 1 ∧ ∀ c ∈ m.calls, c.pc.owns = true)) ∧ v ≤ m.last then
      some ((), { m with handles := m.handles - 1, calls := m.calls ++ [⟨.dropHas, v⟩] })
    else none
  | .step i k =>
    match m.calls[i]? with
    | none => none
    | some c =>
      match m.exec c.view k c.pc with
      | none => none
      | some (m', v, some pc) => some ((), { m' with calls := m.calls.set i ⟨pc, v⟩ })
      | some (m', v, none) =>
        some ((), { m' with calls := m.calls.eraseIdx i, returned := max m.returned v })
  | .callPoll w v =>
    if m.r = .idle ∧ v ≤ m.last then some ((), { m with r := .take w, rview := max m.rview v })
    else none
  | .rstep k =>
    match m.r with
    | .idle => none
    | .take w =>
      let v := max m.rview m.valueView
      match m.value with
      | some a => some ((), { m with value := none, valueView := v, rview := v, r := .idle,
                                     answers := m.answers ++ [(w, .ready (some a))] })
      | none => some ((), { m with valueView := v, rview := v, r := .has w })
    | .has w =>
      match m.load m.rview k with
      | none => none
      | some n =>
        if n = 0 then
          some ((), { m with r := .idle, rview := k, answers := m.answers ++ [(w, .ready none)] })
        else some ((), { m with r := .store w, rview := k })
    | .store w =>
      let v := max m.rview m.wakerView
      some ((), { m with r := .idle, rview := v, waker := some w, wakerView := v,
                         answers := m.answers ++ [(w, .pending)], regAt := m.woken.length })

/-- An execution. -/
def World.runs (m : World α) (es : List (Ev α)) : Option (World α) := (runE World.step m es).map (·.2)

end Verif.ChanRA
