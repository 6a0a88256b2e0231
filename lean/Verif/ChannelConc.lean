import Verif.Basic
import Verif.Hist

/-!
# `channel`: interleaving model

`/repo/src/signal/channel.rs`.  Any number of `Sender` handles, on which any number of calls run at
the same time; one thread polls the `Receiver`, which is not dropped (`Weak::upgrade` succeeds).  One
step per access to shared memory, sequentially consistent.  That an `AtomicOption` behaves like one
atomic register is `C42_atomic`.
-/

namespace Verif.ChanConc

variable {α : Type}

/-- Where a running call on a `Sender` is.  The `…Has` steps load `senders` (`has_senders`, line 22);
`notify` is the `take` of the waker and `wake` the call of `Waker::wake` (lines 41-45); `owns`: in a
`drop`. -/
inductive Pc (α : Type) where
  /-- `send`, lines 55-69 -/
  | sendHas (a : α)
  | sendStore (a : α)
  /-- `close`, lines 71-78 -/
  | closeHas
  | closeStore
  /-- `clone`, lines 82-93; `cloneRet`: the new handle is about to be returned -/
  | cloneHas
  | cloneAdd
  | cloneRet
  /-- `drop`, lines 97-107 -/
  | dropHas
  | dropSub
  | notify (owns : Bool)
  | wake (owns : Bool) (w : Waker)
deriving DecidableEq

/-- Where the receiving thread is in `poll_change`, lines 123-137. -/
inductive RPc where
  | idle
  /-- about to take the value (line 124) -/
  | take (w : Waker)
  /-- no value; about to load `senders` (line 126) -/
  | has (w : Waker)
  /-- about to store the waker (line 127) -/
  | store (w : Waker)
deriving DecidableEq

/-- Shared memory (`Inner`, lines 11-16), the running calls, the receiving thread.  `senders` is an
integer: the `usize` counter is this number modulo `2^64`, so that `-1` is `usize::MAX`.  Ghosts: the
number of existing `Sender`s, whether some `close` has stored, the answers of the polls, the wakers
woken, and how many had been woken when the waker was last stored. -/
structure World (α : Type) where
  value : Option α
  waker : Option Waker
  senders : Int
  calls : List (Pc α)
  r : RPc
  handles : Nat
  closed : Bool
  answers : List (Waker × Poll (Option α))
  woken : List Waker
  regAt : Nat

/-- `channel`, `/repo/src/signal/channel.rs:140-156`. -/
def World.init (initial : α) : World α :=
  ⟨some initial, none, 1, [], .idle, 1, false, [], [], 0⟩

/-- A step of one of the threads. -/
inductive Ev (α : Type) where
  | callSend (a : α)
  | callClose
  | callClone
  | callDrop
  /-- the `i`th running call makes a step -/
  | step (i : Nat)
  | callPoll (w : Waker)
  /-- the receiving thread makes a step -/
  | rstep
deriving DecidableEq

/-- The call is a `drop`, which owns its handle; all other calls borrow theirs. -/
def Pc.owns : Pc α → Bool
  | .dropHas => true
  | .dropSub => true
  | .notify b => b
  | .wake b _ => b
  | _ => false

/-- What a call does next: the new state and where it is then (`none`: it has returned). -/
def World.exec (m : World α) : Pc α → World α × Option (Pc α)
  | .sendHas a => if m.senders = 0 then (m, none) else (m, some (.sendStore a))
  | .sendStore a => ({ m with value := some a }, some (.notify false))
  | .closeHas => if m.senders = 0 then (m, none) else (m, some .closeStore)
  | .closeStore => ({ m with senders := 0, closed := true }, some (.notify false))
  | .cloneHas => if m.senders = 0 then (m, some .cloneRet) else (m, some .cloneAdd)
  | .cloneAdd => ({ m with senders := m.senders + 1 }, some .cloneRet)
  | .cloneRet => ({ m with handles := m.handles + 1 }, none)
  | .dropHas => if m.senders = 0 then (m, none) else (m, some .dropSub)
  | .dropSub =>
    if m.senders = 1 then ({ m with senders := 0 }, some (.notify true))
    else ({ m with senders := m.senders - 1 }, none)
  | .notify b =>
    match m.waker with
    | some w => ({ m with waker := none }, some (.wake b w))
    | none => (m, none)
  | .wake _ w => ({ m with woken := m.woken ++ [w] }, none)

/-- One step; `none` if it cannot happen.  Calls need a handle.  A drop needs a handle that no call
borrows: there is another handle which the running calls may borrow, or no call that borrows runs. -/
def World.step (m : World α) : Ev α → Option (Unit × World α)
  | .callSend a => if m.handles = 0 then none else some ((), { m with calls := m.calls ++ [.sendHas a] })
  | .callClose => if m.handles = 0 then none else some ((), { m with calls := m.calls ++ [.closeHas] })
  | .callClone => if m.handles = 0 then none else some ((), { m with calls := m.calls ++ [.cloneHas] })
  | .callDrop =>
    if 2 ≤ m.handles ∨ (m.handles = 1 ∧ ∀ c ∈ m.calls, c.owns = true) then
      some ((), { m with handles := m.handles - 1, calls := m.calls ++ [.dropHas] })
    else none
  | .step i =>
    match m.calls[i]? with
    | none => none
    | some pc =>
      match m.exec pc with
      | (m', some pc') => some ((), { m' with calls := m.calls.set i pc' })
      | (m', none) => some ((), { m' with calls := m.calls.eraseIdx i })
  | .callPoll w => if m.r = .idle then some ((), { m with r := .take w }) else none
  | .rstep =>
    match m.r with
    | .idle => none
    | .take w =>
      match m.value with
      | some a => some ((), { m with value := none, r := .idle, answers := m.answers ++ [(w, .ready (some a))] })
      | none => some ((), { m with r := .has w })
    | .has w =>
      if m.senders = 0 then some ((), { m with r := .idle, answers := m.answers ++ [(w, .ready none)] })
      else some ((), { m with r := .store w })
    | .store w =>
      some ((), { m with r := .idle, waker := some w, answers := m.answers ++ [(w, .pending)],
                         regAt := m.woken.length })

/-- A schedule. -/
def World.runs (m : World α) (es : List (Ev α)) : Option (World α) := (runE World.step m es).map (·.2)

end Verif.ChanConc
