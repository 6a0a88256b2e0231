import Verif.Basic
import Verif.Hist

/-!
# `AtomicOption`

`/repo/src/atomic.rs:51-112`.  Interleaving model: any number of calls may run at the same time (the
methods take `&self`), each in three steps — box the new value, exchange the pointers, unbox the old
value.  Only the exchange touches shared memory.
-/

namespace Verif.AtomicOption

variable {α : Type}

/-- An address on the heap. -/
abbrev Addr := Nat

/-- `swap` returns the old value, `store` drops it (`/repo/src/atomic.rs:92-95`); `take` is `swap` of
`None` (`/repo/src/atomic.rs:98-100`). -/
inductive Kind where
  | swap
  | store
deriving DecidableEq

/-- Where a running call of `swap` is, `/repo/src/atomic.rs:85-89`.  A null pointer is `none`.  `new`
and `expect` are ghosts: the value given to the call, and what the register below held when the
pointers were exchanged. -/
inductive Pc (α : Type) where
  /-- after `to_ptr` (line 86) -/
  | exchange (k : Kind) (p : Option Addr) (new : Option α)
  /-- after the atomic swap (line 87) -/
  | unbox (k : Kind) (p : Option Addr) (expect : Option α)

/-- The pointer that a running call owns. -/
def Pc.ptr : Pc α → Option Addr
  | .exchange _ p _ => p
  | .unbox _ p _ => p

/-- The heap (live boxes only), the `AtomicPtr`, whether the `AtomicOption` still exists, the running
calls.  Ghosts: `put`, `returned`, `dropped`, the values handed in, given back to callers, and dropped;
`reg`, the content of the register as one would expect it. -/
structure World (α : Type) where
  boxes : List (Addr × α)
  ptr : Option Addr
  alive : Bool
  calls : List (Pc α)
  put : List α
  returned : List α
  dropped : List α
  reg : Option α

/-- `Box::from_raw` and moving out of the box: the box must be live, otherwise this is undefined
behaviour. -/
def unbox (boxes : List (Addr × α)) (p : Addr) : Option (α × List (Addr × α)) :=
  match boxes with
  | [] => none
  | (q, x) :: bs =>
    if q = p then some (x, bs)
    else match unbox bs p with
    | none => none
    | some (y, bs') => some (y, (q, x) :: bs')

/-- `Box::into_raw(Box::new(value))`; the allocator answers any address that is not in use. -/
def World.isFree (m : World α) (p : Addr) : Bool := !(m.boxes.any (·.1 == p))

/-- `to_ptr`, `/repo/src/atomic.rs:60-66`, with the address chosen by the allocator. -/
def World.toPtr (m : World α) (v : Option α) (p : Addr) : Option (Option Addr × World α) :=
  match v with
  | none => some (none, m)
  | some a => if m.isFree p then some (some p, { m with boxes := (p, a) :: m.boxes, put := a :: m.put }) else none

/-- An empty heap. -/
def World.blank : World α := ⟨[], none, true, [], [], [], [], none⟩

/-- `AtomicOption::new`, `/repo/src/atomic.rs:79-83`. -/
def World.new (v : Option α) : World α :=
  match v with
  | none => World.blank
  | some a => { (World.blank : World α) with boxes := [(0, a)], ptr := some 0, put := [a], reg := some a }

/-- Steps of threads. -/
inductive Ev (α : Type) where
  /-- a thread calls `swap`, `store` or `take`, up to the end of `to_ptr` -/
  | call (k : Kind) (v : Option α) (p : Addr)
  /-- the `i`th running call exchanges the pointers -/
  | exchange (i : Nat)
  /-- the `i`th running call runs `from_ptr` and returns -/
  | finish (i : Nat)
  /-- the `AtomicOption` is dropped -/
  | drop

/-- What a step does visibly. -/
inductive Obs (α : Type) where
  | none
  /-- a `swap` or `take` returns -/
  | ret (r : Option α)
  /-- undefined behaviour: a box freed twice or used after it was freed -/
  | ub
deriving DecidableEq

/-- `from_ptr`, `/repo/src/atomic.rs:68-76`; `none` is undefined behaviour. -/
def World.fromPtr (m : World α) (p : Option Addr) : Option (Option α × World α) :=
  match p with
  | none => some (none, m)
  | some p =>
    match unbox m.boxes p with
    | none => none
    | some (a, bs) => some (some a, { m with boxes := bs })

/-- One step; `none` if it cannot happen.  Dropping needs exclusive access (`&mut self`), so no call
runs (`/repo/src/atomic.rs:103-111`). -/
def World.step (m : World α) : Ev α → Option (Obs α × World α)
  | .call k v p =>
    if m.alive then
      match m.toPtr v p with
      | none => none
      | some (q, m') => some (.none, { m' with calls := m'.calls ++ [.exchange k q v] })
    else none
  | .exchange i =>
    match m.calls[i]? with
    | some (.exchange k p v) =>
      some (.none, { m with ptr := p, calls := m.calls.set i (.unbox k m.ptr m.reg), reg := v })
    | _ => none
  | .finish i =>
    match m.calls[i]? with
    | some (.unbox k p _) =>
      match m.fromPtr p with
      | none => some (.ub, m)
      | some (r, m') =>
        match k with
        | .swap => some (.ret r, { m' with calls := m.calls.eraseIdx i, returned := r.toList ++ m.returned })
        | .store => some (.none, { m' with calls := m.calls.eraseIdx i, dropped := r.toList ++ m.dropped })
    | _ => none
  | .drop =>
    if m.alive && m.calls.isEmpty then
      match m.fromPtr m.ptr with
      | none => some (.ub, m)
      | some (r, m') =>
        some (.none, { m' with ptr := none, alive := false, dropped := r.toList ++ m.dropped, reg := none })
    else none

/-- A history of steps. -/
def World.runs (m : World α) (es : List (Ev α)) : Option (List (Obs α) × World α) :=
  runE World.step m es

end Verif.AtomicOption
