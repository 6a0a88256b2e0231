import Verif.Atomic

/-!
# `AtomicOption` with the memory orderings it asks for

`/repo/src/atomic.rs:51-112`.  `Verif/Atomic.lean` has the steps of the calls; here every step also
keeps track of which accesses to heap boxes *happen before* it, in the sense of the memory model of Rust
and C++.  A thread learns of accesses of other threads only

* from an `Acquire` exchange which reads a pointer that a `Release` exchange wrote;
* from the allocator, when it hands out an address again (the free happens before the allocation);
* from `&mut self` when it drops the `AtomicOption` (all other uses happen before);
* in ways outside of this file (`known`, chosen freely for each call, possibly nothing).

An exchange always reads the newest pointer (atomic read-modify-write operations do, whatever their
ordering), so which pointers are read is the same as in `Verif/Atomic.lean`.
-/

namespace Verif.AtomicRA

open AtomicOption (Addr Kind Pc)

variable {α : Type}

/-- The accesses that happen before some point of a thread, by their number in the log. -/
abbrev View := List Nat

/-- The ordering of the exchange in `swap`. -/
structure Order where
  acquire : Bool
  release : Bool

/-- `Ordering::AcqRel`, `/repo/src/atomic.rs:87`. -/
def acqRel : Order := ⟨true, true⟩

/-- `base` is the world of `Verif/Atomic.lean`.  `log` has every access to a box so far: its address, and
the accesses that happen before it.  `views` are the views of the threads that run the calls
`base.calls`, in the same order.  `msg` is the view that the newest pointer carries for those who read
it.  `freed` is the view at the last free of an address.  `birth` is the view of the thread which
constructed the `AtomicOption`: everybody who uses it got it from there. -/
structure World (α : Type) where
  base : AtomicOption.World α
  log : List (Addr × View)
  views : List View
  msg : View
  freed : Addr → View
  birth : View

/-- `AtomicOption::new`, `/repo/src/atomic.rs:79-83`: boxing the value is an access (number 0). -/
def World.new (v : Option α) : World α :=
  match v with
  | none => ⟨AtomicOption.World.new none, [], [], [], fun _ => [], []⟩
  | some a => ⟨AtomicOption.World.new (some a), [(0, [])], [], [0], fun _ => [], [0]⟩

/-- Steps of threads: those of `Verif/Atomic.lean`; a call also says of which accesses its thread knows
by other means. -/
inductive Ev (α : Type) where
  | call (k : Kind) (v : Option α) (p : Addr) (known : View)
  | exchange (i : Nat)
  | finish (i : Nat)
  | drop

/-- The step of `Verif/Atomic.lean`. -/
def Ev.base : Ev α → AtomicOption.Ev α
  | .call k v p _ => .call k v p
  | .exchange i => .exchange i
  | .finish i => .finish i
  | .drop => .drop

/-- The box at `p` is read and freed by a thread with the view `w` (`from_ptr`,
`/repo/src/atomic.rs:68-76`). -/
def World.free (m : World α) (p : Option Addr) (w : View) : World α :=
  match p with
  | none => m
  | some a => { m with
      log := m.log ++ [(a, w)],
      freed := fun b => if b = a then m.log.length :: w else m.freed b }

/-- Nobody knows of accesses that are still to come. -/
def World.past (m : World α) (known : View) : View := known.filter (· < m.log.length)

/-- What a step does to the views; `base` is not touched.  `call` is `to_ptr`
(`/repo/src/atomic.rs:60-66`): allocate and write the box.  `exchange` is line 87: `Acquire` adds what
the old pointer carries to the view of the thread; `Release` makes the new pointer carry the view of
the thread.  Either way the new pointer carries what the old one did (a read-modify-write operation
continues the release sequence).  `finish` is line 88.  `drop` is lines 103-111: the thread has exclusive
access, so it knows of all accesses. -/
def World.track (ord : Order) (m : World α) : Ev α → World α
  | .call _ none _ known => { m with views := m.views ++ [m.birth ++ m.past known] }
  | .call _ (some _) p known =>
    let w := m.birth ++ m.past known ++ m.freed p
    { m with log := m.log ++ [(p, w)], views := m.views ++ [m.log.length :: w] }
  | .exchange i =>
    let w := m.views[i]?.getD []
    { m with
      views := m.views.set i (if ord.acquire then w ++ m.msg else w),
      msg := if ord.release then w ++ m.msg else m.msg }
  | .finish i =>
    let m' := m.free ((m.base.calls[i]?.bind Pc.ptr)) (m.views[i]?.getD [])
    { m' with views := m.views.eraseIdx i }
  | .drop => m.free m.base.ptr (List.range m.log.length)

/-- One step; `none` if it cannot happen. -/
def World.step (ord : Order) (m : World α) (e : Ev α) : Option (AtomicOption.Obs α × World α) :=
  match m.base.step e.base with
  | none => none
  | some (o, b) => some (o, { m.track ord e with base := b })

/-- A history of steps. -/
def World.runs (ord : Order) (m : World α) (es : List (Ev α)) :
    Option (List (AtomicOption.Obs α) × World α) :=
  runE (World.step ord) m es

end Verif.AtomicRA
