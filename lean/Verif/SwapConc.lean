import Verif.Hist

/-!
# `Mutable::swap`: interleaving model of its locks

`/repo/src/signal/mutable.rs:279-288`.  Any number of `Mutable`s, named by numbers, and of threads;
each thread calls `swap` on a list of pairs, one after the other.  A step takes one write lock, or
swaps the values, notifies and releases both locks.

Simplifications.  `notify` only takes the mutexes of single signals, for a moment, and is not modelled
here.  Other users of the locks are not modelled.  `std::sync::RwLock` may panic instead of waiting
when a thread locks it a second time; here such a thread waits for ever.  Either way the call does not
complete.
-/

namespace Verif.SwapConc

variable {α : Type}

/-- Where a thread is in `swap`. -/
inductive Pc where
  /-- outside -/
  | idle
  /-- has the lock of `self` (line 281), needs that of `other` -/
  | left (i j : Nat)
  /-- has both (line 282) -/
  | both (i j : Nat)
deriving DecidableEq

/-- A thread, with the calls it has still to make. -/
structure Th where
  pc : Pc
  todo : List (Nat × Nat)

/-- The thread has the lock of the `k`th `Mutable`. -/
def Pc.holds : Pc → Nat → Bool
  | .idle, _ => false
  | .left i _, k => i == k
  | .both i j, k => i == k || j == k

/-- The values of the `Mutable`s and the threads.  Ghost: the calls that have completed, in order. -/
structure World (α : Type) where
  vals : Nat → α
  ths : List Th
  log : List (Nat × Nat)

/-- `mem::swap` of two values, `/repo/src/signal/mutable.rs:284`. -/
def swapVals (v : Nat → α) (i j : Nat) : Nat → α := fun k => if k = i then v j else if k = j then v i else v k

/-- Some thread has the write lock of the `k`th `Mutable`. -/
def held (ths : List Th) (k : Nat) : Bool := ths.any fun t => t.pc.holds k

/-- The `t`th thread makes a step; `none` if it has to wait or has nothing to do. -/
def World.step (m : World α) (t : Nat) : Option (Unit × World α) :=
  match m.ths[t]? with
  | none => none
  | some ⟨.idle, []⟩ => none
  | some ⟨.idle, (i, j) :: rest⟩ =>
    if held m.ths i then none else some ((), { m with ths := m.ths.set t ⟨.left i j, rest⟩ })
  | some ⟨.left i j, rest⟩ =>
    if held m.ths j then none else some ((), { m with ths := m.ths.set t ⟨.both i j, rest⟩ })
  | some ⟨.both i j, rest⟩ =>
    some ((), ⟨swapVals m.vals i j, m.ths.set t ⟨.idle, rest⟩, m.log ++ [(i, j)]⟩)

/-- The threads start with the calls they have to make. -/
def World.init (vals : Nat → α) (progs : List (List (Nat × Nat))) : World α :=
  ⟨vals, progs.map fun p => ⟨.idle, p⟩, []⟩

/-- A schedule: which thread makes a step. -/
def World.runs (m : World α) (es : List Nat) : Option (World α) := (runE World.step m es).map (·.2)

/-- All calls have completed. -/
def World.done (m : World α) : Prop := ∀ t ∈ m.ths, t.pc = .idle ∧ t.todo = []

end Verif.SwapConc
