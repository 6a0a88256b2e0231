import Verif.SignalA

/-!
# Specification: the end is reported after finitely many polls (C64)
-/

namespace Verif

variable {α β σ : Type}

/-- A consumer that keeps polling, with any wakers, gets `Ready(None)` after finitely many polls,
unless a poll panics before. -/
def EndsSoon (poll : Waker → σ → Option (Poll (Option β) × σ)) (s0 : σ) : Prop :=
  ∀ w : Nat → Waker, ∃ n, ∀ outs s, run poll ((List.range n).map w) s0 = some (outs, s) →
    .ready none ∈ outs

/-- A future polled again and again, with any wakers, completes after finitely many polls, unless a
poll panics before. -/
def CompletesSoon (poll : Waker → σ → Option (Poll β × σ)) (s0 : σ) : Prop :=
  ∀ w : Nat → Waker, ∃ n, ∀ outs s, runF poll ((List.range n).map w) s0 = some (outs, s) →
    ∃ b, .ready b ∈ outs

/-- The script of an input contains its end: polled often enough, the input reports it. -/
def Finite (script : List (Poll (Option α))) : Prop := .ready none ∈ script

/-- The script of a future contains a result: polled often enough, the future completes. -/
def Completes (script : List (Poll β)) : Prop := ∃ b, .ready b ∈ script

end Verif
