import Verif.Basic

/-!
# Futures (C85, C87)

A future that is made outside the crate, with its environment, and the contract of
`std::future::Future`.  `from_future`, `throttle`, `map_future` and `delay_remove` rely on it.
-/

namespace Verif

variable {α : Type}

/-- A future and its environment at present: the polls that the future has got, with its answers; the
output, if a poll would give it now (or has given it); which wakers have been woken since the last poll. -/
structure Fut (α : Type) where
  hist : List (Waker × Poll α)
  result : Option α
  woken : Waker → Prop

/-- The contract of `Future::poll`: the answer is the output; once there is an output, the waker of the
last poll has been woken. -/
structure Fut.Ok (f : Fut α) : Prop where
  output : ∀ w a, (w, .ready a) ∈ f.hist → f.result = some a
  wakes : ∀ w a, f.hist.getLast? = some (w, .pending) → f.result = some a → f.woken w

/-- The future has been polled, and its output is not there yet. -/
def Fut.Running (f : Fut α) : Prop := f.hist ≠ [] ∧ f.result = none

end Verif
