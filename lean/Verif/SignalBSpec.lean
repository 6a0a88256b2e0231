import Verif.SignalB
import Mathlib.Data.List.Forall2

/-!
# Specifications for `map_ref!` and `map_mut!`

A state of these is the list of the inputs `m`, with `m.signal` the input signal and `m.value` the
content of the variable the body sees.
-/

namespace Verif

variable {α : Type}

/-- What the body of `map_mut!` is shown for an input that was `m` before the poll and is `m'` after
it: the value the input produced during the poll, if it did, and otherwise the old content of the
variable. -/
def shown (m m' : MapRef1 α) : Option α :=
  if m.signal.src.got.length < m'.signal.src.got.length then m'.signal.src.got.getLast? else m.value

/-- Each input was polled at most once: it produced at most one value. -/
def Grows (ms ms' : List (MapRef1 α)) : Prop :=
  List.Forall₂ (fun m m' => m'.signal.src.got = m.signal.src.got ∨
    ∃ a, m'.signal.src.got = m.signal.src.got ++ [a]) ms ms'

end Verif
