import Verif.BroadcasterConc

/-!
# `Broadcaster`, interleaving model: specification
-/

namespace Verif.BcConc

variable {α : Type}

/-- No thread is inside a call. -/
def AtRest (m : World α) : Prop :=
  m.notifier = none ∧ ∀ i, (m.subs i).pc = .idle ∨ (m.subs i).pc = .unborn

/-- The poll has found `is_changed` set and has not ended. -/
def Pc.busy : Pc → Bool
  | .wantWrite _ => true
  | .decide _ => true
  | _ => false

/-- The poll has swapped `is_changed` and has not ended. -/
def Pc.inside : Pc → Bool
  | .wantWrite _ => true
  | .decide _ => true
  | .wantRead _ => true
  | _ => false

/-- No poll swaps `is_changed` while another one that has found it set has not ended. -/
def NoOverlap (script : List (Poll (Option α))) (es : List Ev) : Prop :=
  ∀ k m i w, es[k]? = some (.sstep i) → (World.init script).runs (es.take k) = some m →
    (m.subs i).pc = .swap w → ∀ j, (m.subs j).pc.busy = false

/-- The waker of a subscriber is not taken while its poll is between swapping `is_changed` and its
end. -/
def NoWindow (script : List (Poll (Option α))) (es : List Ev) : Prop :=
  ∀ k m i rest, es[k]? = some .nstep → (World.init script).runs (es.take k) = some m →
    m.notifier = some ⟨i :: rest, none⟩ → (m.subs i).pc.inside = false

end Verif.BcConc
