import Verif.ChannelConc

/-!
# `channel`, interleaving model: specification
-/

namespace Verif.ChanConc

variable {α : Type}

/-- No call or poll is running. -/
def AtRest (m : World α) : Prop := m.calls = [] ∧ m.r = .idle

/-- No `close` stores while a `clone` or `drop` is between its check of `has_senders` and its change
of the counter. -/
def NoOverlap (init : α) (es : List (Ev α)) : Prop :=
  ∀ i j m1, es[i]? = some (.step j) → (World.init init).runs (es.take i) = some m1 →
    m1.calls[j]? = some .closeStore → .cloneAdd ∉ m1.calls ∧ .dropSub ∉ m1.calls

/-- No `notify` takes the waker while the poll is between taking the value and storing its waker. -/
def NoWindow (init : α) (es : List (Ev α)) : Prop :=
  ∀ i j m1 b, es[i]? = some (.step j) → (World.init init).runs (es.take i) = some m1 →
    m1.calls[j]? = some (.notify b) → ∀ w, m1.r ≠ .has w ∧ m1.r ≠ .store w

/-- The answer of a poll made now, all other threads resting; `none` if it takes more than three
steps. -/
def World.pollNow (m : World α) (w : Waker) : Option (Poll (Option α)) :=
  match m.runs [.callPoll w, .rstep] with
  | none => none
  | some m1 =>
    if m1.r = .idle then m1.answers.getLast?.map (·.2)
    else match m1.runs [.rstep] with
    | none => none
    | some m2 =>
      if m2.r = .idle then m2.answers.getLast?.map (·.2)
      else (m2.runs [.rstep]).bind fun m3 => m3.answers.getLast?.map (·.2)

end Verif.ChanConc
