import Verif.Broadcaster

/-!
# `Broadcaster`: specification

Everything is read off a trace: the events and what could be seen of them.
-/

namespace Verif.Bc

variable {α β : Type}

/-- The values among the answers of the input. -/
def values (hist : List (Step α)) : List α := items (hist.map (·.2))

/-- The input has answered its end. -/
def ended (hist : List (Step α)) : Prop := Poll.ready none ∈ hist.map (·.2)

/-- The answers of the input: values, then something else. -/
def Burst (b : List (Step α)) : Prop :=
  ∃ vs l, b = vs ++ [l] ∧ (∀ v ∈ vs, ∃ a, v.2 = .ready (some a)) ∧ ∀ a, l.2 ≠ .ready (some a)

/-- How many values the input had produced when subscriber `i` last got one. -/
def seen (i : Nat) (tr : List (Ev × Out α β)) : Nat :=
  tr.foldl (fun n eo =>
    match eo with
    | (.poll j _, ⟨some (.ready (some _)), hist, _⟩) => if j = i then (values hist).length else n
    | _ => n) 0

/-- Whether the input has to be polled: it was not yet, or it has woken its waker since it was last
polled (or while it was polled).  With the number of polls of the input so far. -/
def due (tr : List (Ev × Out α β)) : Bool × Nat :=
  tr.foldl (fun dn eo =>
    match eo with
    | (.poll _ _, o) => (dn.1 && (o.hist.drop dn.2).any (·.1), o.hist.length)
    | (.wake, o) => (true, o.hist.length)
    | (_, o) => (dn.1, o.hist.length)) (true, 0)

/-- The event is a poll or the drop of subscriber `i`. -/
def Ev.concerns (i : Nat) : Ev → Prop
  | .poll j _ => j = i
  | .dropSub j => j = i
  | _ => False

/-- The last poll of subscriber `i` was made with waker `w` and answered `Pending`; `since` is what has
happened since. -/
def Pends (i : Nat) (w : Waker) (tr since : List (Ev × Out α β)) : Prop :=
  ∃ pre o, tr = pre ++ (.poll i w, o) :: since ∧ o.answer = some .pending ∧
    ∀ eo ∈ since, ¬ eo.1.concerns i

/-- And the waker was not woken since. -/
def Waits (i : Nat) (w : Waker) (tr : List (Ev × Out α β)) : Prop :=
  ∃ since, Pends i w tr since ∧ ∀ eo ∈ since, w ∉ eo.2.woken

/-- The polls of subscriber `i`. -/
def polled (i : Nat) (tr : List (Ev × Out α β)) : List (Waker × Poll (Option β)) :=
  tr.filterMap fun eo =>
    match eo with
    | (.poll j w, ⟨some r, _, _⟩) => if j = i then some (w, r) else none
    | _ => none

/-- Subscriber `i` has not been dropped, or has answered its end. -/
def Kept (i : Nat) (tr : List (Ev × Out α β)) : Prop :=
  (∀ eo ∈ tr, eo.1 ≠ .dropSub i) ∨ ∃ y, (polled i tr).getLast? = some (y, .ready none)

/-- The last poll of subscriber `i` was with waker `x`, and `x` has been woken since. -/
def WokenSince (i : Nat) (tr : List (Ev × Out α β)) (x : Waker) : Prop :=
  ∃ pre o since, tr = pre ++ (.poll i x, o) :: since ∧ (∀ eo ∈ since, ∀ y, eo.1 ≠ .poll i y) ∧
    ∃ eo ∈ since, x ∈ eo.2.woken

end Verif.Bc
