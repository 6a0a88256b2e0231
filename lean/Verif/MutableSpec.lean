import Verif.Mutable

/-!
# Specification of `Mutable`

What a user expects: the value is what the writes make it; a signal has something to report iff
there was a write since its last poll, or it was never polled; it ends when there is nothing to
report and no handle left; a poll that had to wait is woken by the next write and by the drop of the
last handle.  Nothing here mentions the state of the model.
-/

namespace Verif.Mut

variable {α : Type}

/-- The uses of a `lock_mut` guard as one function on the value. -/
def usesValue : List (Use α) → α → α
  | [], a => a
  | .deref :: us, a => usesValue us a
  | .derefMut f :: us, a => usesValue us (f a)

/-- Does one of the uses dereference mutably? -/
def usesMut : List (Use α) → Bool
  | [] => false
  | .deref :: us => usesMut us
  | .derefMut _ :: _ => true

/-- The value after an event, when it was `a` before. -/
def Ev.newValue : Ev α → α → α
  | .set b, _ => b
  | .replace b, _ => b
  | .replaceWith f, a => (f a).1
  | .setIf b f, a => if f a b then b else a
  | .lockMut us, a => usesValue us a
  | _, a => a

/-- Does the event tell the signals that there is something new? -/
def Ev.notifies : Ev α → α → Bool
  | .set _, _ => true
  | .replace _, _ => true
  | .replaceWith _, _ => true
  | .setIf b f, a => f a b
  | .lockMut us, _ => usesMut us
  | _, _ => false

/-- The number of handles after an event. -/
def Ev.newHandles : Ev α → Nat → Nat
  | .clone, n => n + 1
  | .drop, n => n - 1
  | _, n => n

/-- What the user knows about one signal. -/
structure Sub where
  /-- there is something to report -/
  fresh : Bool
  /-- the waker of the last poll, if that had to wait and was not woken since -/
  waiting : Option Waker
  dropped : Bool

/-- What the user knows. -/
structure Spec (α : Type) where
  value : α
  handles : Nat
  subs : List Sub

def Spec.new (a : α) : Spec α := ⟨a, 1, []⟩

/-- What a poll of the signal `s` answers. -/
def Spec.answer (m : Spec α) (s : Sub) : Poll (Option α) :=
  if s.fresh then .ready (some m.value) else if m.handles = 0 then .ready none else .pending

/-- Signal `s` after being told about a change (`true`) or the end (`false`), unless dropped. -/
def Sub.told (changed : Bool) (s : Sub) : Sub :=
  if s.dropped then s else ⟨s.fresh || changed, none, s.dropped⟩

/-- The waker of a signal that waits. -/
def Sub.wakes (s : Sub) : List Waker := if s.dropped then [] else s.waiting.toList

/-- The state after an event. -/
def Spec.next (m : Spec α) (e : Ev α) : Spec α :=
  ⟨e.newValue m.value, e.newHandles m.handles,
    match e with
    | .signal => m.subs ++ [⟨true, none, false⟩]
    | .poll i w => m.subs.modify i fun s =>
        ⟨false, if s.fresh = false ∧ m.handles ≠ 0 then some w else s.waiting, s.dropped⟩
    | .dropSignal i => m.subs.modify i fun s => ⟨s.fresh, s.waiting, true⟩
    | .drop => if m.handles = 1 then m.subs.map (Sub.told false) else m.subs
    | e => if e.notifies m.value then m.subs.map (Sub.told true) else m.subs⟩

/-- What an event answers. -/
def Spec.obs (m : Spec α) : Ev α → Obs α
  | .replace _ => .value m.value
  | .replaceWith f => .value (f m.value).2
  | .get => .value m.value
  | .poll i _ =>
    match m.subs[i]? with
    | some s => .poll (m.answer s)
    | none => .unit
  | _ => .unit

/-- Whom an event wakes. -/
def Spec.wakes (m : Spec α) (e : Ev α) : List Waker :=
  match e with
  | .drop => if m.handles = 1 then m.subs.flatMap Sub.wakes else []
  | e => if e.notifies m.value then m.subs.flatMap Sub.wakes else []

/-- The state after a history. -/
def Spec.after (m : Spec α) (es : List (Ev α)) : Spec α := es.foldl Spec.next m

/-- The answers of a history. -/
def Spec.trace (m : Spec α) : List (Ev α) → List (Obs α)
  | [] => []
  | e :: es => m.obs e :: (m.next e).trace es

/-- Whom a history wakes, in order. -/
def Spec.wakeLog (m : Spec α) : List (Ev α) → List Waker
  | [] => []
  | e :: es => m.wakes e ++ (m.next e).wakeLog es

/-- The value after a history. -/
def valueAfter (a : α) (es : List (Ev α)) : α := es.foldl (fun a e => e.newValue a) a

/-- The number of handles after a history. -/
def handlesAfter (n : Nat) (es : List (Ev α)) : Nat := es.foldl (fun n e => e.newHandles n) n

/-- Signal `i` was never polled, or there was a notifying write after its last poll. -/
def Unread (a : α) (i : Nat) (es : List (Ev α)) : Prop :=
  (∀ w, .poll i w ∉ es) ∨ ∃ es1 e es2, es = es1 ++ e :: es2 ∧
    e.notifies (valueAfter a es1) = true ∧ ∀ w, .poll i w ∉ es2

end Verif.Mut
