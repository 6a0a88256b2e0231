import Verif.Channel

/-!
# `channel`: specification

Everything is a function of the history of the calls made.
-/

namespace Verif.Chan

variable {α : Type}

/-- The number of `Sender`s after a history. -/
def sendersAfter (es : List (Ev α)) : Nat :=
  es.foldl (fun n e => match e with
    | .clone => n + 1
    | .dropSender => n - 1
    | _ => n) 1

/-- Nobody called `close`, and the `Receiver` was not dropped. -/
def Accepts (es : List (Ev α)) : Prop := .close ∉ es ∧ .dropReceiver ∉ es

/-- `a` is the last value stored, and it was not taken by a poll: it is that of the last accepted
`send`, or the initial value `init`, and there was no poll since. -/
def Unread (init : α) (es : List (Ev α)) (a : α) : Prop :=
  (∃ es1 es2, es = es1 ++ .send a :: es2 ∧ Accepts es1 ∧ (∀ w, .poll w ∉ es2) ∧
    (∀ es3 b es4, es2 = es3 ++ .send b :: es4 → ¬ Accepts (es1 ++ .send a :: es3))) ∨
  (a = init ∧ (∀ w, .poll w ∉ es) ∧ ∀ es3 b es4, es = es3 ++ .send b :: es4 → ¬ Accepts es3)

/-- The last poll, with waker `w`, found neither a value nor the end, and since then nothing was
sent, nobody closed the channel and a `Sender` is left. -/
def Waiting (init : α) (es : List (Ev α)) (w : Waker) : Prop :=
  ∃ es1 es2, es = es1 ++ .poll w :: es2 ∧ (∀ a, ¬ Unread init es1 a) ∧ .close ∉ es1 ∧
    (∀ e ∈ es2, e = .clone ∨ e = .dropSender) ∧ sendersAfter es ≠ 0

/-- The calls that wake a waiting `Receiver`: `send`, `close`, and the drop of the last `Sender`. -/
def Wakes (es : List (Ev α)) : Ev α → Prop
  | .send _ => True
  | .close => True
  | .dropSender => sendersAfter es = 1
  | _ => False

end Verif.Chan
