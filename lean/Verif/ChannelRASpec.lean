import Verif.ChannelRA
import Verif.ChannelConc

/-!
# `channel`, release/acquire model: specification
-/

namespace Verif.ChanRA

variable {α : Type}

/-- No call or poll is running. -/
def AtRest (m : World α) : Prop := m.calls = [] ∧ m.r = .idle

/-- `P` holds of every event of the execution and of the state in which it happens. -/
def Along (init : α) (es : List (Ev α)) (P : World α → Ev α → Prop) : Prop :=
  ∀ i e m, es[i]? = some e → (World.init init).runs (es.take i) = some m → P m e

/-- Every `clone` and `drop` knows what the calls knew that returned before it started.  The methods of
`Sender` upgrade their `Weak`, and drop the `Arc` when they return (`/repo/src/signal/channel.rs:56, 72,
84, 99`): in the standard library the former is a read-modify-write of the strong count with `Acquire`
and the latter one with `Release`, so the condition is met.  It is kept as a hypothesis because the
documentation of `Weak` does not promise it. -/
def SyncedCalls (init : α) (es : List (Ev α)) : Prop :=
  Along init es fun m e => ∀ v, e = .callClone v ∨ e = .callDrop v → m.returned ≤ v

/-- Every poll knows what the calls knew that returned before it started. -/
def SyncedPolls (init : α) (es : List (Ev α)) : Prop :=
  Along init es fun m e => ∀ w v, e = .callPoll w v → m.returned ≤ v

/-- A `clone` or `drop` that has not changed the counter yet. -/
def Pc.counting : Pc α → Bool
  | .cloneHas => true
  | .cloneAdd => true
  | .dropHas => true
  | .dropSub => true
  | _ => false

/-- A `close` that has stored, and has not returned. -/
def Pc.closing : Pc α → Bool
  | .notify op => op = .close
  | .wake op _ => op = .close
  | _ => false

/-- No `clone` or `drop` that has not changed the counter yet runs at the same time as a `close` that
has stored. -/
def NoCloseOverlap (init : α) (es : List (Ev α)) : Prop :=
  Along init es fun m e =>
    (∀ j k c, e = .step j k → m.calls[j]? = some c → c.pc = .closeStore →
      ∀ c' ∈ m.calls, c'.pc.counting = false) ∧
    (∀ v, e = .callClone v ∨ e = .callDrop v → ∀ c ∈ m.calls, c.pc.closing = false)

/-- No `notify` takes the waker while the poll is between taking the value and storing its waker (the
condition of C41). -/
def NoWindow (init : α) (es : List (Ev α)) : Prop :=
  Along init es fun m e => ∀ j k c op, e = .step j k → m.calls[j]? = some c → c.pc = .notify op →
    ∀ w, m.r ≠ .has w ∧ m.r ≠ .store w

/-- No `notify` takes the waker, and no waker is about to be woken, while a poll runs. -/
def NoPollOverlap (init : α) (es : List (Ev α)) : Prop :=
  Along init es fun m e =>
    (∀ j k c op, e = .step j k → m.calls[j]? = some c → c.pc = .notify op → m.r = .idle) ∧
    (∀ w v, e = .callPoll w v → ∀ c ∈ m.calls, ∀ op w', c.pc ≠ .wake op w')

/-- A poll made in `m`, all other threads resting, with waker `w`, by a thread that was told `v`, may
answer `r`. -/
def World.Answers (m : World α) (w : Waker) (v : Nat) (r : Poll (Option α)) : Prop :=
  ∃ (ks : List Nat) (m' : World α), m.runs (.callPoll w v :: ks.map .rstep) = some m' ∧ m'.r = .idle ∧
    m'.answers = m.answers ++ [(w, r)]

/-- The values that the polls have produced. -/
def produced (answers : List (Waker × Poll (Option α))) : List α :=
  answers.filterMap fun
    | (_, .ready (some a)) => some a
    | _ => none

/-- Every load reads the latest value. -/
def Fresh (init : α) (es : List (Ev α)) : Prop :=
  Along init es fun m e => (∀ j k, e = .step j k → k = m.last) ∧ (∀ k, e = .rstep k → k = m.last)

/-- The state of the sequentially consistent model. -/
def Pc.erase : Pc α → ChanConc.Pc α
  | .sendHas a => .sendHas a
  | .sendStore a => .sendStore a
  | .closeHas => .closeHas
  | .closeStore => .closeStore
  | .cloneHas => .cloneHas
  | .cloneAdd => .cloneAdd
  | .cloneRet => .cloneRet
  | .dropHas => .dropHas
  | .dropSub => .dropSub
  | .notify op => .notify (op = .drop)
  | .wake op w => .wake (op = .drop) w

def RPc.erase : RPc → ChanConc.RPc
  | .idle => .idle
  | .take w => .take w
  | .has w => .has w
  | .store w => .store w

def World.erase (m : World α) : ChanConc.World α :=
  ⟨m.value, m.waker, m.cur, m.calls.map fun c => c.pc.erase, m.r.erase, m.handles, m.closed, m.answers, m.woken,
    m.regAt⟩

def Ev.erase : Ev α → ChanConc.Ev α
  | .callSend a _ => .callSend a
  | .callClose _ => .callClose
  | .callClone _ => .callClone
  | .callDrop _ => .callDrop
  | .step i _ => .step i
  | .callPoll w _ => .callPoll w
  | .rstep _ => .rstep

end Verif.ChanRA
