import Verif.MutableVec
import Verif.Hist

/-!
# `MutableVec`: panics and the poisoned lock

`/repo/src/signal_vec.rs:2778-3482`, with the `RwLock` of the standard library: a write guard that is
dropped by a thread that started to panic while it held the guard poisons the lock, and every later
`read().unwrap()` or `write().unwrap()` panics.

A method panics if an index is out of range.  User code that can panic while the lock is held: the
closure of `retain`, the iterator of `extend`, the `clone` of an element, and code that holds a guard
of `lock_mut`.  Simplification: wakers, and the drop of an element, do not panic.
-/

namespace Verif.MutVecPanic

open MutVec

variable {α β : Type}

/-- A `MutableVec` whose lock can be poisoned, `/repo/src/signal_vec.rs:3366`. -/
structure PWorld (α : Type) where
  w : World α
  poisoned : Bool

/-- `From<T> for MutableVec` (`/repo/src/signal_vec.rs:3402-3410`). -/
def PWorld.init (vs : List α) : PWorld α := ⟨World.init vs, false⟩

/-- What happens: a call whose user code does not panic (but an index may be out of range), or a call
whose user code does. -/
inductive PEv (α : Type) where
  | call (e : Ev α)
  /-- the closure of `retain` answers as `f` and panics at the element with index `n` -/
  | retainPanics (f : α → Bool) (n : Nat)
  /-- the iterator given to `extend` yields these elements and then panics -/
  | extendPanics (as : List α)
  /-- a panic while a guard of `lock_mut` is alive, outside of its methods -/
  | guardPanics
  /-- call number `k` of `clone` during this method panics -/
  | clonePanics (o : Op α) (k : Nat)
  /-- `extend` has pushed the elements `as`; while it pushes `a`, call number `k` of `clone` panics -/
  | extendClonePanics (as : List α) (a : α) (k : Nat)
  /-- the `clone` of the contents in `signal_vec_cloned` panics -/
  | subscribePanics

/-- How a call ends: without a panic; with one; or with that of `unwrap` on a poisoned lock. -/
inductive Outcome where
  | done
  | panicked
  | poisoned
deriving DecidableEq

/-- What `move_from_to` leaves when it panics (`/repo/src/signal_vec.rs:2899-2905`): `Vec::remove`
panics before it changes anything, `Vec::insert` after `Vec::remove` has taken the element out. -/
def tornMove (values : List α) (oldIndex newIndex : Nat) : List α :=
  if oldIndex = newIndex then values
  else
    match vRemove values oldIndex with
    | none => values
    | some (_, vs) => vs

/-- The values left by a method that panics (`/repo/src/signal_vec.rs:2884-3104`, `3237-3246`,
`3339-3350`): only `move_from_to` changes anything before it panics, and `swap`, which calls it; the
second call in `swap` does not panic if the first did not. -/
def torn (values : List α) : Op α → List α
  | .moveFromTo i j => tornMove values i j
  | .swap a b => tornMove values a b
  | .applyVecDiff (.move i j) => tornMove values i j
  | _ => values

/-- The first `n` rounds of `senders.retain(…)` in `notify_with`, `/repo/src/signal_vec.rs:2855-2870`,
after which `clone` panics: the senders of these rounds that failed are gone, the rest stays. -/
def retainSome (d : VecDiff α) : Nat → List Nat → World α → List Nat × World α
  | 0, ss, w => (ss, w)
  | _ + 1, [], w => ([], w)
  | n + 1, s :: ss, w =>
    let r := w.send s d
    let rest := retainSome d n ss r.2
    (if r.1 then s :: rest.1 else rest.1, rest.2)

/-- `notify_with` (`/repo/src/signal_vec.rs:2840-2872`), for `notify_clone` (`3047-3053`), when call
number `k` of `clone` panics: call 0 comes before the change, call `k + 1` in round `k` before the
send; in the last round there is no `clone`.  `none` if there is no such call. -/
def notifyWithPanics (w : World α) (value : β) (change : World α → β → Option (World α))
    (mk : β → VecDiff α) : Nat → Option (World α)
  | 0 => if w.senders.length = 0 then none else some w
  | k + 1 =>
    if k + 1 < w.senders.length then
      match change w value with
      | none => none
      | some w' =>
        let r := retainSome (mk value) k w'.senders w'
        some { r.2 with senders := r.1 }
    else none

/-- `push_clone` (`/repo/src/signal_vec.rs:3070-3074`) when `clone` panics. -/
def pushClonePanics (w : World α) (value : α) (k : Nat) : Option (World α) :=
  notifyWithPanics w value (fun this value => some { this with values := this.values ++ [value] })
    (fun value => .push value) k

/-- `insert_clone` (`/repo/src/signal_vec.rs:3076-3085`) when `clone` panics. -/
def insertClonePanics (w : World α) (index : Nat) (value : α) (k : Nat) : Option (World α) :=
  if index = w.values.length then pushClonePanics w value k
  else
    notifyWithPanics w value
      (fun this value =>
        match vInsert this.values index value with
        | none => none
        | some vs => some { this with values := vs })
      (fun value => .insertAt index value) k

/-- `set_clone` (`/repo/src/signal_vec.rs:3087-3091`) when `clone` panics. -/
def setClonePanics (w : World α) (index : Nat) (value : α) (k : Nat) : Option (World α) :=
  notifyWithPanics w value
    (fun this value =>
      match vSet this.values index value with
      | none => none
      | some vs => some { this with values := vs })
    (fun value => .updateAt index value) k

/-- `replace_clone` (`/repo/src/signal_vec.rs:3093-3097`) when `clone` panics. -/
def replaceClonePanics (w : World α) (values : List α) (k : Nat) : Option (World α) :=
  notifyWithPanics w values (fun this values => some { this with values := values })
    (fun values => .replace values) k

/-- The methods that clone (`/repo/src/signal_vec.rs:3311-3350`; for `extend` see
`PEv.extendClonePanics`) when call number `k` of `clone` panics. -/
def clonePanics (w : World α) : Op α → Nat → Option (World α)
  | .pushCloned a, k => pushClonePanics w a k
  | .insertCloned i a, k => insertClonePanics w i a k
  | .setCloned i a, k => setClonePanics w i a k
  | .replaceCloned vs, k => replaceClonePanics w vs k
  | .applyVecDiff (.push a), k => pushClonePanics w a k
  | .applyVecDiff (.insertAt i a), k => insertClonePanics w i a k
  | .applyVecDiff (.updateAt i a), k => setClonePanics w i a k
  | .applyVecDiff (.replace vs), k => replaceClonePanics w vs k
  | _, _ => none

/-- One event; `none` if it cannot happen: methods, subscriptions, clones and drops of handles need a
handle, polls and drops of subscribers a subscriber.
* `lock_mut`, `lock_ref`, `signal_vec` and `signal_vec_cloned` lock first
  (`/repo/src/signal_vec.rs:3387-3424`); clone and drop of a handle (`3459-3464`) and everything a
  subscriber does (`3474-3481`) do not lock.
* `retain` (`2915-2952`): `Vec::retain` keeps what the closure has not seen; nothing is notified.
* `extend` (`3356-3361`): the pushes before the panic are complete.
* `signal_vec_clone` (`3056-3068`): the contents are cloned before the sender is stored, and only if
  there are any. -/
def PWorld.step (p : PWorld α) : PEv α → Option (Outcome × PWorld α)
  | .call (.op o) =>
    if p.w.handles = 0 then none
    else if p.poisoned then some (.poisoned, p)
    else
      match p.w.exec o with
      | some (_, w) => some (.done, ⟨w, false⟩)
      | none => some (.panicked, ⟨{ p.w with values := torn p.w.values o }, true⟩)
  | .call .subscribe =>
    if p.w.handles = 0 then none
    else if p.poisoned then some (.poisoned, p)
    else some (.done, { p with w := p.w.signalVec })
  | .call (.poll id cx) =>
    if p.w.rxLive id then some (.done, { p with w := (p.w.pollRx id cx).2 }) else none
  | .call (.dropRx id) =>
    if p.w.rxLive id then some (.done, { p with w := p.w.dropRx id }) else none
  | .call .cloneHandle =>
    if p.w.handles = 0 then none
    else some (.done, { p with w := { p.w with handles := p.w.handles + 1 } })
  | .call .dropHandle =>
    if p.w.handles = 0 then none else some (.done, { p with w := p.w.dropHandle })
  | .retainPanics f n =>
    if p.w.handles = 0 then none
    else if p.poisoned then some (.poisoned, p)
    else if n < p.w.values.length then
      some (.panicked,
        ⟨{ p.w with values := (p.w.values.take n).filter f ++ p.w.values.drop n }, true⟩)
    else none
  | .extendPanics as =>
    if p.w.handles = 0 then none
    else if p.poisoned then some (.poisoned, p)
    else
      match p.w.extend as with
      | some w => some (.panicked, ⟨w, true⟩)
      | none => none
  | .guardPanics =>
    if p.w.handles = 0 then none
    else if p.poisoned then some (.poisoned, p)
    else some (.panicked, ⟨p.w, true⟩)
  | .clonePanics o k =>
    if p.w.handles = 0 then none
    else if p.poisoned then some (.poisoned, p)
    else
      match clonePanics p.w o k with
      | some w => some (.panicked, ⟨w, true⟩)
      | none => none
  | .extendClonePanics as a k =>
    if p.w.handles = 0 then none
    else if p.poisoned then some (.poisoned, p)
    else
      match p.w.extend as with
      | none => none
      | some w =>
        match pushClonePanics w a k with
        | some w => some (.panicked, ⟨w, true⟩)
        | none => none
  | .subscribePanics =>
    if p.w.handles = 0 then none
    else if p.poisoned then some (.poisoned, p)
    else if p.w.values.length > 0 then some (.panicked, ⟨p.w, true⟩)
    else none

/-- Histories with panics. -/
abbrev PWorld.runs (p : PWorld α) (es : List (PEv α)) : Option (List Outcome × PWorld α) :=
  runE PWorld.step p es

end Verif.MutVecPanic
