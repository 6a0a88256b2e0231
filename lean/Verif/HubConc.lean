import Verif.Hub
import Verif.Hist

/-!
# Broadcasting while subscribers run

`Verif/MutableVec.lean` and `Verif/MutableBTreeMap.lean` treat each call as one event.  A call holds
the `RwLock` all the time, so no other call and no subscription can come in between; but polling and
dropping a subscriber does not take the lock (`/repo/src/signal_vec.rs:3478-3480`,
`/repo/src/signal_map.rs:945-947`), so another thread, or a waker called by `unbounded_send`, can do
so between any two sends.  Likewise between the drops of the senders when the last handle goes.
Here each send and each drop of a sender is a step of its own.
-/

namespace Verif.HubConc

variable {S D O : Type}

/-- What the broadcaster knows about the container: for each call the diffs it broadcasts one after
the other and the contents it leaves (`none`: it panics), and what a new subscriber finds queued.
Instances: `/repo/src/signal_vec.rs:2874-3104` and `/repo/src/signal_map.rs:578-684`, see
`vecApi`, `mapApi`. -/
structure Api (S D O : Type) where
  eff : O → S → Option (List D × S)
  first : S → List D

/-- A call that holds the lock.  `cur` is the `senders.retain(…)` that is running
(`/repo/src/signal_vec.rs:2834-2836`, `2855-2870`; `/repo/src/signal_map.rs:536-538`, `552-563`): the
diff, the senders not yet visited, and those kept.  `rest`: the diffs of later `notify`s of the same
call.  `old` and `all` are ghosts: the contents before the call and all its diffs. -/
structure Job (S D : Type) where
  cur : Option (D × List Nat × List Nat)
  rest : List D
  old : S
  all : List D

/-- The container.  `values` is what the call that holds the lock will leave; nobody else can read
it before the lock is released.  `hub.senders` stays as before while `retain` runs, which nobody can
see either.  `closing`: the senders still to be dropped after the last handle is gone. -/
structure World (S D : Type) where
  values : S
  hub : Hub D
  job : Option (Job S D)
  closing : List Nat

/-- One handle, no subscribers. -/
def World.init (s : S) : World S D := ⟨s, ⟨[], [], 1, []⟩, none, []⟩

/-- `call` takes the lock and changes the contents; `tick` is the next step of the thread that runs
the call, or of the one that drops the last handle. -/
inductive Ev (O : Type) where
  | call (o : O)
  | tick
  | subscribe
  | poll (id : Nat) (cx : Waker)
  | dropRx (id : Nat)
  | cloneHandle
  | dropHandle
deriving DecidableEq

/-- The next step of a running call: one send; or the end of `retain`; or the next `notify`; or the
release of the lock.  Without a call: the next drop of a sender, if any. -/
def World.tick (w : World S D) : Option (World S D) :=
  match w.job with
  | none =>
    match w.closing with
    | [] => none
    | s :: ss => some { w with hub := w.hub.dropTx s, closing := ss }
  | some j =>
    match j.cur with
    | some (d, s :: todo, kept) =>
      let r := w.hub.send s d
      some { w with
        hub := r.2, job := some { j with cur := some (d, todo, if r.1 then kept ++ [s] else kept) } }
    | some (_, [], kept) =>
      some { w with hub := { w.hub with senders := kept }, job := some { j with cur := none } }
    | none =>
      match j.rest with
      | d :: ds => some { w with job := some { j with cur := some (d, w.hub.senders, []), rest := ds } }
      | [] => some { w with job := none }

/-- One event; `none` if it cannot happen now: the lock is held, the call panics, there is no such
handle or receiver, or there is nothing to do for `tick`.  A call borrows its handle, so the last
handle cannot be dropped while it runs.  The answer is that of a poll. -/
def World.step (api : Api S D O) (w : World S D) :
    Ev O → Option (Option (Poll (Option D)) × World S D)
  | .call o =>
    if w.hub.handles = 0 ∨ w.job.isSome then none else
    match api.eff o w.values with
    | none => none
    | some (ds, s) => some (none, { w with values := s, job := some ⟨none, ds, w.values, ds⟩ })
  | .tick => w.tick.map fun w => (none, w)
  | .subscribe =>
    if w.hub.handles = 0 ∨ w.job.isSome then none
    else some (none, { w with hub := w.hub.subscribe (api.first w.values) })
  | .poll id cx =>
    if w.hub.rxLive id then
      some (some (w.hub.pollRx id cx).1, { w with hub := (w.hub.pollRx id cx).2 })
    else none
  | .dropRx id =>
    if w.hub.rxLive id then some (none, { w with hub := w.hub.dropRx id }) else none
  | .cloneHandle =>
    if w.hub.handles = 0 then none
    else some (none, { w with hub := { w.hub with handles := w.hub.handles + 1 } })
  | .dropHandle =>
    if w.hub.handles = 0 then none
    else if w.hub.handles = 1 then
      if w.job.isSome then none
      else some (none, { w with
        hub := { w.hub with handles := 0, senders := [] }, closing := w.hub.senders })
    else some (none, { w with hub := { w.hub with handles := w.hub.handles - 1 } })

/-- A history, with the answers to the polls. -/
abbrev World.runs (api : Api S D O) (w : World S D) (es : List (Ev O)) :=
  runE (World.step api) w es

/-! ## Specification vocabulary -/

/-- The diff that subscriber `k` gets from one event: a `Ready(Some(diff))` answer to its poll. -/
def gets (k : Nat) : Ev O → Option (Poll (Option D)) → List D
  | .poll id _, some (.ready (some d)) => if id = k then [d] else []
  | _, _ => []

/-- The diffs that subscriber `k` got in a history with these answers. -/
def got (k : Nat) : List (Ev O) → List (Option (Poll (Option D))) → List D
  | e :: es, o :: os => gets k e o ++ got k es os
  | _, _ => []

/-- The step of the thread that runs a call. -/
def Ev.isTick : Ev O → Bool
  | .tick => true
  | _ => false

/-- What other threads can do while a call runs. -/
inductive Ev.Other : Ev O → Prop where
  | tick : Other .tick
  | poll (id cx) : Other (.poll id cx)
  | dropRx (id) : Other (.dropRx id)
  | cloneHandle : Other .cloneHandle

end Verif.HubConc
