import Verif.SignalVec1
import Verif.Flow

/-!
# `enumerate` with the signals of its indexes

`/repo/src/signal_vec.rs:1333-1456`.  `Verif/SignalVec1.lean` models the numbers in the
`Mutable<Option<usize>>` cells that `Enumerate` hands out; here every cell is a whole `Mutable`
(`Verif/Mutable.lean`), so that the signals its receiver makes from it are part of the model:
`Enumerate` holds the only `Mutable` handles and drops them, the elements carry `ReadOnlyMutable`s.

Everything happens on one thread at a time: a poll of `Enumerate` runs to its end before another
call starts.
-/

namespace Verif.EnumSig

variable {α : Type}

/-- One `Mutable<Option<usize>>` made by `Mutable::new(Some(start))`.  Ghosts: what happened to it,
and the answers. -/
structure Cell where
  start : Nat
  es : List (Mut.Ev (Option Nat))
  os : List (Mut.Obs (Option Nat))
  m : Mut.World (Option Nat)

/-- `Mutable::new(Some(index))`, `/repo/src/signal/mutable.rs:244-246`. -/
def Cell.new (index : Nat) : Cell := ⟨index, [], [], Mut.World.new (some index)⟩

/-- One call on the `Mutable` or on one of its signals. -/
def Cell.act (c : Cell) (e : Mut.Ev (Option Nat)) : Option Cell :=
  match c.m.step e with
  | none => none
  | some (o, m) => some ⟨c.start, c.es ++ [e], c.os ++ [o], m⟩

/-- The cells made by one `Enumerate`, in order of creation. -/
abbrev Store := List Cell

/-- One call on the cell number `id` or on one of its signals. -/
def act (s : Store) (id : Nat) (e : Mut.Ev (Option Nat)) : Option Store :=
  match s[id]? with
  | none => none
  | some c =>
    match c.act e with
    | none => none
    | some c => some (s.set id c)

/-- `for mutable in mutables.drain(..) { mutable.set(None); }`, `/repo/src/signal_vec.rs:1362-1365`,
`1444-1447`; each `mutable` is dropped at the end of its round. -/
def clearAll (s : Store) : List Nat → Option Store
  | [] => some s
  | id :: ids =>
    match act s id (.set none) with
    | none => none
    | some s =>
      match act s id .drop with
      | none => none
      | some s => clearAll s ids

/-- The drop of the `Vec` of `Mutable`s with the `Enumerate`, `/repo/src/signal_vec.rs:1336`. -/
def dropAll (s : Store) : List Nat → Option Store
  | [] => some s
  | id :: ids =>
    match act s id .drop with
    | none => none
    | some s => dropAll s ids

/-- `increment_indexes`, `/repo/src/signal_vec.rs:1344-1348`.  The callback leaves its argument as it
was, because `Option<usize>` is `Copy`. -/
def increment (s : Store) : List Nat → Option Store
  | [] => some s
  | id :: ids =>
    match act s id (.replaceWith fun v => (v.map (· + 1), v)) with
    | none => none
    | some s => increment s ids

/-- `decrement_indexes`, `/repo/src/signal_vec.rs:1350-1354`; `value - 1` panics at 0. -/
def decrement (s : Store) : List Nat → Option Store
  | [] => some s
  | id :: ids =>
    match s[id]?.map (·.m.value) with
    | some (some 0) => none
    | _ =>
      match act s id (.replaceWith fun v => (v.map (· - 1), v)) with
      | none => none
      | some s => decrement s ids

/-- The `Replace` loop, `/repo/src/signal_vec.rs:1370-1375`. -/
def newValues (s : Store) (index : Nat) : List α → List (Nat × α) × List Nat × Store
  | [] => ([], [], s)
  | value :: values =>
    let id := s.length
    let rest := newValues (s ++ [Cell.new index]) (index + 1) values
    ((id, value) :: rest.1, id :: rest.2.1, rest.2.2)

/-- `mutable.set(v)` and the drop of `mutable` at the end of its arm, `/repo/src/signal_vec.rs:1418-1421`,
`1428-1431`, `1437-1440`. -/
def setDrop (s : Store) (id : Nat) (v : Option Nat) : Option Store :=
  match act s id (.set v) with
  | none => none
  | some s => act s id .drop

/-- The `match change` of `Enumerate::poll_vec_change`, `/repo/src/signal_vec.rs:1360-1451`; `none` is
a panic. -/
def change (mutables : List Nat) (s : Store) :
    VecDiff α → Option (VecDiff (Nat × α) × List Nat × Store)
  | .replace values =>
    match clearAll s mutables with
    | none => none
    | some s =>
      let r := newValues s 0 values
      some (.replace r.1, r.2.1, r.2.2)
  | .insertAt index value =>
    let id := s.length
    match vInsert mutables index id with
    | none => none
    | some mutables =>
      match increment (s ++ [Cell.new index]) (mutables.drop (index + 1)) with
      | none => none
      | some s => some (.insertAt index (id, value), mutables, s)
  | .updateAt index value =>
    match mutables[index]? with
    | none => none
    | some id => some (.updateAt index (id, value), mutables, s)
  | .push value =>
    let id := s.length
    some (.push (id, value), mutables ++ [id], s ++ [Cell.new mutables.length])
  | .move oldIndex newIndex =>
    match vRemove mutables oldIndex with
    | none => none
    | some (id, mutables) =>
      match act s id .clone with
      | none => none
      | some s =>
        match vInsert mutables newIndex id with
        | none => none
        | some mutables =>
          match (if oldIndex < newIndex then decrement s ((mutables.take newIndex).drop oldIndex)
            else if newIndex < oldIndex then
              increment s ((mutables.take (oldIndex + 1)).drop (newIndex + 1))
            else some s) with
          | none => none
          | some s =>
            match setDrop s id (some newIndex) with
            | none => none
            | some s => some (.move oldIndex newIndex, mutables, s)
  | .removeAt index =>
    match vRemove mutables index with
    | none => none
    | some (id, mutables) =>
      match decrement s (mutables.drop index) with
      | none => none
      | some s =>
        match setDrop s id none with
        | none => none
        | some s => some (.removeAt index, mutables, s)
  | .pop =>
    match vPop mutables with
    | (none, _) => none
    | (some id, mutables) =>
      match setDrop s id none with
      | none => none
      | some s => some (.pop, mutables, s)
  | .clear =>
    match clearAll s mutables with
    | none => none
    | some s => some (.clear, [], s)

/-- `Enumerate`, `/repo/src/signal_vec.rs:1333-1337`, its cells, and what is known of it: whether it
has been dropped, whether it has ended, and (ghost) its answers. -/
structure World (α : Type) where
  signal : Src (Option (VecDiff α))
  mutables : List Nat
  store : Store
  gone : Bool
  ended : Bool
  outs : List (Poll (Option (VecDiff (Nat × α))))

/-- `SignalVec::enumerate`, `/repo/src/signal_vec.rs:536-542`, of a `SignalVec` that answers with the
script. -/
def World.init (script : List (Poll (Option (VecDiff α)))) : World α :=
  ⟨Src.mk' script, [], [], false, false, []⟩

/-- What a receiver does with the `ReadOnlyMutable` of an element, and with the signals made from
it: `get`, `signal`, a poll and the drop of the signal number `i` of this element,
`/repo/src/signal/mutable.rs:175-219`. -/
inductive Use where
  | get
  | signal
  | poll (i : Nat) (w : Waker)
  | dropSignal (i : Nat)

/-- The call on the `Mutable` behind it. -/
def Use.ev : Use → Mut.Ev (Option Nat)
  | .get => .get
  | .signal => .signal
  | .poll i w => .poll i w
  | .dropSignal i => .dropSignal i

/-- What can happen: a poll of the `Enumerate`, its drop, a use of the cell number `id`. -/
inductive Ev where
  | poll (w : Waker)
  | drop
  | use (id : Nat) (u : Use)

/-- The outcome of an event. -/
inductive Step (α : Type) where
  /-- the event cannot happen: its object does not exist any more, or never did -/
  | no
  | panic
  | ok (W : World α)

/-- `Enumerate::poll_vec_change`, `/repo/src/signal_vec.rs:1343-1455`. -/
def World.poll (w : Waker) (W : World α) : Step α :=
  match W.signal.poll w with
  | (.ready (some d), s) =>
    match change W.mutables W.store d with
    | none => .panic
    | some (d, mutables, store) =>
      .ok ⟨s, mutables, store, W.gone, W.ended, W.outs ++ [.ready (some d)]⟩
  | (.ready none, s) => .ok ⟨s, W.mutables, W.store, W.gone, true, W.outs ++ [.ready none]⟩
  | (.pending, s) => .ok ⟨s, W.mutables, W.store, W.gone, W.ended, W.outs ++ [.pending]⟩

/-- One event.  `Enumerate` is not polled after its end; its cells can be used by whoever received
them, also after it was dropped. -/
def World.step (W : World α) : Ev → Step α
  | .poll w => if W.gone ∨ W.ended then .no else W.poll w
  | .drop =>
    if W.gone then .no
    else match dropAll W.store W.mutables with
    | none => .panic
    | some s => .ok ⟨W.signal, [], s, true, W.ended, W.outs⟩
  | .use id u =>
    match act W.store id u.ev with
    | none => .no
    | some s => .ok ⟨W.signal, W.mutables, s, W.gone, W.ended, W.outs⟩

/-- A history. -/
def World.runs (W : World α) : List Ev → Step α
  | [] => .ok W
  | e :: es =>
    match W.step e with
    | .no => .no
    | .panic => .panic
    | .ok W => W.runs es

end Verif.EnumSig
