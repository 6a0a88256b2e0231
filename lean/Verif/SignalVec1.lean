import Verif.Input

/-!
# Model of the single-input `SignalVec` combinators

`map`, `filter`, `filter_map`, `enumerate`, `to_signal_map`, `len`, `is_empty`, `sum`, and the
sources `always`, `from_stream` of `/repo/src/signal_vec.rs`.

Each `poll` takes the waker of the `Context` and the state, and returns the answer and the new
state; `none` is a panic.  Callbacks with state (`FnMut`) are `κ → α → β × κ`: the state of the
closure is part of the combinator.
-/

namespace Verif

variable {α β κ : Type}

/-! ## Sources -/

/-- `signal_vec::Always`, `/repo/src/signal_vec.rs:591-613`. -/
structure VAlways (α : Type) where
  values : Option (List α)
deriving DecidableEq, Repr

/-- `Always::poll_vec_change`, `/repo/src/signal_vec.rs:600-602`; `always` is `605-613`. -/
def VAlways.poll (_w : Waker) (s : VAlways α) :
    Option (Poll (Option (VecDiff α)) × VAlways α) :=
  some (.ready (s.values.map .replace), ⟨none⟩)

/-- `StreamSignalVec`, `/repo/src/signal_vec.rs:619-642`. -/
structure VFromStream (α : Type) where
  stream : Src (Option α)
deriving DecidableEq, Repr

/-- `StreamSignalVec::poll_vec_change`, `/repo/src/signal_vec.rs:627-631`. -/
def VFromStream.poll (w : Waker) (s : VFromStream α) :
    Option (Poll (Option (VecDiff α)) × VFromStream α) :=
  match s.stream.poll w with
  | (.ready (some value), st) => some (.ready (some (.push value)), ⟨st⟩)
  | (.ready none, st) => some (.ready none, ⟨st⟩)
  | (.pending, st) => some (.pending, ⟨st⟩)

/-! ## `map` -/

/-- `values.into_iter().map(callback).collect()` with a closure that has state. -/
def mapS (f : κ → α → β × κ) : κ → List α → List β × κ
  | k, [] => ([], k)
  | k, a :: as =>
    let r := f k a
    let rest := mapS f r.2 as
    (r.1 :: rest.1, rest.2)

/-- `VecDiff::map` with a closure that has state, `/repo/src/signal_vec.rs:65-77`. -/
def VecDiff.mapS (f : κ → α → β × κ) (k : κ) : VecDiff α → VecDiff β × κ
  | .replace values => let r := Verif.mapS f k values; (.replace r.1, r.2)
  | .insertAt index value => let r := f k value; (.insertAt index r.1, r.2)
  | .updateAt index value => let r := f k value; (.updateAt index r.1, r.2)
  | .push value => let r := f k value; (.push r.1, r.2)
  | .removeAt index => (.removeAt index, k)
  | .move oldIndex newIndex => (.move oldIndex newIndex, k)
  | .pop => (.pop, k)
  | .clear => (.clear, k)

/-- `signal_vec::Map`, `/repo/src/signal_vec.rs:669-673`, with the state of its callback. -/
structure VMap (κ α : Type) where
  signal : Src (Option (VecDiff α))
  st : κ

/-- `SignalVec::map`, `/repo/src/signal_vec.rs:200-207`. -/
def VMap.init (k : κ) (script : List (Poll (Option (VecDiff α)))) : VMap κ α :=
  ⟨Src.mk' script, k⟩

/-- `Map::poll_vec_change`, `/repo/src/signal_vec.rs:682-686`. -/
def VMap.poll (f : κ → α → β × κ) (w : Waker) (m : VMap κ α) :
    Option (Poll (Option (VecDiff β)) × VMap κ α) :=
  match m.signal.poll w with
  | (.ready (some change), s) =>
    let r := change.mapS f m.st
    some (.ready (some r.1), ⟨s, r.2⟩)
  | (.ready none, s) => some (.ready none, ⟨s, m.st⟩)
  | (.pending, s) => some (.pending, ⟨s, m.st⟩)

/-! ## `filter`, `filter_map` -/

/-- `find_index`, `/repo/src/signal_vec.rs:2010-2012`; the slice panics if `index > len`. -/
def findIndex (indexes : List Bool) (index : Nat) : Option Nat :=
  if index ≤ indexes.length then some ((indexes.take index).filter id).length else none

/-- The `filter_map(..).collect()` of the `Replace` case, `/repo/src/signal_vec.rs:2027-2031`:
collected values, the pushed flags, and the closure state. -/
def filterMapS (f : κ → α → Option β × κ) : κ → List α → List β × List Bool × κ
  | k, [] => ([], [], k)
  | k, a :: as =>
    let r := f k a
    let rest := filterMapS f r.2 as
    (r.1.toList ++ rest.1, r.1.isSome :: rest.2.1, rest.2.2)

/-- The body of the loop in `poll_filter_map`, `/repo/src/signal_vec.rs:2022-2116`, on one change.
The loop variables are `indexes` and the state of the callback. -/
def filterMapBody (f : κ → α → Option β × κ) (s : List Bool × κ) (change : VecDiff α) :
    Ctl (List Bool × κ) (VecDiff β) :=
  let (indexes, k) := s
  match change with
  | .replace values =>
    let r := filterMapS f k values
    .ret (r.2.1, r.2.2) (.replace r.1)
  | .insertAt index value =>
    match f k value with
    | (some value, k) =>
      match vInsert indexes index true with
      | none => .panic
      | some indexes =>
        match findIndex indexes index with
        | none => .panic
        | some i => .ret (indexes, k) (.insertAt i value)
    | (none, k) =>
      match vInsert indexes index false with
      | none => .panic
      | some indexes => .cont (indexes, k)
  | .updateAt index value =>
    match f k value with
    | (some value, k) =>
      match indexes[index]? with
      | none => .panic
      | some true =>
        match findIndex indexes index with
        | none => .panic
        | some i => .ret (indexes, k) (.updateAt i value)
      | some false =>
        let indexes := indexes.set index true
        match findIndex indexes index with
        | none => .panic
        | some i => .ret (indexes, k) (.insertAt i value)
    | (none, k) =>
      match indexes[index]? with
      | none => .panic
      | some true =>
        let indexes := indexes.set index false
        match findIndex indexes index with
        | none => .panic
        | some i => .ret (indexes, k) (.removeAt i)
      | some false => .cont (indexes, k)
  | .move oldIndex newIndex =>
    match vRemove indexes oldIndex with
    | none => .panic
    | some (true, indexes) =>
      match vInsert indexes newIndex true with
      | none => .panic
      | some indexes =>
        match findIndex indexes oldIndex, findIndex indexes newIndex with
        | some i, some j => .ret (indexes, k) (.move i j)
        | _, _ => .panic
    | some (false, indexes) =>
      match vInsert indexes newIndex false with
      | none => .panic
      | some indexes => .cont (indexes, k)
  | .removeAt index =>
    match vRemove indexes index with
    | none => .panic
    | some (true, indexes) =>
      match findIndex indexes index with
      | none => .panic
      | some i => .ret (indexes, k) (.removeAt i)
    | some (false, indexes) => .cont (indexes, k)
  | .push value =>
    match f k value with
    | (some value, k) => .ret (indexes ++ [true], k) (.push value)
    | (none, k) => .cont (indexes ++ [false], k)
  | .pop =>
    match vPop indexes with
    | (none, _) => .panic
    | (some true, indexes) => .ret (indexes, k) .pop
    | (some false, indexes) => .cont (indexes, k)
  | .clear => .ret ([], k) .clear

/-- `FilterMap`, `/repo/src/signal_vec.rs:2155-2161`; `Filter` (`2125-2131`) has the same fields. -/
structure VFilterMap (κ α : Type) where
  indexes : List Bool
  signal : Src (Option (VecDiff α))
  st : κ

/-- `SignalVec::filter_map` (`/repo/src/signal_vec.rs:346-354`) and `filter` (`322-330`). -/
def VFilterMap.init (k : κ) (script : List (Poll (Option (VecDiff α)))) : VFilterMap κ α :=
  ⟨[], Src.mk' script, k⟩

/-- `FilterMap::poll_vec_change` (`/repo/src/signal_vec.rs:2168-2171`) with `poll_filter_map`
(`2014-2119`). -/
def VFilterMap.poll (f : κ → α → Option β × κ) (w : Waker) (m : VFilterMap κ α) :
    Option (Poll (Option (VecDiff β)) × VFilterMap κ α) :=
  match m.signal.loop w (filterMapBody f) (m.indexes, m.st) with
  | (.pending, (ix, k), s) => some (.pending, ⟨ix, s, k⟩)
  | (.ended, (ix, k), s) => some (.ready none, ⟨ix, s, k⟩)
  | (.ret d, (ix, k), s) => some (.ready (some d), ⟨ix, s, k⟩)
  | (.panic, _, _) => none

/-- `Filter::poll_vec_change` (`/repo/src/signal_vec.rs:2138-2148`): `poll_filter_map` with the
closure that keeps the value if the callback says so. -/
def VFilter.poll (f : κ → α → Bool × κ) (w : Waker) (m : VFilterMap κ α) :
    Option (Poll (Option (VecDiff α)) × VFilterMap κ α) :=
  VFilterMap.poll (fun k value => let r := f k value; (if r.1 then some value else none, r.2)) w m

/-! ## `enumerate` -/

/-- The `Mutable<Option<usize>>` cells created by an `Enumerate`, in order of creation; a cell is
named by its number.  Only the current value is modelled here; the signals of a `Mutable` are
modelled in `Verif/Mutable.lean`. -/
abbrev Cells := List (Option Nat)

/-- `Enumerate`, `/repo/src/signal_vec.rs:1333-1337`; `mutables` are cell numbers. -/
structure VEnumerate (α : Type) where
  signal : Src (Option (VecDiff α))
  mutables : List Nat
  cells : Cells
deriving DecidableEq, Repr

/-- `SignalVec::enumerate`, `/repo/src/signal_vec.rs:536-542`. -/
def VEnumerate.init (script : List (Poll (Option (VecDiff α)))) : VEnumerate α :=
  ⟨Src.mk' script, [], []⟩

/-- `mutable.set(v)`. -/
def cellSet (cells : Cells) (id : Nat) (v : Option Nat) : Cells := cells.set id v

/-- `for mutable in mutables.drain(..) { mutable.set(None) }`, `/repo/src/signal_vec.rs:1362-1365`,
`1444-1447`. -/
def cellsClear (cells : Cells) : List Nat → Cells
  | [] => cells
  | id :: ids => cellsClear (cellSet cells id none) ids

/-- `increment_indexes`, `/repo/src/signal_vec.rs:1344-1348`. -/
def incrementIndexes (cells : Cells) : List Nat → Cells
  | [] => cells
  | id :: ids => incrementIndexes (cells.modify id (fun v => v.map (· + 1))) ids

/-- `decrement_indexes`, `/repo/src/signal_vec.rs:1350-1354`; `value - 1` panics at 0. -/
def decrementIndexes (cells : Cells) : List Nat → Option Cells
  | [] => some cells
  | id :: ids =>
    match cells[id]? with
    | some (some 0) => none
    | _ => decrementIndexes (cells.modify id (fun v => v.map (· - 1))) ids

/-- The `Replace` loop, `/repo/src/signal_vec.rs:1370-1375`: one new cell per value. -/
def enumValues (cells : Cells) (index : Nat) : List α → List (Nat × α) × List Nat × Cells
  | [] => ([], [], cells)
  | value :: values =>
    let id := cells.length
    let rest := enumValues (cells ++ [some index]) (index + 1) values
    ((id, value) :: rest.1, id :: rest.2.1, rest.2.2)

/-- The `match change` of `Enumerate::poll_vec_change`, `/repo/src/signal_vec.rs:1360-1451`. -/
def enumChange (mutables : List Nat) (cells : Cells) :
    VecDiff α → Option (VecDiff (Nat × α) × List Nat × Cells)
  | .replace values =>
    let cells := cellsClear cells mutables
    let r := enumValues cells 0 values
    some (.replace r.1, r.2.1, r.2.2)
  | .insertAt index value =>
    let id := cells.length
    let cells := cells ++ [some index]
    match vInsert mutables index id with
    | none => none
    | some mutables =>
      some (.insertAt index (id, value), mutables,
        incrementIndexes cells (mutables.drop (index + 1)))
  | .updateAt index value =>
    match mutables[index]? with
    | none => none
    | some id => some (.updateAt index (id, value), mutables, cells)
  | .push value =>
    let id := cells.length
    let cells := cells ++ [some mutables.length]
    some (.push (id, value), mutables ++ [id], cells)
  | .move oldIndex newIndex =>
    match vRemove mutables oldIndex with
    | none => none
    | some (id, mutables) =>
      match vInsert mutables newIndex id with
      | none => none
      | some mutables =>
        if oldIndex < newIndex then
          match decrementIndexes cells ((mutables.take newIndex).drop oldIndex) with
          | none => none
          | some cells =>
            some (.move oldIndex newIndex, mutables, cellSet cells id (some newIndex))
        else if newIndex < oldIndex then
          let cells := incrementIndexes cells ((mutables.take (oldIndex + 1)).drop (newIndex + 1))
          some (.move oldIndex newIndex, mutables, cellSet cells id (some newIndex))
        else some (.move oldIndex newIndex, mutables, cellSet cells id (some newIndex))
  | .removeAt index =>
    match vRemove mutables index with
    | none => none
    | some (id, mutables) =>
      match decrementIndexes cells (mutables.drop index) with
      | none => none
      | some cells => some (.removeAt index, mutables, cellSet cells id none)
  | .pop =>
    match vPop mutables with
    | (none, _) => none
    | (some id, mutables) => some (.pop, mutables, cellSet cells id none)
  | .clear => some (.clear, [], cellsClear cells mutables)

/-- `Enumerate::poll_vec_change`, `/repo/src/signal_vec.rs:1343-1455`. -/
def VEnumerate.poll (w : Waker) (m : VEnumerate α) :
    Option (Poll (Option (VecDiff (Nat × α))) × VEnumerate α) :=
  match m.signal.poll w with
  | (.ready (some change), s) =>
    match enumChange m.mutables m.cells change with
    | none => none
    | some (d, mutables, cells) => some (.ready (some d), ⟨s, mutables, cells⟩)
  | (.ready none, s) => some (.ready none, ⟨s, m.mutables, m.cells⟩)
  | (.pending, s) => some (.pending, ⟨s, m.mutables, m.cells⟩)

/-! ## `to_signal_map`, `to_signal_cloned`, `sum` -/

/-- `ToSignalMap`, `/repo/src/signal_vec.rs:1239-1246`; `SumSignal` (`2178-2183`) has the same
fields. -/
structure VToSignal (α : Type) where
  signal : Inp (Option (VecDiff α))
  first : Bool
  values : List α
deriving DecidableEq, Repr

/-- `to_signal_map` (`/repo/src/signal_vec.rs:266-275`), `sum` (`358-366`). -/
def VToSignal.init (script : List (Poll (Option (VecDiff α)))) : VToSignal α :=
  ⟨Inp.mk' script, true, []⟩

/-- The loop body of `ToSignalMap::poll_change`, `/repo/src/signal_vec.rs:1267-1308`: loop
variables `values`, `changed`. -/
def toSignalBody (s : List α × Bool) (change : VecDiff α) : Ctl (List α × Bool) Empty :=
  let (values, _changed) := s
  match change with
  | .replace newValues => .cont (newValues, true)
  | .insertAt index value =>
    match vInsert values index value with
    | none => .panic
    | some values => .cont (values, true)
  | .updateAt index value =>
    match vSet values index value with
    | none => .panic
    | some values => .cont (values, true)
  | .removeAt index =>
    match vRemove values index with
    | none => .panic
    | some (_, values) => .cont (values, true)
  | .move oldIndex newIndex =>
    match vRemove values oldIndex with
    | none => .panic
    | some (old, values) =>
      match vInsert values newIndex old with
      | none => .panic
      | some values => .cont (values, true)
  | .push value => .cont (values ++ [value], true)
  | .pop =>
    match vPop values with
    | (none, _) => .panic
    | (some _, values) => .cont (values, true)
  | .clear => .cont ([], true)

/-- `ToSignalMap::poll_change`, `/repo/src/signal_vec.rs:1253-1326`.  The callback is a pure
function.  `to_signal_cloned` (`278-284`, `1214-1233`) is the case `callback = id`. -/
def VToSignal.poll (callback : List α → β) (w : Waker) (m : VToSignal α) :
    Option (Poll (Option β) × VToSignal α) :=
  match m.signal.loop w toSignalBody (m.values, false) with
  | (.panic, _, _) => none
  | (.ret _, _, _) => none
  | (stop, (values, changed), s) =>
    if changed || m.first then some (.ready (some (callback values)), ⟨s, false, values⟩)
    else if stop = .ended then some (.ready none, ⟨s, m.first, values⟩)
    else some (.pending, ⟨s, m.first, values⟩)

/-- The loop body of `SumSignal::poll_change`, `/repo/src/signal_vec.rs:2204-2251`: as
`to_signal_map`, but a `Move` is not flagged as a change. -/
def sumBody (s : List α × Bool) (change : VecDiff α) : Ctl (List α × Bool) Empty :=
  let (values, changed) := s
  match change with
  | .replace newValues => .cont (newValues, true)
  | .insertAt index value =>
    match vInsert values index value with
    | none => .panic
    | some values => .cont (values, true)
  | .push value => .cont (values ++ [value], true)
  | .updateAt index value =>
    match vSet values index value with
    | none => .panic
    | some values => .cont (values, true)
  | .move oldIndex newIndex =>
    match vRemove values oldIndex with
    | none => .panic
    | some (value, values) =>
      match vInsert values newIndex value with
      | none => .panic
      | some values => .cont (values, changed)
  | .removeAt index =>
    match vRemove values index with
    | none => .panic
    | some (_, values) => .cont (values, true)
  | .pop =>
    match vPop values with
    | (none, _) => .panic
    | (some _, values) => .cont (values, true)
  | .clear => .cont ([], true)

/-- `SumSignal::poll_change`, `/repo/src/signal_vec.rs:2190-2269`.  `Sum::sum` over the items is
`foldl add zero`. -/
def VSum.poll (add : α → α → α) (zero : α) (w : Waker) (m : VToSignal α) :
    Option (Poll (Option α) × VToSignal α) :=
  match m.signal.loop w sumBody (m.values, false) with
  | (.panic, _, _) => none
  | (.ret _, _, _) => none
  | (stop, (values, changed), s) =>
    if changed || m.first then some (.ready (some (values.foldl add zero)), ⟨s, false, values⟩)
    else if stop = .ended then some (.ready none, ⟨s, m.first, values⟩)
    else some (.pending, ⟨s, m.first, values⟩)

/-! ## `len`, `is_empty` -/

/-- `Len`, `/repo/src/signal_vec.rs:1914-1919`. -/
structure VLen (α : Type) where
  signal : Inp (Option (VecDiff α))
  first : Bool
  len : Nat
deriving DecidableEq, Repr

/-- `SignalVec::len`, `/repo/src/signal_vec.rs:519-525`. -/
def VLen.init (script : List (Poll (Option (VecDiff α)))) : VLen α := ⟨Inp.mk' script, true, 0⟩

/-- The loop body of `Len::poll_change`, `/repo/src/signal_vec.rs:1938-1969`: loop variables `len`,
`changed`.  `*len -= 1` panics at 0. -/
def lenBody (s : Nat × Bool) (change : VecDiff α) : Ctl (Nat × Bool) Empty :=
  let (len, changed) := s
  match change with
  | .replace values =>
    let newLen := values.length
    if len ≠ newLen then .cont (newLen, true) else .cont (len, changed)
  | .insertAt _ _ => .cont (len + 1, true)
  | .push _ => .cont (len + 1, true)
  | .updateAt _ _ => .cont (len, changed)
  | .move _ _ => .cont (len, changed)
  | .removeAt _ => if len = 0 then .panic else .cont (len - 1, true)
  | .pop => if len = 0 then .panic else .cont (len - 1, true)
  | .clear => if len ≠ 0 then .cont (0, true) else .cont (len, changed)

/-- `Len::poll_change`, `/repo/src/signal_vec.rs:1924-1988`. -/
def VLen.poll (w : Waker) (m : VLen α) : Option (Poll (Option Nat) × VLen α) :=
  match m.signal.loop w lenBody (m.len, false) with
  | (.panic, _, _) => none
  | (.ret _, _, _) => none
  | (stop, (len, changed), s) =>
    if changed || m.first then some (.ready (some len), ⟨s, false, len⟩)
    else if stop = .ended then some (.ready none, ⟨s, m.first, len⟩)
    else some (.pending, ⟨s, m.first, len⟩)

/-- `IsEmpty`, `/repo/src/signal_vec.rs:1880-1884`. -/
structure VIsEmpty (α : Type) where
  len : VLen α
  old : Option Bool
deriving DecidableEq, Repr

/-- `SignalVec::is_empty`. -/
def VIsEmpty.init (script : List (Poll (Option (VecDiff α)))) : VIsEmpty α :=
  ⟨VLen.init script, none⟩

/-- `IsEmpty::poll_change`, `/repo/src/signal_vec.rs:1889-1907`. -/
def VIsEmpty.poll (w : Waker) (m : VIsEmpty α) : Option (Poll (Option Bool) × VIsEmpty α) :=
  match m.len.poll w with
  | none => none
  | some (.ready (some len), l) =>
    let new := some (len == 0)
    if m.old ≠ new then some (.ready new, ⟨l, new⟩)
    else some (.pending, ⟨l, m.old⟩)
  | some (.ready none, l) => some (.ready none, ⟨l, m.old⟩)
  | some (.pending, l) => some (.pending, ⟨l, m.old⟩)

end Verif
