import Verif.Input

/-!
# Model of `sort_by_cloned`

The two functions of the standard library it uses, `slice::sort_unstable_by` and
`slice::binary_search_by`, are not modelled; the combinator is parametrised by them (`SliceFns`), and
the theorems hold for all functions that satisfy what the documentation of the standard library
promises (`SliceFns.Lawful`).
-/

namespace Verif

variable {α : Type}

/-- `slice::sort_unstable_by(compare)` and `slice::binary_search_by(f)` on a `Vec<usize>`.
`.ok i` is Rust's `Ok(i)`, `.error i` is `Err(i)`. -/
structure SliceFns where
  sort : (Nat → Nat → Ordering) → List Nat → List Nat
  search : (Nat → Ordering) → List Nat → Except Nat Nat

/-- The comparison of two indexes, `/repo/src/signal_vec.rs:2319`, `2407`:
`compare(&values[a], &values[b]).then_with(|| a.cmp(&b))`.  The callback is a pure function.  The
second case is an index out of bounds; the callers check for it beforehand. -/
def sortCmp (cmp : α → α → Ordering) (values : List α) (a b : Nat) : Ordering :=
  match values[a]?, values[b]? with
  | some x, some y => (cmp x y).then (compare a b)
  | _, _ => .eq

/-- `binary_search`, `/repo/src/signal_vec.rs:2315-2320`.  Simplification: panics (`none`) if any of
the indexes is out of bounds, the code only if the search looks at one. -/
def sortSearch (S : SliceFns) (cmp : α → α → Ordering) (values : List α) (indexes : List Nat)
    (index : Nat) : Option (Except Nat Nat) :=
  if index < values.length && indexes.all (· < values.length) then
    some (S.search (fun i => sortCmp cmp values i index) indexes)
  else none

/-- `binary_search_insert`, `/repo/src/signal_vec.rs:2322-2327`. -/
def sortSearchInsert (S : SliceFns) (cmp : α → α → Ordering) (values : List α) (indexes : List Nat)
    (index : Nat) : Option Nat :=
  match sortSearch S cmp values indexes index with
  | some (.error i) => some i
  | _ => none

/-- `binary_search_remove`, `/repo/src/signal_vec.rs:2329-2331`. -/
def sortSearchRemove (S : SliceFns) (cmp : α → α → Ordering) (values : List α) (indexes : List Nat)
    (index : Nat) : Option Nat :=
  match sortSearch S cmp values indexes index with
  | some (.ok i) => some i
  | _ => none

/-- `increment_indexes`, `/repo/src/signal_vec.rs:2333-2341`. -/
def incIndexes (indexes : List Nat) (start : Nat) : List Nat :=
  indexes.map fun i => if i ≥ start then i + 1 else i

/-- `decrement_indexes`, `/repo/src/signal_vec.rs:2343-2351`. -/
def decIndexes (indexes : List Nat) (start : Nat) : List Nat :=
  indexes.map fun i => if i > start then i - 1 else i

/-- `insert_at`, `/repo/src/signal_vec.rs:2353-2369`. -/
def sortInsertAt (indexes : List Nat) (sortedIndex index : Nat) (value : α) :
    Option (List Nat × VecDiff α) :=
  if sortedIndex = indexes.length then some (indexes ++ [index], .push value)
  else
    match vInsert indexes sortedIndex index with
    | some indexes => some (indexes, .insertAt sortedIndex value)
    | none => none

/-- `remove_at`, `/repo/src/signal_vec.rs:2371-2384`; `indexes.len() - 1` overflows on an empty
vector. -/
def sortRemoveAt (indexes : List Nat) (sortedIndex : Nat) : Option (List Nat × VecDiff α) :=
  if indexes.length = 0 then none
  else if sortedIndex = indexes.length - 1 then some ((vPop indexes).2, .pop)
  else
    match vRemove indexes sortedIndex with
    | some (_, indexes) => some (indexes, .removeAt sortedIndex)
    | none => none

/-- `new_indexes.iter().map(|i| new_values[*i].clone()).collect()`, `/repo/src/signal_vec.rs:2411`. -/
def gather (values : List α) : List Nat → Option (List α)
  | [] => some []
  | i :: is =>
    match values[i]?, gather values is with
    | some a, some as => some (a :: as)
    | _, _ => none

/-- `SortByCloned`, `/repo/src/signal_vec.rs:2302-2309`. -/
structure VSort (α : Type) where
  pending : Option (VecDiff α)
  values : List α
  indexes : List Nat
  signal : Src (Option (VecDiff α))

/-- `SignalVec::sort_by_cloned`, `/repo/src/signal_vec.rs:484-494`. -/
def VSort.init (script : List (Poll (Option (VecDiff α)))) : VSort α :=
  ⟨none, [], [], Src.mk' script⟩

/-- The body of the loop, `/repo/src/signal_vec.rs:2401-2529`, on one change.  The loop variables
are `values` and `indexes`; the result is the answer and the new `pending`. -/
def sortBody (S : SliceFns) (cmp : α → α → Ordering) (s : List α × List Nat) (change : VecDiff α) :
    Ctl (List α × List Nat) (VecDiff α × Option (VecDiff α)) :=
  let (values, indexes) := s
  match change with
  | .replace newValues =>
    let newIndexes := S.sort (sortCmp cmp newValues) (List.range newValues.length)
    match gather newValues newIndexes with
    | none => .panic
    | some out => .ret (newValues, newIndexes) (.replace out, none)
  | .insertAt index value =>
    match vInsert values index value with
    | none => .panic
    | some values =>
      let indexes := incIndexes indexes index
      match sortSearchInsert S cmp values indexes index with
      | none => .panic
      | some sortedIndex =>
        match sortInsertAt indexes sortedIndex index value with
        | none => .panic
        | some (indexes, d) => .ret (values, indexes) (d, none)
  | .push value =>
    let index := values.length
    let values := values ++ [value]
    match sortSearchInsert S cmp values indexes index with
    | none => .panic
    | some sortedIndex =>
      match sortInsertAt indexes sortedIndex index value with
      | none => .panic
      | some (indexes, d) => .ret (values, indexes) (d, none)
  | .updateAt index value =>
    match sortSearchRemove S cmp values indexes index with
    | none => .panic
    | some oldIndex =>
      match (sortRemoveAt indexes oldIndex : Option (List Nat × VecDiff α)) with
      | none => .panic
      | some (indexes, oldOutput) =>
        match vSet values index value with
        | none => .panic
        | some values =>
          match sortSearchInsert S cmp values indexes index with
          | none => .panic
          | some newIndex =>
            if oldIndex = newIndex then
              match vInsert indexes newIndex index with
              | none => .panic
              | some indexes => .ret (values, indexes) (.updateAt newIndex value, none)
            else
              match sortInsertAt indexes newIndex index value with
              | none => .panic
              | some (indexes, newOutput) => .ret (values, indexes) (oldOutput, some newOutput)
  | .removeAt index =>
    match sortSearchRemove S cmp values indexes index with
    | none => .panic
    | some sortedIndex =>
      match vRemove values index with
      | none => .panic
      | some (_, values) =>
        let indexes := decIndexes indexes index
        match (sortRemoveAt indexes sortedIndex : Option (List Nat × VecDiff α)) with
        | none => .panic
        | some (indexes, d) => .ret (values, indexes) (d, none)
  | .move oldIndex newIndex =>
    match sortSearchRemove S cmp values indexes oldIndex with
    | none => .panic
    | some oldSorted =>
      match vRemove values oldIndex with
      | none => .panic
      | some (value, values) =>
        let indexes := decIndexes indexes oldIndex
        match vRemove indexes oldSorted with
        | none => .panic
        | some (_, indexes) =>
          match vInsert values newIndex value with
          | none => .panic
          | some values =>
            let indexes := incIndexes indexes newIndex
            match sortSearchInsert S cmp values indexes newIndex with
            | none => .panic
            | some newSorted =>
              match vInsert indexes newSorted newIndex with
              | none => .panic
              | some indexes =>
                if oldSorted = newSorted then .cont (values, indexes)
                else .ret (values, indexes) (.move oldSorted newSorted, none)
  | .pop =>
    if values.length = 0 then .panic
    else
      let index := values.length - 1
      match sortSearchRemove S cmp values indexes index with
      | none => .panic
      | some sortedIndex =>
        let values := (vPop values).2
        match (sortRemoveAt indexes sortedIndex : Option (List Nat × VecDiff α)) with
        | none => .panic
        | some (indexes, d) => .ret (values, indexes) (d, none)
  | .clear => .ret ([], []) (.clear, none)

/-- `SortByCloned::poll_vec_change`, `/repo/src/signal_vec.rs:2395-2533`. -/
def VSort.poll (S : SliceFns) (cmp : α → α → Ordering) (w : Waker) (m : VSort α) :
    Option (Poll (Option (VecDiff α)) × VSort α) :=
  match m.pending with
  | some value => some (.ready (some value), ⟨none, m.values, m.indexes, m.signal⟩)
  | none =>
    match m.signal.loop w (sortBody S cmp) (m.values, m.indexes) with
    | (.panic, _) => none
    | (.pending, (values, indexes), src) => some (.pending, ⟨none, values, indexes, src⟩)
    | (.ended, (values, indexes), src) => some (.ready none, ⟨none, values, indexes, src⟩)
    | (.ret (d, p), (values, indexes), src) => some (.ready (some d), ⟨p, values, indexes, src⟩)

end Verif
