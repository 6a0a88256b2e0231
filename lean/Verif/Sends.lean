import Verif.SortSpec
import Verif.MapDiff
import Verif.Checks

/-!
# Specification for C98: the changes a combinator sends

What a combinator sends for one change is given by the contents of its input before and after the change.
-/

namespace Verif

variable {α β δ ε τ K V : Type}

/-- What is sent for a list of changes: `apply` says what the contents become, `says` what is sent for one change, given
the contents before and after it. -/
def sends (apply : δ → τ → Option τ) (says : τ → τ → δ → List ε) : τ → List δ → List ε
  | _, [] => []
  | before, d :: ds =>
    match apply d before with
    | none => []
    | some after => says before after d ++ sends apply says after ds

/-- How many of the first `i` elements are kept. -/
def keptBefore (f : α → Option β) (xs : List α) (i : Nat) : Nat := ((xs.take i).filterMap f).length

/-- What `filter_map` sends. -/
def filterSays (f : α → Option β) (before after : List α) : VecDiff α → List (VecDiff β)
  | .replace values => [.replace (values.filterMap f)]
  | .insertAt i a => (f a).toList.map (.insertAt (keptBefore f before i))
  | .updateAt i a =>
    match before[i]?.bind f, f a with
    | some _, some b => [.updateAt (keptBefore f before i) b]
    | some _, none => [.removeAt (keptBefore f before i)]
    | none, some b => [.insertAt (keptBefore f before i) b]
    | none, none => []
  | .removeAt i => if (before[i]?.bind f).isSome then [.removeAt (keptBefore f before i)] else []
  -- both positions are counted after the move, which is wrong for `i` if `j < i` (C11)
  | .move i j => if (before[i]?.bind f).isSome then [.move (keptBefore f after i) (keptBefore f after j)] else []
  | .push a => (f a).toList.map .push
  | .pop => if (before.getLast?.bind f).isSome then [.pop] else []
  | .clear => [.clear]

/-- Whether the element at `j` comes before the element at `i` in the sorted list: it is smaller, or equal and earlier. -/
def comesBefore (cmp : α → α → Ordering) (xs : List α) (i j : Nat) : Bool :=
  match xs[j]?, xs[i]? with
  | some b, some a => cmp b a == .lt || (cmp b a == .eq && decide (j < i))
  | _, _ => false

/-- The position that the element at `i` has in the sorted list. -/
def rank (cmp : α → α → Ordering) (xs : List α) (i : Nat) : Nat :=
  ((List.range xs.length).filter (comesBefore cmp xs i)).length

/-- Inserting at `p` into `n` elements. -/
def insertion (n p : Nat) (a : α) : VecDiff α := if p = n then .push a else .insertAt p a

/-- Removing at `p` from `n` elements. -/
def removal (n p : Nat) : VecDiff α := if p + 1 = n then .pop else .removeAt p

/-- What `sort_by_cloned` sends. -/
def sortSays (cmp : α → α → Ordering) (before after : List α) : VecDiff α → List (VecDiff α)
  | .replace values => [.replace (sortedBy cmp values)]
  | .insertAt i a => [insertion before.length (rank cmp after i) a]
  | .push a => [insertion before.length (rank cmp after before.length) a]
  | .updateAt i a =>
    if rank cmp before i = rank cmp after i then [.updateAt (rank cmp after i) a]
    else [removal before.length (rank cmp before i), insertion (before.length - 1) (rank cmp after i) a]
  | .removeAt i => [removal before.length (rank cmp before i)]
  | .pop => [removal before.length (rank cmp before after.length)]
  | .move i j => if rank cmp before i = rank cmp after j then [] else [.move (rank cmp before i) (rank cmp after j)]
  | .clear => [.clear]

/-! ### `chain` -/

/-- What `chain` takes from its two inputs at a time.  It may take a `Replace` of both, or a `Clear` of both, together. -/
inductive Taking (α : Type) where
  | left (d : VecDiff α)
  | right (d : VecDiff α)
  | replaces (l r : List α)
  | clears

/-- What was taken from the left input. -/
def Taking.lefts : Taking α → List (VecDiff α)
  | .left d => [d]
  | .right _ => []
  | .replaces l _ => [.replace l]
  | .clears => [.clear]

/-- What was taken from the right input. -/
def Taking.rights : Taking α → List (VecDiff α)
  | .left _ => []
  | .right d => [d]
  | .replaces _ r => [.replace r]
  | .clears => [.clear]

/-- What `chain` sends for a change of the left input: `m` elements are left, `n` right. -/
def leftSays (m n : Nat) : VecDiff α → List (VecDiff α)
  | .replace values =>
    if n = 0 then [.replace values]
    else (List.range m).reverse.map .removeAt ++ values.zipIdx.map fun v => .insertAt v.2 v.1
  | .push a => if n = 0 then [.push a] else [.insertAt m a]
  | .pop => if n = 0 then [.pop] else [.removeAt (m - 1)]
  | .clear => if n = 0 then [.clear] else (List.range m).reverse.map .removeAt
  | d => [d]

/-- What `chain` sends for a change of the right input. -/
def rightSays (m n : Nat) : VecDiff α → List (VecDiff α)
  | .replace values => if m = 0 then [.replace values] else List.replicate n .pop ++ values.map .push
  | .insertAt i a => [.insertAt (m + i) a]
  | .updateAt i a => [.updateAt (m + i) a]
  | .removeAt i => [.removeAt (m + i)]
  | .move i j => [.move (m + i) (m + j)]
  | .push a => [.push a]
  | .pop => [.pop]
  | .clear => if m = 0 then [.clear] else List.replicate n .pop

/-- What `chain` sends for all it takes, when `m` elements are left and `n` right. -/
def chainSends : Nat → Nat → List (Taking α) → List (VecDiff α)
  | _, _, [] => []
  | m, n, .left d :: ts => leftSays m n d ++ chainSends (d.lenAfter m) n ts
  | m, n, .right d :: ts => rightSays m n d ++ chainSends m (d.lenAfter n) ts
  | _, _, .replaces l r :: ts => .replace (l ++ r) :: chainSends l.length r.length ts
  | _, _, .clears :: ts => .clear :: chainSends 0 0 ts

/-! ### `entries_cloned`, `signal_vec_keys` -/

variable [LT K] [DecidableRel (α := K) (· < ·)]

/-- The number of keys before `key`. -/
def below (es : List (K × V)) (key : K) : Nat := (es.filter fun e => decide (e.1 < key)).length

/-- What `entries_cloned` sends, given the entries so far in ascending order. -/
def entrySays (es : List (K × V)) : MapDiff K V → VecDiff (K × V)
  | .replace entries => .replace entries
  | .insert key value => .insertAt (below es key) (key, value)
  | .update key value => .updateAt (below es key) (key, value)
  | .remove key => .removeAt (below es key)
  | .clear => .clear

/-- What `signal_vec_keys` sends. -/
def keySays (es : List (K × V)) : MapDiff K V → List (VecDiff K)
  | .replace entries => [.replace (entries.map (·.1))]
  | .insert key _ => [.insertAt (below es key) key]
  | .update _ _ => []
  | .remove key => [.removeAt (below es key)]
  | .clear => [.clear]

end Verif
