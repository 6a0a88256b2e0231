import Verif.SignalVec4

/-!
# Specification of `sort_by_cloned`
-/

namespace Verif

variable {α : Type}

/-- A total preorder given by a comparison function: what `sort_by` and friends require. -/
structure TotalPreorder (cmp : α → α → Ordering) : Prop where
  swap : ∀ a b, cmp b a = (cmp a b).swap
  trans : ∀ a b c, cmp a b ≠ .gt → cmp b c ≠ .gt → cmp a c ≠ .gt

/-- The elements of `xs` sorted by `cmp`, equal ones in the order they have in `xs`: Lean's library
function `List.mergeSort`, which is a stable sort. -/
def sortedBy (cmp : α → α → Ordering) (xs : List α) : List α :=
  xs.mergeSort fun a b => cmp a b != .gt

/-- What the documentation of `slice::sort_unstable_by` and `slice::binary_search_by` promises.
* `sort`: if the comparison is a total order on the elements of the slice, the result is sorted and
  has the same elements.
* `search`: if the slice consists of elements that compare `Less`, then elements that compare
  `Equal`, then elements that compare `Greater`, the result is `Ok` of an index of one of the
  `Equal` ones, or, if there are none, `Err` of the index where the `Greater` ones begin. -/
structure SliceFns.Lawful (S : SliceFns) : Prop where
  sort_perm : ∀ (cmp : Nat → Nat → Ordering) (l : List Nat),
    (∀ a ∈ l, ∀ b ∈ l, cmp b a = (cmp a b).swap) →
    (∀ a ∈ l, ∀ b ∈ l, ∀ c ∈ l, cmp a b ≠ .gt → cmp b c ≠ .gt → cmp a c ≠ .gt) →
    (S.sort cmp l).Perm l
  sort_sorted : ∀ (cmp : Nat → Nat → Ordering) (l : List Nat),
    (∀ a ∈ l, ∀ b ∈ l, cmp b a = (cmp a b).swap) →
    (∀ a ∈ l, ∀ b ∈ l, ∀ c ∈ l, cmp a b ≠ .gt → cmp b c ≠ .gt → cmp a c ≠ .gt) →
    (S.sort cmp l).Pairwise (fun a b => cmp a b ≠ .gt)
  search_found : ∀ (f : Nat → Ordering) (ls es gs : List Nat),
    (∀ x ∈ ls, f x = .lt) → (∀ x ∈ es, f x = .eq) → (∀ x ∈ gs, f x = .gt) → es ≠ [] →
    ∃ k, S.search f (ls ++ es ++ gs) = .ok k ∧ ls.length ≤ k ∧ k < ls.length + es.length
  search_missing : ∀ (f : Nat → Ordering) (ls gs : List Nat),
    (∀ x ∈ ls, f x = .lt) → (∀ x ∈ gs, f x = .gt) →
    S.search f (ls ++ gs) = .error ls.length

end Verif
