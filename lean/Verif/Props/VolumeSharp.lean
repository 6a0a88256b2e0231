import Verif.Props.Volume
import Verif.Props.SignalVecSort

/-!
# C93: the factors cannot be improved
-/

namespace Verif

variable {α β σ : Type}

theorem run_sent {poll : Waker → σ → Option (Poll (Option β) × σ)} {w : Waker} {ws : List Waker} {s s1 s2 : σ} {a : β}
    {outs : List (Poll (Option β))} (h1 : poll w s = some (.ready (some a), s1)) (h2 : run poll ws s1 = some (outs, s2)) :
    run poll (w :: ws) s = some (.ready (some a) :: outs, s2) := by
  simp [run, h1, h2]

/-! ## `sort_by_cloned` -/

/-- Updates that move the first element to the end and back. -/
def flips : Nat → Bool → List (Poll (Option (VecDiff Nat)))
  | 0, _ => []
  | n + 1, true => .ready (some (.updateAt 0 3)) :: flips n false
  | n + 1, false => .ready (some (.updateAt 0 1)) :: flips n true

def flipState (b : Bool) (src : Src (Option (VecDiff Nat))) : VSort Nat :=
  if b then ⟨none, [1, 2], [0, 1], src⟩ else ⟨none, [3, 2], [1, 0], src⟩

theorem flips_run (n : Nat) (b : Bool) (hist : List (Waker × Poll (Option (VecDiff Nat)))) :
    ∃ outs s, run (VSort.poll demoFns compare) (List.replicate (2 * n) 0) (flipState b ⟨flips n b, hist⟩) = some (outs, s) ∧
      vol (items outs) = 3 * n ∧ vol s.signal.got = vol (items (hist.map (·.2))) + 2 * n := by
  induction n generalizing b hist with
  | zero => exact ⟨[], _, rfl, rfl, by cases b <;> rfl⟩
  | succ n ih =>
    cases b with
    | true =>
      obtain ⟨outs, s, h1, h2, h3⟩ := ih false (hist ++ [(0, .ready (some (.updateAt 0 3)))])
      refine ⟨.ready (some (.removeAt 0)) :: .ready (some (.push 3)) :: outs, s, ?_, ?_, ?_⟩
      · exact run_sent (ws := 0 :: List.replicate (2 * n) 0)
          (s1 := ⟨some (.push 3), [3, 2], [1, 0], ⟨flips n false, hist ++ [(0, .ready (some (.updateAt 0 3)))]⟩⟩) rfl
          (run_sent rfl h1)
      · simp [items, vol, sumBy, VecDiff.size] at h2 ⊢
        omega
      · rw [h3]
        simp [items_append, vol, sumBy, items, VecDiff.size]
        omega
    | false =>
      obtain ⟨outs, s, h1, h2, h3⟩ := ih true (hist ++ [(0, .ready (some (.updateAt 0 1)))])
      refine ⟨.ready (some .pop) :: .ready (some (.insertAt 0 1)) :: outs, s, ?_, ?_, ?_⟩
      · exact run_sent (ws := 0 :: List.replicate (2 * n) 0)
          (s1 := ⟨some (.insertAt 0 1), [1, 2], [0, 1], ⟨flips n true, hist ++ [(0, .ready (some (.updateAt 0 1)))]⟩⟩) rfl
          (run_sent rfl h1)
      · simp [items, vol, sumBy, VecDiff.size] at h2 ⊢
        omega
      · rw [h3]
        simp [items_append, vol, sumBy, items, VecDiff.size]
        omega

/-- **C93**: the factor one and a half of `C93_sort` is the best possible.  There are arbitrarily long runs, with library
functions that do what is documented and the usual order of numbers, that miss it by four only. -/
theorem C93_sort_sharp (n : Nat) :
    ∃ (script : List (Poll (Option (VecDiff Nat)))) (ws : List Waker) (outs : List (Poll (Option (VecDiff Nat)))) (s : VSort Nat),
      demoFns.Lawful ∧ run (VSort.poll demoFns compare) ws (VSort.init script) = some (outs, s) ∧ n ≤ vol s.signal.got ∧
      2 * vol (items outs) + 4 = 3 * vol s.signal.got := by
  obtain ⟨outs, s, h1, h2, h3⟩ := flips_run n true [(0, .ready (some (.push 1))), (0, .ready (some (.push 2)))]
  refine ⟨.ready (some (.push 1)) :: .ready (some (.push 2)) :: flips n true, 0 :: 0 :: List.replicate (2 * n) 0,
    .ready (some (.push 1)) :: .ready (some (.push 2)) :: outs, s, demoFns_lawful, ?_, ?_, ?_⟩
  · exact run_sent (s1 := ⟨none, [1], [0], ⟨.ready (some (.push 2)) :: flips n true, [(0, .ready (some (.push 1)))]⟩⟩) rfl
      (run_sent rfl h1)
  · omega
  · simp [items, vol, sumBy, VecDiff.size] at h2 h3 ⊢
    omega

/-! ## `chain` -/

theorem chain_flush (ds : List (VecDiff α)) (s : VChain α) {ws : List Waker} {outs : List (Poll (Option (VecDiff α)))}
    {s' : VChain α} (h : run VChain.poll ws { s with pending := [] } = some (outs, s')) :
    run VChain.poll (List.replicate ds.length 0 ++ ws) { s with pending := ds } =
      some (ds.map (fun d => .ready (some d)) ++ outs, s') := by
  induction ds with
  | nil => exact h
  | cons d ds ih => exact run_sent (s1 := { s with pending := ds }) rfl ih

/-- **C93**: the factor three of `C93_chain` is the best possible: one element on the left, and on the right a list that is
given as a whole and cleared again. -/
theorem C93_chain_sharp (n : Nat) :
    ∃ (l r : List (Poll (Option (VecDiff Nat)))) (ws : List Waker) (outs : List (Poll (Option (VecDiff Nat)))) (s : VChain Nat),
      run VChain.poll ws (VChain.init l r) = some (outs, s) ∧ n ≤ vol s.left.src.got + vol s.right.src.got ∧
      vol (items outs) + 10 = 3 * (vol s.left.src.got + vol s.right.src.got) := by
  let l : List (Poll (Option (VecDiff Nat))) := [.ready (some (.push 1))]
  let xs := List.replicate n 7
  let r : List (Poll (Option (VecDiff Nat))) := [.ready (some (.replace (7 :: xs))), .ready (some .clear)]
  let l1 := ((Inp.mk' l).poll 0).2
  let l2 := (l1.poll 0).2
  let l3 := (l2.poll 0).2
  let r1 := ((Inp.mk' r).poll 0).2
  let r2 := (r1.poll 0).2
  have h4 := chain_flush (List.replicate xs.length .pop) ⟨l3, r2, 1, 0, []⟩ (ws := []) (outs := []) rfl
  have h3 : run VChain.poll (0 :: (List.replicate (List.replicate xs.length (VecDiff.pop (α := Nat))).length 0 ++ []))
      ⟨l2, r1, 1, xs.length + 1, []⟩ = some (.ready (some .pop) :: ((List.replicate xs.length .pop).map
        (fun d => .ready (some d)) ++ []), ⟨l3, r2, 1, 0, []⟩) := run_sent rfl h4
  have h2 := chain_flush (xs.map .push) ⟨l2, r1, 1, xs.length + 1, []⟩ h3
  have h1 := run_sent (poll := VChain.poll) (w := 0) (a := .push 7) (s := ⟨l1, Inp.mk' r, 1, 0, []⟩) rfl h2
  have h0 := run_sent (poll := VChain.poll) (w := 0) (a := .push 1) (s := VChain.init l r) rfl h1
  have e1 : vol l3.src.got = 2 := rfl
  have e2 : vol r2.src.got = n + 3 := by
    show vol [VecDiff.replace (7 :: xs), .clear] = _
    simp [vol, sumBy, VecDiff.size, xs]
  refine ⟨l, r, _, _, _, h0, by rw [e1, e2]; omega, ?_⟩
  rw [e1, e2]
  have pushes : ∀ m, vol (items ((List.replicate m 7).map fun x => (.ready (some (.push x)) : Poll (Option (VecDiff Nat))))) = 2 * m := by
    intro m
    induction m with
    | zero => rfl
    | succ m ih => simp [List.replicate_succ, vol, sumBy, VecDiff.size] at ih ⊢; omega
  have pops : ∀ m, vol (items ((List.replicate m (.ready (some .pop) : Poll (Option (VecDiff Nat)))))) = m := by
    intro m
    induction m with
    | zero => rfl
    | succ m ih => simp [List.replicate_succ, vol, sumBy, VecDiff.size] at ih ⊢; omega
  have a := pushes n
  have b := pops n
  simp only [List.map_replicate] at a
  simp [items_append, xs]
  omega

end Verif
