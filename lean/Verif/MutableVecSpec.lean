import Verif.MutableVec

/-!
# Specification of `MutableVec`: the plain `Vec` operation behind each method

Independent of the model's helpers: only list functions.
-/

namespace Verif.MutVec

variable {α : Type}

/-- Start of a Rust range over a vector. -/
def Bound.lower : Bound → Nat
  | .included n => n
  | .excluded n => n + 1
  | .unbounded => 0

/-- One past the end of a Rust range over a vector of length `len`. -/
def Bound.upper (len : Nat) : Bound → Nat
  | .included n => n + 1
  | .excluded n => n
  | .unbounded => len

/-- Remove the element at `i` and put it back at `j`; `none` if that is out of range. -/
def moved (l : List α) (i j : Nat) : Option (List α) :=
  match l[i]? with
  | none => none
  | some a => if j < l.length then some ((l.eraseIdx i).insertIdx j a) else none

/-- Exchange the elements at positions `a` and `b`; `none` if out of range. -/
def swapped (l : List α) (a b : Nat) : Option (List α) :=
  match l[a]?, l[b]? with
  | some x, some y => some ((l.set a y).set b x)
  | _, _ => none

/-- Result and new contents of each method, given the old contents; `none` means panic.
A move or swap of a position with itself does nothing, even out of range. -/
def Op.spec : Op α → List α → Option (Ret α × List α)
  | .pop, l => some (.opt l.getLast?, l.dropLast)
  | .remove i, l => l[i]?.map fun a => (.val a, l.eraseIdx i)
  | .clear, _ => some (.unit, [])
  | .moveFromTo i j, l => if i = j then some (.unit, l) else (moved l i j).map (.unit, ·)
  | .swap a b, l => if a = b then some (.unit, l) else (swapped l a b).map (.unit, ·)
  | .retain f, l => some (.unit, l.filter f)
  | .drain lo hi, l =>
    if lo.lower ≤ hi.upper l.length ∧ hi.upper l.length ≤ l.length then
      some (.list ((l.take (hi.upper l.length)).drop lo.lower),
        l.take lo.lower ++ l.drop (hi.upper l.length))
    else none
  | .truncate n, l => some (.unit, l.take n)
  | .reverse, l => some (.unit, l.reverse)
  | .push a, l => some (.unit, l ++ [a])
  | .pushCloned a, l => some (.unit, l ++ [a])
  | .insert i a, l => if i ≤ l.length then some (.unit, l.insertIdx i a) else none
  | .insertCloned i a, l => if i ≤ l.length then some (.unit, l.insertIdx i a) else none
  | .set i a, l => if i < l.length then some (.unit, l.set i a) else none
  | .setCloned i a, l => if i < l.length then some (.unit, l.set i a) else none
  | .replace vs, _ => some (.unit, vs)
  | .replaceCloned vs, _ => some (.unit, vs)
  | .extend vs, l => some (.unit, l ++ vs)
  | .applyVecDiff d, l =>
    match d with
    | .move i j => if i = j then some (.unit, l) else (moved l i j).map (.unit, ·)
    | d => (d.apply l).map (.unit, ·)

end Verif.MutVec

namespace Verif.MutVec

variable {α : Type}

/-- The diffs that subscriber `id` received during a history: the `Ready(Some(diff))` answers to
its polls, in order. -/
def received (id : Nat) : World α → List (Ev α) → List (VecDiff α)
  | _, [] => []
  | w, e :: es =>
    let now := match e with
      | .poll i cx =>
        if i = id ∧ w.rxLive id = true then
          match (w.pollRx id cx).1 with
          | .ready (some d) => [d]
          | _ => []
        else []
      | _ => []
    match w.step e with
    | none => now
    | some w' => now ++ received id w' es

/-- The calls that have nothing to do on contents `l`. -/
inductive NothingToDo : Op α → List α → Prop where
  | pop : NothingToDo .pop []
  | clear : NothingToDo .clear []
  | retain (f l) : (∀ a ∈ l, f a = true) → NothingToDo (.retain f) l
  | truncate (n l) : l.length ≤ n → NothingToDo (.truncate n) l
  | drain (lo hi : Bound) (l) : lo.lower = hi.upper l.length → hi.upper l.length ≤ l.length →
      NothingToDo (.drain lo hi) l
  | moveFromTo (i l) : NothingToDo (.moveFromTo i i) l
  | swap (a l) : NothingToDo (.swap a a) l
  | reverse (l) : l.length ≤ 1 → NothingToDo .reverse l
  | extend (l) : NothingToDo (.extend []) l
  | applyMove (i l) : NothingToDo (.applyVecDiff (.move i i)) l
  | applyClear : NothingToDo (.applyVecDiff .clear) []

/-- A history as seen if subscriber `k` were the only one: the operations on the `MutableVec`, and
`k`'s own subscription, polls and drop (now numbered 0).  `n` counts the subscriptions so far. -/
def onlyOne (k : Nat) : Nat → List (Ev α) → List (Ev α)
  | _, [] => []
  | n, .subscribe :: es =>
    if n = k then .subscribe :: onlyOne k (n + 1) es else onlyOne k (n + 1) es
  | n, .poll id cx :: es => if id = k then .poll 0 cx :: onlyOne k n es else onlyOne k n es
  | n, .dropRx id :: es => if id = k then .dropRx 0 :: onlyOne k n es else onlyOne k n es
  | n, .op o :: es => .op o :: onlyOne k n es
  | n, .cloneHandle :: es => .cloneHandle :: onlyOne k n es
  | n, .dropHandle :: es => .dropHandle :: onlyOne k n es

end Verif.MutVec
