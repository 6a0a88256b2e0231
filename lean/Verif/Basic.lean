/-!
# Polls, wakers and scripted inputs

Common vocabulary of the whole model.  See `DESIGN.md`, section 1.
-/

namespace Verif

/-- `std::task::Poll<T>`. -/
inductive Poll (α : Type) where
  | ready (a : α)
  | pending
deriving DecidableEq, Repr

/-- A waker is represented by a number naming the `Context` a poll was called with.
Models `cx.waker()`; the `Context` carries nothing else. -/
abbrev Waker := Nat

/-- An input of a combinator: a `Signal`, `SignalVec`, `SignalMap`, `Stream`
(`ρ = Option item`) or `Future` (`ρ = output`).  Models the trait objects polled in
`/repo/src/signal/signal.rs:14-27`, `/repo/src/signal_vec.rs:111-120`,
`/repo/src/signal_map.rs:52-60`.

`todo` is the script: the answers the input is going to give, one per poll;
an exhausted script answers `Pending`.  `hist` is a ghost log of the polls made so far:
the waker of the poll and the answer. -/
structure Src (ρ : Type) where
  todo : List (Poll ρ)
  hist : List (Waker × Poll ρ)
deriving DecidableEq, Repr

/-- A fresh input with the given script. -/
def Src.mk' {ρ : Type} (script : List (Poll ρ)) : Src ρ := ⟨script, []⟩

/-- One call of `poll_change` / `poll_vec_change` / `poll_map_change` / `poll_next` / `poll`
with waker `w`. -/
def Src.poll {ρ : Type} (w : Waker) (s : Src ρ) : Poll ρ × Src ρ :=
  match s.todo with
  | [] => (.pending, ⟨[], s.hist ++ [(w, .pending)]⟩)
  | r :: rs => (r, ⟨rs, s.hist ++ [(w, r)]⟩)

/-- The items among a list of answers. -/
def items {α : Type} : List (Poll (Option α)) → List α
  | [] => []
  | .ready (some a) :: rs => a :: items rs
  | .ready none :: rs => items rs
  | .pending :: rs => items rs

/-- The items an input has produced so far. -/
def Src.got {α : Type} (s : Src (Option α)) : List α := items (s.hist.map (·.2))

/-- All items of an input: produced and still to come.  Unchanged by polling. -/
def Src.all {α : Type} (s : Src (Option α)) : List α := s.got ++ items s.todo

/-- The input has reported its end. -/
def Src.ended {α : Type} (s : Src (Option α)) : Prop := ∃ w, (w, Poll.ready none) ∈ s.hist

/-- The input's most recent answer was `Pending`, and it was given to a poll with waker `w`:
the input will wake `w` when it changes. -/
def Src.armed {ρ : Type} (w : Waker) (s : Src ρ) : Prop := s.hist.getLast? = some (w, .pending)

/-- The input was never polled after it reported its end. -/
def Src.fused {α : Type} (s : Src (Option α)) : Prop :=
  ∀ pre w post, s.hist = pre ++ (w, Poll.ready none) :: post → post = []

/-- A future has produced its output. -/
def Src.completed {ρ : Type} (s : Src ρ) : Prop := ∃ w a, (w, Poll.ready a) ∈ s.hist

/-- A future was never polled after it produced its output. -/
def Src.fusedF {ρ : Type} (s : Src ρ) : Prop :=
  ∀ pre w a post, s.hist = pre ++ (w, Poll.ready a) :: post → post = []

/-- The input `src` was made from `script`: what it answered and what it will answer is the script,
followed by `Pending`. -/
def Plays {ρ : Type} (script : List (Poll ρ)) (src : Src ρ) : Prop :=
  ∃ k, src.hist.map (·.2) ++ src.todo = script ++ List.replicate k .pending

/-- Every signal `g t` answers its first poll with a value, as `Signal` requires
(`/repo/src/signal/signal.rs:14-22`). -/
def Eager {ι β : Type} (g : ι → List (Poll (Option β))) : Prop :=
  ∀ t, ∃ b rest, g t = .ready (some b) :: rest

/-- What the body of a `loop { match input.poll_change(cx) { … } }` does with an item:
`continue`, leave the loop with a result, or panic. -/
inductive Ctl (σ ρ : Type) where
  | cont (s : σ)
  | ret (s : σ) (r : ρ)
  | panic

/-- Why such a loop stopped: the input ended, the input is pending, the body left it, or a panic. -/
inductive Stop (ρ : Type) where
  | ended
  | pending
  | ret (r : ρ)
  | panic
deriving DecidableEq, Repr

/-- The loop `loop { match input.poll_change(cx) { Ready(Some(x)) => body, … } }` that occurs
throughout the code base (e.g. `/repo/src/signal_vec.rs:1510-1560`): poll until the input is
not `Ready(Some(_))` or the body leaves.  `σ` are the local variables of the loop.
Structural recursion on the script. -/
def pollLoop {α σ ρ : Type} (w : Waker) (body : σ → α → Ctl σ ρ) :
    List (Poll (Option α)) → List (Waker × Poll (Option α)) → σ →
    Stop ρ × σ × Src (Option α)
  | [], h, s => (.pending, s, ⟨[], h ++ [(w, .pending)]⟩)
  | .pending :: rs, h, s => (.pending, s, ⟨rs, h ++ [(w, .pending)]⟩)
  | .ready none :: rs, h, s => (.ended, s, ⟨rs, h ++ [(w, .ready none)]⟩)
  | .ready (some a) :: rs, h, s =>
    match body s a with
    | .cont s' => pollLoop w body rs (h ++ [(w, .ready (some a))]) s'
    | .ret s' r => (.ret r, s', ⟨rs, h ++ [(w, .ready (some a))]⟩)
    | .panic => (.panic, s, ⟨rs, h ++ [(w, .ready (some a))]⟩)

/-- `pollLoop` on an input. -/
def Src.loop {α σ ρ : Type} (w : Waker) (body : σ → α → Ctl σ ρ) (src : Src (Option α)) (s : σ) :
    Stop ρ × σ × Src (Option α) :=
  pollLoop w body src.todo src.hist s

/-- Run a poll function repeatedly, as a consumer does: with the given wakers, one poll each,
stopping for good after `Ready(None)`.  Returns the answers and the final state, or `none` if
a poll panicked. -/
def run {σ β : Type} (poll : Waker → σ → Option (Poll (Option β) × σ)) :
    List Waker → σ → Option (List (Poll (Option β)) × σ)
  | [], s => some ([], s)
  | w :: ws, s =>
    match poll w s with
    | none => none
    | some (.ready none, s') => some ([.ready none], s')
    | some (r, s') =>
      match run poll ws s' with
      | none => none
      | some (rs, s'') => some (r :: rs, s'')

end Verif
