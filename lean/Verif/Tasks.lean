import Verif.Net
import Verif.ForEach

/-!
# Tasks that keep `Mutable`s up to date (C88): definitions

Any number of `Mutable`s and of tasks.  Each task is `signal.for_each(move |value| { target.set(value);
ready(()) })`, given to an executor, where `signal` is a network of C66 over the `Mutable`s and `target` is
one of the `Mutable`s.  So the tasks may depend on each other.  Whoever else has handles or signals may use
them between any two polls of tasks.
-/

namespace Verif.Net

variable {α : Type}

/-- A task: `net.for_each(move |value| { target.set(value); ready(()) })`,
`/repo/src/signal/signal.rs:479-489`, and `Mutable::set`, `/repo/src/signal/mutable.rs:290-296`; with a
`test` it calls `set_if` (`298-305`; `set_neq`, `342-344`, is `set_if` with `!=`). -/
structure Task (α : Type) where
  net : Net α α
  target : Nat
  test : Option (α → α → Bool)

/-- The call that the callback makes. -/
def Task.write (t : Task α) (a : α) : Mut.Ev α :=
  match t.test with
  | none => .set a
  | some f => .setIf a f

/-- The callback calls `set` or `set_neq`: a value is left out only if it is there already. -/
def Task.Lawful (t : Task α) : Prop := ∀ f, t.test = some f → ∀ a b, f a b = false → a = b

/-- The state of a task: that of its signal, and that of `for_each`. -/
structure Task.St (t : Task α) where
  signal : t.net.St
  each : SForEach Unit α

/-- The polls of the signal during a poll of the task, with the answers given, and after each value the
call of the callback. -/
def Task.Feeds (t : Task α) (w : Waker) : Env α → t.net.St → List (Poll (Option α)) → Env α →
    t.net.St → Prop
  | W, s, [], W', s' => W' = W ∧ s' = s
  | W, s, .ready (some a) :: l, W', s' => ∃ W1 s1 o x, t.net.Polls w W s (.ready (some a)) W1 s1 ∧
      (W1 t.target).step (t.write a) = some (o, x) ∧ Task.Feeds t w (W1.put t.target x) s1 l W' s'
  | W, s, .ready none :: l, W', s' => ∃ W1 s1, t.net.Polls w W s (.ready none) W1 s1 ∧
      Task.Feeds t w W1 s1 l W' s'
  | W, s, .pending :: l, W', s' => ∃ W1 s1, t.net.Polls w W s .pending W1 s1 ∧
      Task.Feeds t w W1 s1 l W' s'

/-- One poll of a task, with `ForEach::poll`, `/repo/src/signal/signal.rs:1013-1015`; the future of the
callback is ready at once.  When the task is complete, the executor drops it, and with it the callback and
its handle of the target, `/repo/src/signal/mutable.rs:389-406`.

Simplification: the signal stays in the state then; its `Mutable`s have no handles left, so nobody looks at
its `ChangedWaker`s. -/
def Task.Polls (t : Task α) (w : Waker) (W : Env α) (s : t.St) (d : Poll Unit) (W' : Env α) (s' : t.St) :
    Prop :=
  ∃ l W1, t.Feeds w W s.signal l W1 s'.signal ∧
    SForEach.poll (fun _ _ => ([.ready ()], ())) w
      ⟨give l s.each.stream, s.each.future, s.each.st, s.each.log⟩ = some (d, s'.each) ∧
    Took l s.each.stream s'.each.stream ∧
    (d = .pending → W' = W1) ∧
    (d = .ready () → ∃ o x, (W1 t.target).step .drop = some (o, x) ∧ W' = W1.put t.target x)

/-- All tasks, and the executor: `ready i` if task `i` has to be polled because it is new, or because its
waker was woken since its last poll began; `done i` if it is complete.  The waker of task `i` is number
`i`. -/
structure Sys {n : Nat} (T : Fin n → Task α) where
  env : Env α
  st : ∀ i, (T i).St
  ready : Fin n → Prop
  done : Fin n → Bool

variable {n : Nat} {T : Fin n → Task α}

/-- The waker `w` is woken from `W` to `W'`. -/
def Woken (W W' : Env α) (w : Waker) : Prop := ∃ m l, (W' m).woken = (W m).woken ++ l ∧ w ∈ l

/-- How many handles of `Mutable` number `m` the tasks hold. -/
def holds (T : Fin n → Task α) (done : Fin n → Bool) (m : Nat) : Nat :=
  (List.finRange n).countP fun i => !done i && (T i).target == m

/-- What can happen: something with a `Mutable` (any method of any handle; creation, polls and drops of
other signals), or a poll of a task. -/
inductive TaskAct (n : Nat) (α : Type) where
  | env (m : Nat) (e : Mut.Ev α)
  | poll (i : Fin n) (d : Poll Unit)

/-- One step.  Others neither use the signals nor drop the handles of the tasks. -/
def Sys.Step (S S' : Sys T) : TaskAct n α → Prop
  | .env m e => (∀ i, Foreign (T i).net (S.st i).signal m e) ∧
      (∃ o x, (S.env m).step e = some (o, x) ∧ holds T S.done m ≤ x.handles ∧ S'.env = S.env.put m x) ∧
      S'.st = S.st ∧ S'.done = S.done ∧ ∀ j, S'.ready j ↔ S.ready j ∨ Woken S.env S'.env j
  | .poll i d => S.done i = false ∧ (T i).Polls i S.env (S.st i) d S'.env (S'.st i) ∧
      (∀ j, j ≠ i → S'.st j = S.st j ∧ S'.done j = S.done j) ∧ (S'.done i = true ↔ d = .ready ()) ∧
      ∀ j, S'.ready j ↔ (j ≠ i ∧ S.ready j) ∨ Woken S.env S'.env j

/-- A history. -/
def Sys.Steps : List (TaskAct n α) → Sys T → Sys T → Prop
  | [], S, S' => S' = S
  | a :: h, S, S' => ∃ S1, S.Step S1 a ∧ Sys.Steps h S1 S'

/-- The start: the `Mutable`s may have been used before, by others than the tasks, then the tasks are made
one after the other. -/
def Sys.Start (S : Sys T) : Prop :=
  (∃ Ws : Nat → Env α, (∀ m, ∃ a es os, (Mut.World.new a).runs es = some (os, Ws 0 m) ∧
        ∀ k w, .poll k w ∈ es → n ≤ w) ∧
      (∀ i : Fin n, (T i).net.Makes (Ws i) (S.st i).signal (Ws (i + 1))) ∧ S.env = Ws n) ∧
    (∀ i, (S.st i).each = SForEach.init () [] ∧ S.ready i ∧ S.done i = false) ∧
    ∀ m, holds T S.done m ≤ (S.env m).handles

/-! ## Specification -/

/-- What the callback of task `i` was called on last. -/
def Sys.lastCall (S : Sys T) (i : Fin n) : Option α := (feCalls (S.st i).each.log).getLast?

/-- Nothing to do for the executor. -/
def Sys.Quiet (S : Sys T) : Prop := ∀ i, S.done i = true ∨ ¬ S.ready i

/-- The expression uses `Mutable` number `m`, maybe only for some values. -/
def Net.Reads : {β : Type} → Net α β → Nat → Prop
  | _, .source m', m => m = m'
  | _, .always _, _ => False
  | _, .map _ p, m => p.Reads m
  | _, @Net.dedupe _ _ _ p, m => p.Reads m
  | _, @Net.eq _ _ _ _ p, m => p.Reads m
  | _, @Net.neq _ _ _ _ p, m => p.Reads m
  | _, .mapRef ps _, m => ∃ i, (ps i).Reads m
  | _, .switch g p, m => p.Reads m ∨ ∃ t, (g t).Reads m

/-- No cycles: a task uses only the targets of tasks with smaller numbers. -/
def Acyclic (T : Fin n → Task α) : Prop := ∀ i j, (T i).net.Reads (T j).target → j < i

/-- In a history, others do not change the values of the targets. -/
def Untouched (T : Fin n → Task α) (h : List (TaskAct n α)) : Prop :=
  ∀ m e, .env m e ∈ h → ∀ i, (T i).target = m → ∀ a, e.newValue a = a

/-- In a history, the wakers of the tasks are used only for the tasks. -/
def Private (h : List (TaskAct n α)) : Prop := ∀ m k w, .env m (.poll k w) ∈ h → n ≤ w

/-- A run of the executor: polls of tasks that are ready. -/
def Sys.Runs : List (Fin n × Poll Unit) → Sys T → Sys T → Prop
  | [], S, S' => S' = S
  | (i, d) :: h, S, S' => S.ready i ∧ ∃ S1, S.Step S1 (.poll i d) ∧ Sys.Runs h S1 S'

end Verif.Net
