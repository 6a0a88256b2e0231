import Verif.SignalA

/-!
# Model of `for_each` and the conversions to streams

`SignalStream::poll_next` (`/repo/src/signal/signal.rs:1028-1034`), `SignalVecStream::poll_next`
(`/repo/src/signal_vec.rs:2000-2007`) and `SignalMapStream::poll_next`
(`/repo/src/signal_map.rs:478-485`), made by `to_stream` (`/repo/src/signal/signal.rs:83-89`,
`/repo/src/signal_vec.rs:497-501`), hand the poll on and the answer back: the stream made by
`to_stream` is the signal itself, and needs no model.

`ForEach` of `Signal` (`/repo/src/signal/signal.rs:479-489`, `998-1016`), `SignalVec`
(`/repo/src/signal_vec.rs:505-515`, `645-663`) and `SignalMap` (`/repo/src/signal_map.rs:138-148`,
`488-506`) wrap `futures_util::stream::ForEach` around that stream.  What is modelled is that type,
which is outside the repository: as long as there is a future, it is polled; when it completes it
is dropped and the stream is polled; the callback is called on each item and its future polled at
once; the end of the stream is the result.
-/

namespace Verif

variable {α κ : Type}

/-- What happens in a `for_each` (ghost): the input is polled, the callback is called, the future it
gave is polled. -/
inductive FeEv (α : Type) where
  | input (w : Waker) (r : Poll (Option α))
  | call (a : α)
  | work (w : Waker) (r : Poll Unit)
deriving DecidableEq, Repr

/-- `ForEach`, `/repo/src/signal/signal.rs:1001-1004`, `/repo/src/signal_vec.rs:648-651`,
`/repo/src/signal_map.rs:491-494`.  `α` is the item type of the signal, `VecDiff` or `MapDiff`. -/
structure SForEach (κ α : Type) where
  stream : Src (Option α)
  future : Option (Src Unit)
  /-- The state of the callback. -/
  st : κ
  /-- Ghost: what happened so far, in order. -/
  log : List (FeEv α)

/-- `for_each`, `/repo/src/signal/signal.rs:479-489`, `/repo/src/signal_vec.rs:505-515`,
`/repo/src/signal_map.rs:138-148`. -/
def SForEach.init (k : κ) (script : List (Poll (Option α))) : SForEach κ α :=
  ⟨Src.mk' script, none, k, []⟩

/-- The loop of `futures_util::stream::ForEach::poll` from a point without future; it is called in
`/repo/src/signal/signal.rs:1013-1015`.  The callback `f` gives the script of a future.  Structural
recursion on the script of the stream. -/
def SForEach.loop (f : κ → α → List (Poll Unit) × κ) (w : Waker) :
    List (Poll (Option α)) → List (Waker × Poll (Option α)) → κ → List (FeEv α) →
    Poll Unit × SForEach κ α
  | [], h, k, g => (.pending, ⟨⟨[], h ++ [(w, .pending)]⟩, none, k, g ++ [.input w .pending]⟩)
  | .pending :: rs, h, k, g =>
    (.pending, ⟨⟨rs, h ++ [(w, .pending)]⟩, none, k, g ++ [.input w .pending]⟩)
  | .ready none :: rs, h, k, g =>
    (.ready (), ⟨⟨rs, h ++ [(w, .ready none)]⟩, none, k, g ++ [.input w (.ready none)]⟩)
  | .ready (some a) :: rs, h, k, g =>
    match f k a with
    | (script, k') =>
      match (Src.mk' script).poll w with
      | (.ready (), _) =>
        SForEach.loop f w rs (h ++ [(w, .ready (some a))]) k'
          (g ++ [.input w (.ready (some a))] ++ [.call a] ++ [.work w (.ready ())])
      | (.pending, s) =>
        (.pending, ⟨⟨rs, h ++ [(w, .ready (some a))]⟩, some s, k',
          g ++ [.input w (.ready (some a))] ++ [.call a] ++ [.work w .pending]⟩)

/-- `ForEach::poll`, `/repo/src/signal/signal.rs:1013-1015`, `/repo/src/signal_vec.rs:660-662`,
`/repo/src/signal_map.rs:503-505`. -/
def SForEach.poll (f : κ → α → List (Poll Unit) × κ) (w : Waker) (m : SForEach κ α) :
    Option (Poll Unit × SForEach κ α) :=
  match m.future with
  | none => some (SForEach.loop f w m.stream.todo m.stream.hist m.st m.log)
  | some future =>
    match future.poll w with
    | (.ready (), _) =>
      some (SForEach.loop f w m.stream.todo m.stream.hist m.st (m.log ++ [.work w (.ready ())]))
    | (.pending, s) => some (.pending, ⟨m.stream, some s, m.st, m.log ++ [.work w .pending]⟩)

/-! ## Specification -/

/-- The values the callback was called on. -/
def feCalls : List (FeEv α) → List α
  | [] => []
  | .call a :: l => a :: feCalls l
  | _ :: l => feCalls l

/-- The polls of the input. -/
def feInputs : List (FeEv α) → List (Waker × Poll (Option α))
  | [] => []
  | .input w r :: l => (w, r) :: feInputs l
  | _ :: l => feInputs l

/-- How many futures completed. -/
def feFinished : List (FeEv α) → Nat
  | [] => 0
  | .work _ (.ready _) :: l => feFinished l + 1
  | _ :: l => feFinished l

/-- One thing after the other:
* the input is polled only when the futures of all calls have completed;
* the callback is called right after the input gave a value, on that value, and only when the futures
  of all calls before have completed;
* a future is polled only if it belongs to the last call, all others have completed, and it has
  not. -/
def Serial (log : List (FeEv α)) : Prop :=
  ∀ pre e post, log = pre ++ e :: post →
    match e with
    | .input _ _ => feFinished pre = (feCalls pre).length
    | .call a => feFinished pre = (feCalls pre).length ∧
        ∃ w, pre.getLast? = some (.input w (.ready (some a)))
    | .work _ _ => feFinished pre + 1 = (feCalls pre).length

/-- The state of the callback after it was called on the values `as`. -/
def fePlace (f : κ → α → List (Poll Unit) × κ) (k : κ) (as : List α) : κ :=
  as.foldl (fun k a => (f k a).2) k

end Verif
