import Verif.Input

/-!
# Model of the `Signal` combinators with several inputs

`/repo/src/signal/signal.rs`, `/repo/src/internal.rs`, `/repo/src/signal/macros.rs`.

Signals and futures made by a callback are scripts `g t`, where `t` is what the callback was called
on.  They carry `t` as a ghost `tag`.  The signals and futures that were dropped are kept in a ghost
list `old`, which the poll functions never look at.
-/

namespace Verif

variable {α β ι ρ : Type}

/-- A signal or future made by a callback. -/
structure Made (ι ρ : Type) where
  /-- Ghost: what the callback was called on. -/
  tag : ι
  src : Src ρ

/-- The callback makes a signal or future from `t`. -/
def Made.new (g : ι → List (Poll ρ)) (t : ι) : Made ι ρ := ⟨t, Src.mk' (g t)⟩

/-! ## `flatten`, `switch` -/

/-- `Flatten`, `/repo/src/signal/signal.rs:1579-1584`. -/
structure SFlatten (ι β : Type) where
  signal : Inp (Option ι)
  inner : Option (Made ι (Option β))
  /-- Ghost: the inner signals that were dropped. -/
  old : List (Made ι (Option β))

/-- `SignalExt::flatten`, `SignalExt::switch`, `/repo/src/signal/signal.rs:428-445`. -/
def SFlatten.init (script : List (Poll (Option ι))) : SFlatten ι β := ⟨Inp.mk' script, none, []⟩

/-- The `match` on the inner signal and what follows, `/repo/src/signal/signal.rs:1619-1636`. -/
def SFlatten.pollInner (w : Waker) (done : Bool) (m : SFlatten ι β) :
    Poll (Option β) × SFlatten ι β :=
  match m.inner with
  | some inner =>
    match inner.src.poll w with
    | (.ready none, s) =>
      let m' : SFlatten ι β := ⟨m.signal, none, m.old ++ [⟨inner.tag, s⟩]⟩
      if done then (.ready none, m') else (.pending, m')
    | (poll, s) => (poll, ⟨m.signal, some ⟨inner.tag, s⟩, m.old⟩)
  | none => if done then (.ready none, m) else (.pending, m)

/-- `Flatten::poll_change`, `/repo/src/signal/signal.rs:1604-1637`.  With `ι` the values of a signal
and `g` the callback this is also `Switch::poll_change`, `/repo/src/signal/signal.rs:940-943`, that
is `flatten` of `map`: `Map::poll_change` (`SMap.poll`) calls the callback on each value. -/
def SFlatten.poll (g : ι → List (Poll (Option β))) (w : Waker) (m : SFlatten ι β) :
    Option (Poll (Option β) × SFlatten ι β) :=
  match m.signal.poll w with
  | (none, i) => some (SFlatten.pollInner w true ⟨i, m.inner, m.old⟩)
  | (some (.ready none), i) => some (SFlatten.pollInner w true ⟨i, m.inner, m.old⟩)
  | (some (.ready (some t)), i) =>
    some (SFlatten.pollInner w false ⟨i, some (Made.new g t), m.old ++ m.inner.toList⟩)
  | (some .pending, i) => some (SFlatten.pollInner w false ⟨i, m.inner, m.old⟩)

/-! ## `map_future` -/

/-- `MapFuture`, `/repo/src/signal/signal.rs:1248-1255`. -/
structure SMapFuture (α β : Type) where
  signal : Inp (Option α)
  future : Option (Made α β)
  first : Bool
  /-- Ghost: the futures that were dropped. -/
  old : List (Made α β)

/-- `SignalExt::map_future`, `/repo/src/signal/signal.rs:298-308`. -/
def SMapFuture.init (script : List (Poll (Option α))) : SMapFuture α β :=
  ⟨Inp.mk' script, none, true, []⟩

/-- Loop body, `/repo/src/signal/signal.rs:1276-1280`; loop variables: the future and the ghost list
of dropped ones. -/
def mapFutureBody (g : α → List (Poll β)) (s : Option (Made α β) × List (Made α β)) (value : α) :
    Ctl (Option (Made α β) × List (Made α β)) Empty :=
  .cont (some (Made.new g value), s.2 ++ s.1.toList)

/-- What follows the loop, `/repo/src/signal/signal.rs:1286-1308`. -/
def SMapFuture.finish (w : Waker) (done : Bool) (m : SMapFuture α β) :
    Poll (Option (Option β)) × SMapFuture α β :=
  match m.future with
  | some future =>
    match future.src.poll w with
    | (.ready value, s) =>
      (.ready (some (some value)), ⟨m.signal, none, false, m.old ++ [⟨future.tag, s⟩]⟩)
    | (.pending, s) =>
      let m' : SMapFuture α β := ⟨m.signal, some ⟨future.tag, s⟩, false, m.old⟩
      if m.first then (.ready (some none), m') else (.pending, m')
  | none =>
    let m' : SMapFuture α β := ⟨m.signal, none, false, m.old⟩
    if m.first then (.ready (some none), m')
    else if done then (.ready none, m')
    else (.pending, m')

/-- `MapFuture::poll_change`, `/repo/src/signal/signal.rs:1263-1309`. -/
def SMapFuture.poll (g : α → List (Poll β)) (w : Waker) (m : SMapFuture α β) :
    Option (Poll (Option (Option β)) × SMapFuture α β) :=
  match m.signal.loop w (mapFutureBody g) (m.future, m.old) with
  | (.ended, (future, old), i) => some (SMapFuture.finish w true ⟨i, future, m.first, old⟩)
  | (.pending, (future, old), i) => some (SMapFuture.finish w false ⟨i, future, m.first, old⟩)
  | (.ret _, _, _) => none
  | (.panic, _, _) => none

/-! ## `throttle` -/

/-- `Throttle`, `/repo/src/signal/signal.rs:1316-1322`.  The callback has no argument: the tag of a
future is the number of futures made before. -/
structure SThrottle (α : Type) where
  signal : Inp (Option α)
  future : Option (Made Nat Unit)
  /-- How often the callback was called. -/
  calls : Nat
  /-- Ghost: the futures that were dropped. -/
  old : List (Made Nat Unit)

/-- `SignalExt::throttle`, `/repo/src/signal/signal.rs:394-403`. -/
def SThrottle.init (script : List (Poll (Option α))) : SThrottle α := ⟨Inp.mk' script, none, 0, []⟩

/-- The `match` on the signal, `/repo/src/signal/signal.rs:1344-1365`; `future` is `None` there. -/
def SThrottle.pollSignal (g : Nat → List (Poll Unit)) (w : Waker) (m : SThrottle α) :
    Poll (Option α) × SThrottle α :=
  match m.signal.poll w with
  | (none, i) => (.ready none, ⟨i, m.future, m.calls, m.old⟩)
  | (some (.ready none), i) => (.ready none, ⟨i, m.future, m.calls, m.old⟩)
  | (some (.ready (some value)), i) =>
    match (Made.new g m.calls).src.poll w with
    | (.ready (), s) =>
      (.ready (some value), ⟨i, none, m.calls + 1, m.old ++ m.future.toList ++ [⟨m.calls, s⟩]⟩)
    | (.pending, s) =>
      (.ready (some value), ⟨i, some ⟨m.calls, s⟩, m.calls + 1, m.old ++ m.future.toList⟩)
  | (some .pending, i) => (.pending, ⟨i, m.future, m.calls, m.old⟩)

/-- `Throttle::poll_change`, `/repo/src/signal/signal.rs:1330-1366`. -/
def SThrottle.poll (g : Nat → List (Poll Unit)) (w : Waker) (m : SThrottle α) :
    Option (Poll (Option α) × SThrottle α) :=
  match m.future with
  | none => some (SThrottle.pollSignal g w m)
  | some future =>
    match future.src.poll w with
    | (.ready (), s) =>
      some (SThrottle.pollSignal g w ⟨m.signal, none, m.calls, m.old ++ [⟨future.tag, s⟩]⟩)
    | (.pending, s) => some (.pending, ⟨m.signal, some ⟨future.tag, s⟩, m.calls, m.old⟩)

/-! ## `sample_stream_cloned` -/

/-- `SampleStreamCloned`, `/repo/src/signal/signal.rs:950-956`. -/
structure SSample (α β : Type) where
  signal : Inp (Option α)
  stream : Src (Option β)
  value : Option α

/-- `SignalExt::sample_stream_cloned`, `/repo/src/signal/signal.rs:466-475`. -/
def SSample.init (signal : List (Poll (Option α))) (stream : List (Poll (Option β))) : SSample α β :=
  ⟨Inp.mk' signal, Src.mk' stream, none⟩

/-- Loop body, `/repo/src/signal/signal.rs:973-976`. -/
def sampleBody (_ : Option α) (value : α) : Ctl (Option α) Empty := .cont (some value)

/-- `SampleStreamCloned::poll_next`, `/repo/src/signal/signal.rs:965-993`; `none` is the
`unreachable!()`. -/
def SSample.poll (w : Waker) (m : SSample α β) : Option (Poll (Option (α × β)) × SSample α β) :=
  match m.stream.poll w with
  | (.ready none, s) => some (.ready none, ⟨m.signal, s, m.value⟩)
  | (.pending, s) => some (.pending, ⟨m.signal, s, m.value⟩)
  | (.ready (some value), s) =>
    match m.signal.loop w sampleBody m.value with
    | (_, some signal, i) => some (.ready (some (signal, value)), ⟨i, s, some signal⟩)
    | (_, none, _) => none

/-! ## `map_ref`, `map_mut`, `and`, `or` -/

/-- `PollResult`, `/repo/src/internal.rs:24-28`. -/
structure PollResult where
  done : Bool
  changed : Bool

/-- `PollResult::merge`, `/repo/src/internal.rs:32-37`. -/
def PollResult.merge (a b : PollResult) : PollResult := ⟨a.done && b.done, a.changed || b.changed⟩

/-- `MapRef1`, `/repo/src/internal.rs:43-47`. -/
structure MapRef1 (α : Type) where
  signal : Inp (Option α)
  value : Option α

/-- `MapRef1::poll`, `/repo/src/internal.rs:66-99`. -/
def MapRef1.poll (w : Waker) (m : MapRef1 α) : PollResult × MapRef1 α :=
  match m.signal.poll w with
  | (none, i) => (⟨true, false⟩, ⟨i, m.value⟩)
  | (some (.ready none), i) => (⟨true, false⟩, ⟨i, m.value⟩)
  | (some (.ready (some a)), i) => (⟨false, true⟩, ⟨i, some a⟩)
  | (some .pending, i) => (⟨false, false⟩, ⟨i, m.value⟩)

/-- `__internal_map_result!`, `/repo/src/signal/macros.rs:3-10`: the inputs are polled from left to
right.  The macros need at least one input; the value for no inputs is only the neutral element of
`merge`. -/
def pollInputs (w : Waker) : List (MapRef1 α) → PollResult × List (MapRef1 α)
  | [] => (⟨true, false⟩, [])
  | m :: ms =>
    let a := m.poll w
    let b := pollInputs w ms
    (a.1.merge b.1, a.2 :: b.2)

/-- `__internal_value_ref!`, `__internal_value_mut!`, `/repo/src/signal/macros.rs:22-36`: `value_ref`
or `value_mut` (`/repo/src/internal.rs:101-109`) of each input, `none` if one of them has no value (`unreachable!()`,
`/repo/src/internal.rs:7-22`). -/
def inputValues : List (MapRef1 α) → Option (List α)
  | [] => some []
  | m :: ms =>
    match m.value, inputValues ms with
    | some v, some vs => some (v :: vs)
    | _, _ => none

/-- The values as the body of `map_mut!` left them. -/
def setValues : List (MapRef1 α) → List α → List (MapRef1 α)
  | m :: ms, v :: vs => ⟨m.signal, some v⟩ :: setValues ms vs
  | ms, _ => ms

/-- `map_mut!`, `/repo/src/signal/macros.rs:66-110`.  Simplification: all inputs have the same item
type.  The body `f` gets the current values and gives a result and the values it left. -/
def SMapMut.poll (f : List α → β × List α) (w : Waker) (ms : List (MapRef1 α)) :
    Option (Poll (Option β) × List (MapRef1 α)) :=
  match pollInputs w ms with
  | (result, ms') =>
    if result.changed then
      match inputValues ms' with
      | none => none
      | some vs => some (.ready (some (f vs).1), setValues ms' (f vs).2)
    else if result.done then some (.ready none, ms')
    else some (.pending, ms')

/-- `map_ref!`, `/repo/src/signal/macros.rs:304-308`: the body cannot change the values. -/
def SMapRef.poll (f : List α → β) (w : Waker) (ms : List (MapRef1 α)) :
    Option (Poll (Option β) × List (MapRef1 α)) := SMapMut.poll (fun vs => (f vs, vs)) w ms

/-- `MapRef1::new` for each input, `/repo/src/internal.rs:50-56`. -/
def SMapRef.init (scripts : List (List (Poll (Option α)))) : List (MapRef1 α) :=
  scripts.map fun script => ⟨Inp.mk' script, none⟩

/-- `and`, `/repo/src/signal/signal.rs:614-622`. -/
def SAnd.poll (w : Waker) (ms : List (MapRef1 Bool)) : Option (Poll (Option Bool) × List (MapRef1 Bool)) :=
  SMapRef.poll (fun vs => match vs with
    | [a, b] => a && b
    | _ => false) w ms

/-- `or`, `/repo/src/signal/signal.rs:627-635`. -/
def SOr.poll (w : Waker) (ms : List (MapRef1 Bool)) : Option (Poll (Option Bool) × List (MapRef1 Bool)) :=
  SMapRef.poll (fun vs => match vs with
    | [a, b] => a || b
    | _ => false) w ms

end Verif
