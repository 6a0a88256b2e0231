import Verif.Input

/-!
# Model of the `Signal` combinators with one input

`/repo/src/signal/signal.rs`.  Inputs are scripts (`Src`, `Inp`), as for `SignalVec`.  A `FnMut`
callback has the form `κ → argument → result × κ`, where `κ` is the state it captured.
-/

namespace Verif

variable {α β κ : Type}

/-- Run a `Future` as an executor does: poll it with the given wakers, one poll each, stopping for
good after `Ready`.  Returns the answers and the final state, or `none` if a poll panicked. -/
def runF {σ β : Type} (poll : Waker → σ → Option (Poll β × σ)) :
    List Waker → σ → Option (List (Poll β) × σ)
  | [], s => some ([], s)
  | w :: ws, s =>
    match poll w s with
    | none => none
    | some (.ready b, s') => some ([.ready b], s')
    | some (.pending, s') =>
      match runF poll ws s' with
      | none => none
      | some (outs, s'') => some (.pending :: outs, s'')

/-! ## `map`, `inspect`, `not` -/

/-- `Map` and `Inspect`, `/repo/src/signal/signal.rs:1075-1079`, `1219-1223`, with the state of the
callback. -/
structure SMap (κ α : Type) where
  signal : Src (Option α)
  st : κ

/-- `SignalExt::map`, `SignalExt::inspect`, `/repo/src/signal/signal.rs:155-171`. -/
def SMap.init (k : κ) (script : List (Poll (Option α))) : SMap κ α := ⟨Src.mk' script, k⟩

/-- `Map::poll_change`, `/repo/src/signal/signal.rs:1087-1091`. -/
def SMap.poll (f : κ → α → β × κ) (w : Waker) (m : SMap κ α) :
    Option (Poll (Option β) × SMap κ α) :=
  match m.signal.poll w with
  | (.ready (some value), s) => let r := f m.st value; some (.ready (some r.1), ⟨s, r.2⟩)
  | (.ready none, s) => some (.ready none, ⟨s, m.st⟩)
  | (.pending, s) => some (.pending, ⟨s, m.st⟩)

/-- `Inspect::poll_change`, `/repo/src/signal/signal.rs:1231-1241`.  The callback gets `&value` and
returns nothing: only its state changes. -/
def SInspect.poll (f : κ → α → κ) (w : Waker) (m : SMap κ α) :
    Option (Poll (Option α) × SMap κ α) :=
  match m.signal.poll w with
  | (.ready (some value), s) => some (.ready (some value), ⟨s, f m.st value⟩)
  | (.ready none, s) => some (.ready none, ⟨s, m.st⟩)
  | (.pending, s) => some (.pending, ⟨s, m.st⟩)

/-- `not`, `/repo/src/signal/signal.rs:606-609`. -/
def SNot.poll (w : Waker) (m : SMap Unit Bool) : Option (Poll (Option Bool) × SMap Unit Bool) :=
  SMap.poll (fun _ x => (!x, ())) w m

/-! ## `stop_if` -/

/-- `StopIf`, `/repo/src/signal/signal.rs:1098-1103`. -/
structure SStopIf (κ α : Type) where
  signal : Src (Option α)
  stopped : Bool
  st : κ

/-- `SignalExt::stop_if`, `/repo/src/signal/signal.rs:540-548`. -/
def SStopIf.init (k : κ) (script : List (Poll (Option α))) : SStopIf κ α :=
  ⟨Src.mk' script, false, k⟩

/-- `StopIf::poll_change`, `/repo/src/signal/signal.rs:1110-1132`. -/
def SStopIf.poll (test : κ → α → Bool × κ) (w : Waker) (m : SStopIf κ α) :
    Option (Poll (Option α) × SStopIf κ α) :=
  if m.stopped then some (.ready none, m)
  else
    match m.signal.poll w with
    | (.ready (some value), s) =>
      let r := test m.st value
      some (.ready (some value), ⟨s, if r.1 then true else m.stopped, r.2⟩)
    | (.ready none, s) => some (.ready none, ⟨s, true, m.st⟩)
    | (.pending, s) => some (.pending, ⟨s, m.stopped, m.st⟩)

/-! ## `eq`, `neq` -/

/-- `Eq` and `Neq`, `/repo/src/signal/signal.rs:1139-1144`, `1179-1184`. -/
structure SEq (α : Type) where
  signal : Src (Option α)
  matched : Option Bool
  value : α

/-- `SignalExt::eq`, `SignalExt::neq`, `/repo/src/signal/signal.rs:175-196`. -/
def SEq.init (value : α) (script : List (Poll (Option α))) : SEq α := ⟨Src.mk' script, none, value⟩

/-- Loop body, `/repo/src/signal/signal.rs:1157-1167`. -/
def eqBody [BEq α] (value : α) (matched : Option Bool) (newValue : α) : Ctl (Option Bool) Bool :=
  let new := newValue == value
  if matched ≠ some new then .ret (some new) new else .cont matched

/-- `Eq::poll_change`, `/repo/src/signal/signal.rs:1152-1172`. -/
def SEq.poll [BEq α] (w : Waker) (m : SEq α) : Option (Poll (Option Bool) × SEq α) :=
  match m.signal.loop w (eqBody m.value) m.matched with
  | (.ret new, matched, s) => some (.ready (some new), ⟨s, matched, m.value⟩)
  | (.ended, matched, s) => some (.ready none, ⟨s, matched, m.value⟩)
  | (.pending, matched, s) => some (.pending, ⟨s, matched, m.value⟩)
  | (.panic, _, _) => none

/-- Loop body, `/repo/src/signal/signal.rs:1197-1207`; `!=` is the negation of `==`. -/
def neqBody [BEq α] (value : α) (matched : Option Bool) (newValue : α) : Ctl (Option Bool) Bool :=
  let new := newValue != value
  if matched ≠ some new then .ret (some new) new else .cont matched

/-- `Neq::poll_change`, `/repo/src/signal/signal.rs:1192-1212`. -/
def SNeq.poll [BEq α] (w : Waker) (m : SEq α) : Option (Poll (Option Bool) × SEq α) :=
  match m.signal.loop w (neqBody m.value) m.matched with
  | (.ret new, matched, s) => some (.ready (some new), ⟨s, matched, m.value⟩)
  | (.ended, matched, s) => some (.ready none, ⟨s, matched, m.value⟩)
  | (.pending, matched, s) => some (.pending, ⟨s, matched, m.value⟩)
  | (.panic, _, _) => none

/-! ## `dedupe`, `dedupe_cloned`, `dedupe_map` -/

/-- `DedupeMap`, `Dedupe`, `DedupeCloned`, `/repo/src/signal/signal.rs:1456-1461`, `1484-1488`,
`1508-1512`. -/
structure SDedupe (κ α : Type) where
  oldValue : Option α
  signal : Src (Option α)
  st : κ

/-- `SignalExt::dedupe_map`, `dedupe`, `dedupe_cloned`, `/repo/src/signal/signal.rs:221-252`. -/
def SDedupe.init (k : κ) (script : List (Poll (Option α))) : SDedupe κ α :=
  ⟨none, Src.mk' script, k⟩

/-- Loop body of the helper `dedupe`, `/repo/src/signal/signal.rs:1431-1445`.  The callback gets
`&mut new_value`: besides its result it gives the value it leaves. -/
def dedupeBody [BEq α] (f : κ → α → (β × α) × κ) (s : Option α × κ) (newValue : α) :
    Ctl (Option α × κ) β :=
  let hasChanged := match s.1 with
    | some oldValue => oldValue != newValue
    | none => true
  if hasChanged then
    let r := f s.2 newValue
    .ret (some r.1.2, r.2) r.1.1
  else .cont s

/-- `DedupeMap::poll_change`, `/repo/src/signal/signal.rs:1425-1450`, `1473-1477`. -/
def SDedupeMap.poll [BEq α] (f : κ → α → (β × α) × κ) (w : Waker) (m : SDedupe κ α) :
    Option (Poll (Option β) × SDedupe κ α) :=
  match m.signal.loop w (dedupeBody f) (m.oldValue, m.st) with
  | (.ret output, (old, st), s) => some (.ready (some output), ⟨old, s, st⟩)
  | (.ended, (old, st), s) => some (.ready none, ⟨old, s, st⟩)
  | (.pending, (old, st), s) => some (.pending, ⟨old, s, st⟩)
  | (.panic, _, _) => none

/-- `Dedupe::poll_change` and `DedupeCloned::poll_change`, `/repo/src/signal/signal.rs:1497-1501`,
`1521-1525`; a copy or clone of a value equals it. -/
def SDedupe.poll [BEq α] (w : Waker) (m : SDedupe Unit α) :
    Option (Poll (Option α) × SDedupe Unit α) :=
  SDedupeMap.poll (fun _ value => ((value, value), ())) w m

/-! ## `filter_map` -/

/-- `FilterMap`, `/repo/src/signal/signal.rs:1532-1537`. -/
structure SFilterMap (κ α : Type) where
  signal : Src (Option α)
  st : κ
  first : Bool

/-- `SignalExt::filter_map`, `/repo/src/signal/signal.rs:361-371`. -/
def SFilterMap.init (k : κ) (script : List (Poll (Option α))) : SFilterMap κ α :=
  ⟨Src.mk' script, k, true⟩

/-- Loop body, `/repo/src/signal/signal.rs:1550-1565`: loop variables the callback's state and
`first`. -/
def filterMapSBody (f : κ → α → Option β × κ) (s : κ × Bool) (value : α) :
    Ctl (κ × Bool) (Option β) :=
  match f s.1 value with
  | (some value, k) => .ret (k, false) (some value)
  | (none, k) => if s.2 then .ret (k, false) none else .cont (k, s.2)

/-- `FilterMap::poll_change`, `/repo/src/signal/signal.rs:1545-1570`. -/
def SFilterMap.poll (f : κ → α → Option β × κ) (w : Waker) (m : SFilterMap κ α) :
    Option (Poll (Option (Option β)) × SFilterMap κ α) :=
  match m.signal.loop w (filterMapSBody f) (m.st, m.first) with
  | (.ret value, (k, first), s) => some (.ready (some value), ⟨s, k, first⟩)
  | (.ended, (k, first), s) => some (.ready none, ⟨s, k, first⟩)
  | (.pending, (k, first), s) => some (.pending, ⟨s, k, first⟩)
  | (.panic, _, _) => none

/-! ## `wait_for`, `to_future`, `first` -/

/-- `WaitFor`, `/repo/src/signal/signal.rs:1373-1379`. -/
structure SWaitFor (α : Type) where
  signal : Src (Option α)
  value : α

/-- `SignalExt::wait_for`, `/repo/src/signal/signal.rs:500-507`. -/
def SWaitFor.init (value : α) (script : List (Poll (Option α))) : SWaitFor α := ⟨Src.mk' script, value⟩

/-- Loop body, `/repo/src/signal/signal.rs:1393-1399`. -/
def waitForBody [BEq α] (value : α) (_ : Unit) (newValue : α) : Ctl Unit α :=
  if newValue != value then .cont () else .ret () newValue

/-- `WaitFor::poll`, `/repo/src/signal/signal.rs:1387-1401`. -/
def SWaitFor.poll [BEq α] (w : Waker) (m : SWaitFor α) : Option (Poll (Option α) × SWaitFor α) :=
  match m.signal.loop w (waitForBody m.value) () with
  | (.ret value, _, s) => some (.ready (some value), ⟨s, m.value⟩)
  | (.ended, _, s) => some (.ready none, ⟨s, m.value⟩)
  | (.pending, _, s) => some (.pending, ⟨s, m.value⟩)
  | (.panic, _, _) => none

/-- `SignalFuture`, `/repo/src/signal/signal.rs:1041-1045`. -/
structure SToFuture (α : Type) where
  signal : Src (Option α)
  value : Option α

/-- `SignalExt::to_future`, `/repo/src/signal/signal.rs:92-98`. -/
def SToFuture.init (script : List (Poll (Option α))) : SToFuture α := ⟨Src.mk' script, none⟩

/-- Loop body, `/repo/src/signal/signal.rs:1059-1062`. -/
def toFutureBody (_ : Option α) (newValue : α) : Ctl (Option α) Empty := .cont (some newValue)

/-- `SignalFuture::poll`, `/repo/src/signal/signal.rs:1051-1068`; `none` is the panicking `unwrap`. -/
def SToFuture.poll (w : Waker) (m : SToFuture α) : Option (Poll α × SToFuture α) :=
  match m.signal.loop w toFutureBody m.value with
  | (.ended, some value, s) => some (.ready value, ⟨s, none⟩)
  | (.ended, none, _) => none
  | (.pending, value, s) => some (.pending, ⟨s, value⟩)
  | (.ret _, _, _) => none
  | (.panic, _, _) => none

/-- `First`, `/repo/src/signal/signal.rs:903-906`. -/
structure SFirst (α : Type) where
  signal : Inp (Option α)

/-- `SignalExt::first`, `/repo/src/signal/signal.rs:510-514`. -/
def SFirst.init (script : List (Poll (Option α))) : SFirst α := ⟨Inp.mk' script⟩

/-- `First::poll_change`, `/repo/src/signal/signal.rs:911-922`: whatever the answer, the signal is
dropped. -/
def SFirst.poll (w : Waker) (m : SFirst α) : Option (Poll (Option α) × SFirst α) :=
  match m.signal.poll w with
  | (some poll, i) => some (poll, ⟨⟨i.src, false⟩⟩)
  | (none, i) => some (.ready none, ⟨i⟩)

/-! ## `from_future`, `from_stream`, `always`, `option`, `result` -/

/-- `FromFuture`, `/repo/src/signal/signal.rs:766-771`.  `alive` is whether `future` is `Some`. -/
structure SFromFuture (α : Type) where
  future : Src α
  alive : Bool
  first : Bool

/-- `from_future`, `/repo/src/signal/signal.rs:804-806`. -/
def SFromFuture.init (script : List (Poll α)) : SFromFuture α := ⟨Src.mk' script, true, true⟩

/-- `FromFuture::poll_change`, `/repo/src/signal/signal.rs:776-800`. -/
def SFromFuture.poll (w : Waker) (m : SFromFuture α) :
    Option (Poll (Option (Option α)) × SFromFuture α) :=
  if m.alive then
    match m.future.poll w with
    | (.ready value, s) => some (.ready (some (some value)), ⟨s, false, m.first⟩)
    | (.pending, s) =>
      if m.first then some (.ready (some none), ⟨s, true, false⟩)
      else some (.pending, ⟨s, true, m.first⟩)
  else some (.ready none, m)

/-- `signal::FromStream`, `/repo/src/signal/signal.rs:812-816`. -/
structure SFromStream (α : Type) where
  stream : Inp (Option α)
  first : Bool

/-- `from_stream`, `/repo/src/signal/signal.rs:870-872`. -/
def SFromStream.init (script : List (Poll (Option α))) : SFromStream α := ⟨Inp.mk' script, true⟩

/-- Loop body, `/repo/src/signal/signal.rs:837-840`. -/
def fromStreamBody (_ : Option α) (newValue : α) : Ctl (Option α) Empty := .cont (some newValue)

/-- `/repo/src/signal/signal.rs:848-865`, the part after the loop. -/
def SFromStream.finish (done : Bool) (value : Option α) (stream : Inp (Option α)) (first : Bool) :
    Poll (Option (Option α)) × SFromStream α :=
  match value with
  | some value => (.ready (some (some value)), ⟨stream, false⟩)
  | none =>
    if first then (.ready (some none), ⟨stream, false⟩)
    else if done then (.ready none, ⟨stream, first⟩)
    else (.pending, ⟨stream, first⟩)

/-- `FromStream::poll_change`, `/repo/src/signal/signal.rs:821-866`. -/
def SFromStream.poll (w : Waker) (m : SFromStream α) :
    Option (Poll (Option (Option α)) × SFromStream α) :=
  match m.stream.loop w fromStreamBody none with
  | (.ended, value, i) => some (SFromStream.finish true value i m.first)
  | (.pending, value, i) => some (SFromStream.finish false value i m.first)
  | (.ret _, _, _) => none
  | (.panic, _, _) => none

/-- `signal::Always`, `/repo/src/signal/signal.rs:877-879`; `always` is `893-897`. -/
structure SAlways (α : Type) where
  value : Option α
deriving DecidableEq, Repr

/-- `Always::poll_change`, `/repo/src/signal/signal.rs:887-889`. -/
def SAlways.poll (_w : Waker) (m : SAlways α) : Option (Poll (Option α) × SAlways α) :=
  some (.ready m.value, ⟨none⟩)

/-- `MaybeSignalState`, `/repo/src/signal/signal.rs:640-643`. -/
inductive SMaybe (α ε : Type) where
  | signal (s : Src (Option α))
  | value (v : Option ε)

/-- `MaybeSignalState::poll`, `/repo/src/signal/signal.rs:646-660`. -/
def SMaybe.poll {ε γ : Type} (mapSignal : α → γ) (mapValue : ε → γ) (w : Waker) (m : SMaybe α ε) :
    Option (Poll (Option γ) × SMaybe α ε) :=
  match m with
  | .value (some v) => some (.ready (some (mapValue v)), .value none)
  | .value none => some (.ready none, .value none)
  | .signal s =>
    match s.poll w with
    | (.ready (some v), s) => some (.ready (some (mapSignal v)), .signal s)
    | (.ready none, s) => some (.ready none, .signal s)
    | (.pending, s) => some (.pending, .signal s)

/-- `result`, `/repo/src/signal/signal.rs:689-698`. -/
def SResult.init {ε : Type} : Except ε (List (Poll (Option α))) → SMaybe α ε
  | .ok script => .signal (Src.mk' script)
  | .error e => .value (some e)

/-- `ResultSignal::poll_change`, `/repo/src/signal/signal.rs:675-677`. -/
def SResult.poll {ε : Type} (w : Waker) (m : SMaybe α ε) :
    Option (Poll (Option (Except ε α)) × SMaybe α ε) := SMaybe.poll .ok .error w m

/-- `option`, `/repo/src/signal/signal.rs:725-734`. -/
def SOption.init : Option (List (Poll (Option α))) → SMaybe α (Option α)
  | some script => .signal (Src.mk' script)
  | none => .value (some none)

/-- `OptionSignal::poll_change`, `/repo/src/signal/signal.rs:712-714`. -/
def SOption.poll (w : Waker) (m : SMaybe α (Option α)) :
    Option (Poll (Option (Option α)) × SMaybe α (Option α)) := SMaybe.poll some id w m

end Verif
