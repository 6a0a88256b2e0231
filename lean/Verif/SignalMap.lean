import Verif.SignalVec3
import Verif.MapDiff

/-!
# Model of the `SignalMap` combinators

`/repo/src/signal_map.rs:185-467` and `952-1040`.
-/

namespace Verif

variable {K V W β κ : Type}

/-! ## `always` -/

/-- `signal_map::Always`, `/repo/src/signal_map.rs:185-187`; the entries are those of the iterator. -/
structure MAlways (K V : Type) where
  map : Option (List (K × V))
deriving DecidableEq, Repr

/-- `Always::poll_map_change`, `/repo/src/signal_map.rs:196-207`; `always` is `214-218`. -/
def MAlways.poll (_w : Waker) (s : MAlways K V) :
    Option (Poll (Option (MapDiff K V)) × MAlways K V) :=
  match s.map with
  | some entries => some (.ready (some (.replace entries)), ⟨none⟩)
  | none => some (.ready none, ⟨none⟩)

/-! ## `map_value` -/

/-- The `map(|(k, v)| (k, callback(v))).collect()` of `Replace`, `/repo/src/signal_map.rs:43`. -/
def mapEntriesS (f : κ → V → W × κ) : κ → List (K × V) → List (K × W) × κ
  | k, [] => ([], k)
  | k, e :: es =>
    let r := f k e.2
    let rest := mapEntriesS f r.2 es
    ((e.1, r.1) :: rest.1, rest.2)

/-- `MapDiff::map` with a closure that has state, `/repo/src/signal_map.rs:40-49`. -/
def MapDiff.mapS (f : κ → V → W × κ) (k : κ) : MapDiff K V → MapDiff K W × κ
  | .replace entries => let r := mapEntriesS f k entries; (.replace r.1, r.2)
  | .insert key value => let r := f k value; (.insert key r.1, r.2)
  | .update key value => let r := f k value; (.update key r.1, r.2)
  | .remove key => (.remove key, k)
  | .clear => (.clear, k)

/-- `MapValue`, `/repo/src/signal_map.rs:224-228`, with the state of its callback. -/
structure MMapValue (κ K V : Type) where
  signal : Src (Option (MapDiff K V))
  st : κ

/-- `SignalMapExt::map_value`, `/repo/src/signal_map.rs:101-108`. -/
def MMapValue.init (k : κ) (script : List (Poll (Option (MapDiff K V)))) : MMapValue κ K V :=
  ⟨Src.mk' script, k⟩

/-- `MapValue::poll_map_change`, `/repo/src/signal_map.rs:237-241`. -/
def MMapValue.poll (f : κ → V → W × κ) (w : Waker) (m : MMapValue κ K V) :
    Option (Poll (Option (MapDiff K W)) × MMapValue κ K V) :=
  match m.signal.poll w with
  | (.ready (some change), s) =>
    let r := change.mapS f m.st
    some (.ready (some r.1), ⟨s, r.2⟩)
  | (.ready none, s) => some (.ready none, ⟨s, m.st⟩)
  | (.pending, s) => some (.pending, ⟨s, m.st⟩)

/-! ## `key_cloned` -/

section
variable [DecidableEq K]

/-- `MapWatchKeySignal`, `/repo/src/signal_map.rs:396-401`.  The `SignalMap` is not in an
`Option`. -/
structure MWatch (K V : Type) where
  signal : Src (Option (MapDiff K V))
  watchKey : K
  first : Bool

/-- `SignalMapExt::key_cloned`, `/repo/src/signal_map.rs:126-136`. -/
def MWatch.init (key : K) (script : List (Poll (Option (MapDiff K V)))) : MWatch K V :=
  ⟨Src.mk' script, key, true⟩

/-- `entries.into_iter().find(|entry| entry.0 == *watch_key).map(|entry| entry.1)`,
`/repo/src/signal_map.rs:419-422`. -/
def findEntry (key : K) (entries : List (K × V)) : Option V :=
  (entries.find? fun entry => decide (entry.1 = key)).map (·.2)

/-- Loop body on a change of the input, `/repo/src/signal_map.rs:416-441`: loop variable `changed`. -/
def watchBody (key : K) (changed : Option (Option V)) :
    MapDiff K V → Ctl (Option (Option V)) Empty
  | .replace entries => .cont (some (findEntry key entries))
  | .insert k value => .cont (if k = key then some (some value) else changed)
  | .update k value => .cont (if k = key then some (some value) else changed)
  | .remove k => .cont (if k = key then some none else changed)
  | .clear => .cont (some none)

/-- `/repo/src/signal_map.rs:452-465`, the part after the input loop. -/
def MWatch.finish (isDone : Bool) (changed : Option (Option V)) (src : Src (Option (MapDiff K V)))
    (key : K) (first : Bool) : Poll (Option (Option V)) × MWatch K V :=
  match changed with
  | some change => (.ready (some change), ⟨src, key, false⟩)
  | none =>
    if first then (.ready (some none), ⟨src, key, false⟩)
    else if isDone then (.ready none, ⟨src, key, first⟩)
    else (.pending, ⟨src, key, first⟩)

/-- `MapWatchKeySignal::poll_change`, `/repo/src/signal_map.rs:409-466`. -/
def MWatch.poll (w : Waker) (m : MWatch K V) :
    Option (Poll (Option (Option V)) × MWatch K V) :=
  match m.signal.loop w (watchBody m.watchKey) none with
  | (.panic, _, _) => none
  | (.ret _, _, _) => none
  | (.ended, changed, s) => some (MWatch.finish true changed s m.watchKey m.first)
  | (.pending, changed, s) => some (MWatch.finish false changed s m.watchKey m.first)

end

/-! ## `map_value_signal` -/

section
variable [LinearOrder K]

/-- `MapValueSignal`, `/repo/src/signal_map.rs:280-287`; `signals` is a `BTreeMap`. -/
structure MMapSignal (K V β : Type) where
  signal : Inp (Option (MapDiff K V))
  signals : List (K × MState V β)
  pending : List (MapDiff K β)

/-- `SignalMapExt::map_value_signal`, `/repo/src/signal_map.rs:111-122`. -/
def MMapSignal.init (script : List (Poll (Option (MapDiff K V)))) : MMapSignal K V β :=
  ⟨Inp.mk' script, [], []⟩

/-- The `entries.into_iter().map(…).collect()` of `Replace`, `/repo/src/signal_map.rs:321-326`: the
entries collected and the signals afterwards. -/
def newEntries (g : V → List (Poll (Option β))) (w : Waker) :
    List (K × V) → List (K × MState V β) → Option (List (K × β) × List (K × MState V β))
  | [], signals => some ([], signals)
  | e :: es, signals =>
    match MState.new g w e.2 with
    | none => none
    | some (poll, signal) =>
      match newEntries g w es (bInsert e.1 signal signals).2 with
      | none => none
      | some (entries, signals) => some ((e.1, poll) :: entries, signals)

/-- Loop body on a change of the input, `/repo/src/signal_map.rs:315-354`: loop variables `signals`
and `new_pending`. -/
def mapValueBody (g : V → List (Poll (Option β))) (w : Waker)
    (s : List (K × MState V β) × List (MapDiff K β)) (change : MapDiff K V) :
    Ctl (List (K × MState V β) × List (MapDiff K β)) Empty :=
  let (signals, newPending) := s
  match change with
  | .replace entries =>
    match newEntries g w entries [] with
    | none => .panic
    | some (entries, signals) => .cont (signals, newPending ++ [.replace entries])
  | .insert key value =>
    match MState.new g w value with
    | none => .panic
    | some (poll, signal) =>
      .cont ((bInsert key signal signals).2, newPending ++ [.insert key poll])
  | .update key value =>
    match MState.new g w value with
    | none => .panic
    | some (poll, signal) =>
      match bUpdate key signal signals with
      | none => .panic
      | some signals => .cont (signals, newPending ++ [.update key poll])
  | .remove key => .cont ((bRemove key signals).2, newPending ++ [.remove key])
  | .clear => .cont ([], newPending ++ [.clear])

/-- The `for (key, signal) in signals` loop, `/repo/src/signal_map.rs:365-379`: `has_pending`,
`new_pending` and the signals afterwards. -/
def pollEntries (w : Waker) : List (MapDiff K β) → List (K × MState V β) →
    Bool × List (MapDiff K β) × List (K × MState V β)
  | newPending, [] => (false, newPending, [])
  | newPending, s :: ss =>
    match s.2.sig.poll w with
    | (some (.ready (some value)), i) =>
      let (hp, np, ss) := pollEntries w (newPending ++ [.update s.1 value]) ss
      (hp, np, (s.1, ⟨s.2.tag, i⟩) :: ss)
    | (some (.ready none), i) =>
      let (hp, np, ss) := pollEntries w newPending ss
      (hp, np, (s.1, ⟨s.2.tag, i⟩) :: ss)
    | (some .pending, i) =>
      let (_, np, ss) := pollEntries w newPending ss
      (true, np, (s.1, ⟨s.2.tag, i⟩) :: ss)
    | (none, i) =>
      let (hp, np, ss) := pollEntries w newPending ss
      (hp, np, (s.1, ⟨s.2.tag, i⟩) :: ss)

/-- `/repo/src/signal_map.rs:361-390`, the part after the input loop. -/
def MMapSignal.finish (w : Waker) (done : Bool) (signal : Inp (Option (MapDiff K V)))
    (signals : List (K × MState V β)) (newPending : List (MapDiff K β)) :
    Poll (Option (MapDiff K β)) × MMapSignal K V β :=
  match pollEntries w newPending signals with
  | (_, first :: rest, signals) => (.ready (some first), ⟨signal, signals, rest⟩)
  | (hasPending, [], signals) =>
    if done && !hasPending then (.ready none, ⟨signal, signals, []⟩)
    else (.pending, ⟨signal, signals, []⟩)

/-- `MapValueSignal::poll_map_change`, `/repo/src/signal_map.rs:297-391`. -/
def MMapSignal.poll (g : V → List (Poll (Option β))) (w : Waker) (s : MMapSignal K V β) :
    Option (Poll (Option (MapDiff K β)) × MMapSignal K V β) :=
  match s.pending with
  | diff :: rest => some (.ready (some diff), { s with pending := rest })
  | [] =>
    match s.signal.loop w (mapValueBody g w) (s.signals, []) with
    | (.panic, _, _) => none
    | (.ret _, _, _) => none
    | (.ended, (signals, np), i) => some (MMapSignal.finish w true i signals np)
    | (.pending, (signals, np), i) => some (MMapSignal.finish w false i signals np)

/-! ## `signal_vec_keys`, `entries_cloned`, `signal_vec_entries` -/

/-- `MutableBTreeMapKeys` and `MutableBTreeMapEntries`, `/repo/src/signal_map.rs:954-957`,
`1001-1004`.  The input is a `MutableSignalMap`; here any `SignalMap`. -/
structure MKeys (K V : Type) where
  signal : Src (Option (MapDiff K V))
  keys : List K

/-- `signal_vec_keys`, `entries_cloned`, `signal_vec_entries`, `/repo/src/signal_map.rs:857-888`. -/
def MKeys.init (script : List (Poll (Option (MapDiff K V)))) : MKeys K V := ⟨Src.mk' script, []⟩

/-- Loop body of `MutableBTreeMapKeys`, `/repo/src/signal_map.rs:968-989`.  `bs` is
`slice::binary_search` (external). -/
def keysBody (bs : List K → K → Except Nat Nat) (keys : List K) : MapDiff K V → Ctl (List K) (VecDiff K)
  | .replace entries =>
    let keys := entries.map (·.1)
    .ret keys (.replace keys)
  | .insert key _ =>
    match bs keys key with
    | .ok _ => .panic
    | .error index =>
      match vInsert keys index key with
      | none => .panic
      | some keys => .ret keys (.insertAt index key)
  | .update _ _ => .cont keys
  | .remove key =>
    match bs keys key with
    | .error _ => .panic
    | .ok index =>
      match vRemove keys index with
      | none => .panic
      | some (_, keys) => .ret keys (.removeAt index)
  | .clear => .ret [] .clear

/-- `MutableBTreeMapKeys::poll_vec_change`, `/repo/src/signal_map.rs:965-995`. -/
def MKeys.poll (bs : List K → K → Except Nat Nat) (w : Waker) (m : MKeys K V) :
    Option (Poll (Option (VecDiff K)) × MKeys K V) :=
  match m.signal.loop w (keysBody bs) m.keys with
  | (.panic, _, _) => none
  | (.ret d, keys, s) => some (.ready (some d), ⟨s, keys⟩)
  | (.ended, keys, s) => some (.ready none, ⟨s, keys⟩)
  | (.pending, keys, s) => some (.pending, ⟨s, keys⟩)

/-- The closure of `MutableBTreeMapEntries`, `/repo/src/signal_map.rs:1013-1037`. -/
def entriesChange (bs : List K → K → Except Nat Nat) (keys : List K) :
    MapDiff K V → Option (VecDiff (K × V) × List K)
  | .replace entries => some (.replace entries, entries.map (·.1))
  | .insert key value =>
    match bs keys key with
    | .ok _ => none
    | .error index =>
      match vInsert keys index key with
      | none => none
      | some keys => some (.insertAt index (key, value), keys)
  | .update key value =>
    match bs keys key with
    | .error _ => none
    | .ok index => some (.updateAt index (key, value), keys)
  | .remove key =>
    match bs keys key with
    | .error _ => none
    | .ok index =>
      match vRemove keys index with
      | none => none
      | some (_, keys) => some (.removeAt index, keys)
  | .clear => some (.clear, [])

/-- `MutableBTreeMapEntries::poll_vec_change`, `/repo/src/signal_map.rs:1011-1039`. -/
def MEntries.poll (bs : List K → K → Except Nat Nat) (w : Waker) (m : MKeys K V) :
    Option (Poll (Option (VecDiff (K × V))) × MKeys K V) :=
  match m.signal.poll w with
  | (.ready (some diff), s) =>
    match entriesChange bs m.keys diff with
    | none => none
    | some (d, keys) => some (.ready (some d), ⟨s, keys⟩)
  | (.ready none, s) => some (.ready none, ⟨s, m.keys⟩)
  | (.pending, s) => some (.pending, ⟨s, m.keys⟩)

end

end Verif
