# Formal model of rust-signals (futures-signals 0.3.34)

## 1. Approach

The library is a set of poll-driven state machines.  The Lean model
(`lean/Verif/`) transcribes them function by function as total, computable
functions on plain data.  Rust concept to Lean concept:

| Rust | Lean |
|---|---|
| `Poll<T>` | `Poll α` (`ready a` / `pending`) |
| `usize` | `Nat`; subtractions and indexings are checked and give `panic` |
| `Vec<T>`, `VecDeque<T>` | `List α` with checked `insert`/`remove`/`set` |
| panic (index out of range, `unwrap` on `None`, `unreachable!`) | an explicit `none` / `panic` result |
| `&mut self` | the function returns the new state |
| `Context` / `Waker` | a `Nat` naming the waker that the poll was called with |
| an input `Signal`/`SignalVec`/`SignalMap`/`Stream`/`Future` | `Src`: a finite *script* of future answers plus the *history* of polls made so far, each with its waker and its answer |
| closures `FnMut` | functions of a state that they change (`map`, `filter`, `filter_map`, `dedupe_map`, …); closures that make signals, lists and futures are pure functions in the first models, and functions of all earlier calls in `FnMut.lean`, which is shown to reduce to the former (C95); comparison functions of sorting are pure |
| `BTreeMap` | list of entries with strictly ascending keys |
| `futures_channel::mpsc::unbounded` | FIFO list with a receiver-alive flag |
| atomics, `RwLock`, `Mutex` | API-atomic state changes in the sequential models; one step per atomic operation / critical section in the interleaving models |

**Scripts.**  An input is an adversary: it may answer anything to each poll.
A finite run of a combinator polls each input finitely often, so quantifying
over all finite scripts (with `Pending` once exhausted) quantifies over all
behaviours of the input in all finite runs, whatever other threads do to it in
the meantime.  It also makes each Rust `loop { match input.poll_change(cx) … }`
a structural recursion on the script.  The output of a combinator, as seen by
its consumer, is again such a script; that is how results compose (C60).

**Histories.**  `Src.hist` is a ghost log `(waker, answer)`.  It expresses
"was polled with waker w and answered Pending last" (the waker is registered),
"has ended", "was polled after its end", and "the diffs consumed so far".

**Replay.**  `VecDiff.apply` models `VecDiff::apply_to_vec` (checked).
`replay ds xs` applies diffs in order.  A history is *well-formed* if replay of
its diffs from the empty vector does not panic.  Tracking theorems have the form:
for every well-formed script and every number of polls the combinator does not
panic, the emitted diffs replay without panic, and whenever the last answer was
`Pending` or the end, the result is the specification function of the replayed
input.

**Mirror theorems** for `MutableVec` / `MutableBTreeMap` are invariants over all
finite histories of operations on a world with any number of subscribers.

**Concurrency.**  `Mutable`, `channel`, `Broadcaster` and `CancelableFuture` each
have a sequential model (API calls do not overlap) in which the properties are
proved, and an interleaving model with one step per atomic access, sequentially
consistent; `channel`, which asks for less, has a release/acquire model too.  Where an interleaving breaks the claim, the negation is proved by
exhibiting the schedule and the strongest surviving claim is proved as
`…_partial`.

## 2. Trusted base

* Lean 4.33.0 kernel. Axioms: at most `propext`, `Classical.choice`, `Quot.sound`
  (checked by `#print axioms` on every theorem in the manifest).
* The transcription Rust → Lean (line references on every definition).
* Assumed behaviour of code outside the repository: `Vec`, `VecDeque`, `BTreeMap`
  (documented behaviour), `slice::sort_unstable_by` (returns a sorted
  permutation), `slice::binary_search_by` (documented contract), `futures` mpsc
  unbounded channel (FIFO, send fails iff receiver dropped, `None` iff senders
  gone and queue empty, wakes the registered waker), `RwLock`/`Mutex`/`Arc`/`Weak`.
  `futures_util::stream::ForEach` (`for_each`, C65): its documented loop is modelled
  (take the running future, else the next item).
* Mathlib is used for `LinearOrder`, `List.Forall₂` and a few `Nat` lemmas only.
* Memory model: sequential consistency, except in `ChannelRA` (C82)
  and `AtomicRA` (C84).  `mutable.rs`, `broadcaster.rs` and
  `future.rs` use only `SeqCst` operations and locks, so nothing is lost there.  `atomic.rs` swaps one
  location with `AcqRel`, which is atomic under any ordering (C42 is about that one location); that the ordering
  also protects the boxes behind the pointers is C84.
  `channel.rs` uses `Acquire`/`Release`/`AcqRel` on three locations; there C39-C41 and C80 (for receivers)
  are about sequential consistency, and C82 is about the orderings that the code asks for: which of
  these claims survive, and which do not.  C82 trusts the operational form of release/acquire
  consistency given at the head of `ChannelRA.lean`, C84 the rules for happens-before given at the head of
  `AtomicRA.lean`.

### Modelled

| source | model |
|---|---|
| `signal_vec.rs`: `VecDiff`, `MutableVec` and its guards and `Drain`, every `SignalVecExt` combinator, `always`, `from_stream`, `to_stream`, `for_each` | `VecDiff`, `MutableVec`, `MutableVecPanic`, `Hub`, `HubPanic`, `HubConc`, `HubConcApi`, `SignalVec1`–`SignalVec6`, `EnumSig`, `ForEach` |
| `signal_map.rs`: `MapDiff`, `MutableBTreeMap` and its guards, `keys`, `entries`, every `SignalMapExt` combinator | `MapDiff`, `BTree`, `MutableBTreeMap`, `MutableBTreeMapPanic`, `SignalMap`, `ForEach` |
| `signal/signal.rs`: every `SignalExt` combinator, `always`, `from_future`, `from_stream`, `option`, `result`, `and`, `or`, `not` | `SignalA`, `SignalB`, `ForEach` |
| `signal/macros.rs`, `internal.rs`: `map_ref!`, `map_mut!`, `MapRef1` | `SignalB` (one item type for all inputs) |
| `signal/mutable.rs` | `Mutable` (API calls atomic), `MutableConc`, `SwapConc` (interleavings), `MutablePanic` (panics of user code) |
| `signal/channel.rs` | `Channel`, `ChannelConc` (interleavings), `ChannelRA` (release/acquire executions) |
| `signal/broadcaster.rs` | `Broadcaster`, `BroadcasterConc` (interleavings), `BroadcasterPanic` (panics of user code) |
| `atomic.rs` | `Atomic` (interleavings, C42), `AtomicRA` (memory orderings, C84) |
| `future.rs` | `Cancelable`, `CancelableConc` |
| forwarding impls (`&mut S`, `Box<S>`, `Pin<P>`), `boxed`, `debug`, serde impls | `Forward` (C70) |
| a whole network: Mutables below, combinators above, executor polls when woken | `Net` (C66): the combinators are the same poll functions, their inputs are the combinators below; `NetConc` (C68): interleaved at single accesses to a Mutable |
| which locks are taken, in which order, and what runs under them | `Locks` (C78) |

Each file names the lines of the source it transcribes on every definition and
says there what it simplifies.

### Not modelled

Pinning (values do not move in the model), `Send`/`Sync`, `Debug`/`Hash`/`Ord`/`PartialEq` impls of
the guards (they are those of the slice or map), lock poisoning after a panic except for `Mutable`,
`MutableVec`, `MutableBTreeMap` and `Broadcaster` (C72, C73, C76, C79; there a panic unwinds through the guard of the lock and poisons it, except in `C73_caught` and `C79_caught`, where it is caught under the guard; elsewhere a panic ends the modelled run), integer overflow beyond `usize::MAX` except where stated, allocation failure,
`mem::forget` of guards (a leaked `Drain`: C96).  `read_only`, `Deref` and clones of `ReadOnlyMutable` are further
references to the same state.  The first 50 lines of `atomic.rs` are commented out there.

## 3. Plan per property

| id | model | proof |
|---|---|---|
| C01 | `MutableVec` world: values, senders, receiver queues | invariant over operation histories |
| C02 | each operation as in the source (moves for swap/reverse, reverse-order removals for retain/drain) | refinement to list operations |
| C03 | same | case analysis of the emitted diffs |
| C04 | same, `notify_with` with explicit retain loop | diffs sent = function of the operations only; non-interference |
| C05 | handles counter, receiver waker | invariant over histories |
| C06, C07 | `VecDiff.map`, `MapDiff.map` | algebraic law |
| C08 | `Map.poll` | simulation + call log |
| C09 | `Chain.poll` with its queue | invariant: replay of emitted ++ queued = left ++ right. The "no lost wake-up" part is false (Replace/Clear of an empty side); see C57 |
| C10, C11 | `poll_filter_map` | invariant `indexes = map kept`. FALSE for backward `Move` (index computed after reinsertion): negation + `_partial` with exact side condition |
| C12 | `MapSignal.poll` with a list of inner scripts | invariant |
| C13 | `FilterSignalCloned.poll` | invariant; same `Move` defect |
| C14 | `Flatten.poll` | FALSE for outer RemoveAt/Pop/UpdateAt/Move of non-empty inner vectors: negation + `_partial`; with any outer history no panic, applicable diffs, never too few elements, exact again after Replace or Clear |
| C15 | `SortByCloned.poll` | invariant: `indexes` is the sorted permutation |
| C16 | `Enumerate.poll` with index cells | invariant |
| C17 | `DelayRemove.poll` | invariant: non-removing part = input |
| C18–C21 | `ToSignalMap`, `Len`, `IsEmpty`, `SumSignal` | simulation. C20 FALSE for the end report: negation + partial |
| C22 | `SwitchSignalVec.poll` | invariant; FALSE if the last inner vector ends at once after the signal ended: negation + partial |
| C23 | `SignalSignalVec`, `Always`, `StreamSignalVec` | simulation |
| C24, C25 | `MutableBTreeMap` world | as C01, C02 |
| C26, C27 | `MutableBTreeMapKeys/Entries.poll` | invariant with sorted lists |
| C28–C30 | `MapValue`, `MapValueSignal`, `MapWatchKeySignal` | simulation; C30's last clause FALSE |
| C31–C34 | sequential `Mutable` world with handles, signals, wakers | invariant with version counters |
| C35, C36 | interleaving model of writers, droppers and polls | C35 invariant over all interleavings; C36 FALSE, schedule exhibited, partial |
| C37 | lock-order model of `swap` | FALSE (self-swap and ABBA) |
| C38, C39 | sequential `channel` world | invariant |
| C40, C41 | interleaving model of the channel | FALSE, schedules exhibited, partial |
| C42 | ownership model of `AtomicOption`, any number of overlapping calls | invariant: multiset of values |
| C43, C44 | sequential `Broadcaster` world | invariant |
| C45 | interleaving model | FALSE, schedule exhibited |
| C46, C47 | `CancelableFuture` sequential / interleaving | invariant / FALSE |
| C48–C56 | one state machine per combinator | simulation, decision logic |
| C57–C59 | all combinators | per-poll theorems on histories. C57 FALSE for chain and is_empty, C58 FALSE for key_cloned |
| C60 | pipelines: the answers given by one combinator are the script of the next | composition of trace relations; FALSE for a chain below a chain: negation + partial |
| C61 | `MutableBTreeMap` world with handles | invariant over histories |
| C62 | interleaving model of `Mutable` | FALSE, schedule exhibited, partial |
| C63 | `Broadcaster` with an input that wakes during its poll | FALSE, witness, partial |
| C64 | all combinators | lexicographic measure on the scripts left; FALSE for key_cloned, partial |
| C65 | `for_each` | simulation with call log |
| C66 | `Net`: expression over Mutables, arbitrary interleaving of API calls and polls | invariant relating every node to the denotation of its expression |
| C67 | pipelines (C60) with a signal of the contents at the end | composition of trace relations; partial like C60 |
| C68 | `NetConc`: the networks of C66, other threads act between any two accesses to a Mutable; one call on a Mutable, or one poll, creation or drop of one of its signals, is one step | rely-guarantee invariant: what others may do to the signals of the network (`Drift`); glitch exhibited |
| C69 | `Flow`: pipelines with `map_signal` and `filter_signal_cloned` between the stages of C60; traces at each boundary, also for the signals of the elements; these are Mutables (model of C31-C34) | composition of stage relations (C12, C13, C57, C60) with the Mutable invariants (C31-C33); `_partial`: no `chain`, no backward moves when filtering |
| C70 | `Forward`: wrappers, `debug`, serde impls (serde itself is a pair of inverse functions, the log a list) | induction over the polls; composition with C01, C24, C31 |
| C71 | `Expr` (language, execution as a relation between traces, denotation), `SourceChan`, `SourceBc`, `FlattenStage`, `ChainStage` and `MutableVecLively` (who sends changes without effect, for `chain`) | induction over the expression; each combinator as a relation between its traces (C14-C30, C46-C51, C60, C67, C69), each source by its own invariant (C01, C24, C34, C38) |
| C72 | `MutablePanic`: the world of C31–C34 with a poisoned lock; events for panics in each piece of user code | simulation by the history without panics while only readers panic; invariant of the poisoned lock; `_partial`: once poisoned, nothing wakes a waiting signal (witness), and a drop of the last handle panics |
| C73 | `MutableVecPanic`: the world of C01–C05 with a poisoned lock; the values a panicking method leaves behind | simulation by the history of the completed calls, then C01 and C05; `_partial`: a `clone` that panics between two sends makes the subscribers disagree (witness); a panicking `move_from_to` or `swap` loses the element, which only poisoning hides (`C73_half_move`, `C73_caught`) |
| C74 | the consumers' own models (C51, C53–C55, C65) above `Expr` | composition of C71 with C51, C53, C54, C55, C65; `_partial` as C71 |
| C75 | `HubConc`: one step per send and per drop of a sender, polls and drops of receivers in between; instances `HubConcApi` | invariant over histories with the diffs still due to each subscriber; measure for termination; an undisturbed call is the one-step model |
| C76 | `BroadcasterPanic`: the world of C43, C44, C63 with a poisoned lock; a poll whose callback panics, or whose input panics at its n-th poll | simulation by the history without panics while the lock is not poisoned; poisoned iff the panic happens in a poll for which the input was due; invariant of the poisoned lock |
| C77 | the worlds of C31-C34, C43, C75: `signals`, `wakers`, `senders` | counting invariants over histories; a dropped subscriber leaves `senders` with the next `retain`; unbounded family of histories |
| C78 | `Locks`: the lock skeleton of every function that takes a lock, as a relation between pieces of code and sequences of acquire/release steps; threads that interleave such steps | locks are taken in ascending order of a rank; whoever waits for the greatest lock could go on; steps left decrease; a trap invariant for re-entrant code; concrete deadlocks where the conditions fail |
| C79 | `HubPanic`: a broadcast cut short after n rounds; `MutableVecPanic`, `MutableBTreeMapPanic`: every call of `clone` of every method may panic | invariant over histories: what each live subscriber was sent replays to the completed calls, or to those plus the call cut short |
| C80 | `SourceHubConc`, `SourceMutConc`, `SourceChanConc`: the interleaving models as sources of the expressions of C71 (the inside of a `Broadcaster` is not interleaved) | invariants over interleaved histories about the last poll of a subscriber; C71 does the rest |
| C81 | `EnumSig`: `Enumerate` with a whole `Mutable` per cell, its handles, and the signals of the receivers | simulation of the cell values of C16, handles counted as occurrences in `mutables`, then C31–C33 per cell |
| C82 | `ChannelRA`: the steps of `ChannelConc`, with all values of `senders` and a view per thread, call and message; loads read any value not older than the view | values and the window for them: invariants over all executions; the end: who knows of the write of 0; erasure to `ChannelConc` both ways; stale loads exhibited where the claim is false, partial |
| C83 | `Expr.mapIndexed`: the world of C81 below `map_signal`, inside the expressions of C71; `EnumStage` | the index cells are sources (C81), the emitted list is that of the input with cells; then as `map_signal` in C71; `_partial` as C71 |
| C84 | `AtomicRA`: the world of C42 with a log of box accesses and, for each thread, call and pointer, the accesses that happen before it; orderings are a parameter | who owns a box knows of all accesses to its address: invariant over all histories; weaker orderings refuted by a history |
| C85 | `SourceAsync`: futures and streams with the contract of `poll` as a hypothesis, and a queue that keeps it; the models of `from_future` and `from_stream` of C54 and C23 | C54, C23 and C57 give that at rest the future or stream was polled last with the same waker; then the contract, then C71; `_partial` as C71 |
| C86 | the models of C24 and C75 (`MutMap`, `HubConc`) | simulation between a world with any subscribers and one with a single subscriber: step by step, leaving out sends to the others |
| C87 | `Expr` with `stop_if`, `filter_map`, `throttle`, `map_future`, `delay_remove`; `Fut`: the contract of `Future`; `AsyncStage` | each combinator as a relation between its traces (C51, C53, C54, C55, C17, C57); the contract of the futures; then the induction of C71; `_partial` as C71 |
| C88 | `Tasks`: `Task`, `Sys.Step`: tasks `net.for_each(set)` over the networks of C66, with an executor | invariant over all steps: each task that is not ready is clean and armed (`SysInv`), wakers are registered only by tasks that read the target (`Reg`); the set of ready tasks as a number decreases with each poll (`code`) |
| C89 | `Tasks` with `twoWay`, `selfLoop` | invariant: with `set` one of the two is dirty; with `set_neq` a measure `todo` on values and readiness decreases |
| C90 | the combinators of `SignalVec1`–`SignalVec5` on arbitrary scripts | whether a change fits depends only on the length; each body that does not panic keeps its number of states equal to the length (`Checks`); witnesses for `len`, `delay_remove`, `chain` |
| C91 | `MutVec.Copies`: a `MutableVec` history whose calls are `apply_vec_diff` of what `for_each` was called on | changes that can be replayed never make `apply_vec_diff` panic and give the same contents; with C74 and C71; induction over the row of copies |
| C92 | `runOn` of `Verif/AfterEnd.lean`, which goes on after `Ready(None)`, over the poll functions of all combinators | from the state left by the poll that answered with the end: all inputs held in an `Option` are gone (induction over the inner inputs); induction over the later polls |
| C93 | `vol` of `Verif/Volume.lean` (sizes of changes) over the poll functions | amortised cost: a weight `owed` of the state for what is still to be sent; each poll pays for its answer and the new weight with the old weight and the changes it takes; induction over the loop and over the polls |
| C94 | `replay` of the changes taken, and `MapDiff.put` of `Verif/Held.lean` (changes that need not fit), over the poll functions | invariant of the polls: the entries held, read through the ghost `tag`, are the present list; each loop body does to the entries what the change does to the list |
| C95 | `FnMut.lean`: the six combinators with a callback `f : List ι → ι → script`, whose first argument is the list of the arguments of its earlier calls | simulation: each loop body is the one with a pure callback on a change whose values are annotated with the calls before theirs; C12, C13, C17, C22, C29, C54, C94 for annotated inputs; annotations are pairwise different and prefixes of the calls made |
| C96 | `MutableVecLeak.lean`: `World.leak`, histories `LEv` with leaked `Drain`s | the invariants of `MutableVecInv.lean` up to a relation between copy and contents; whether a change applies depends on the length only, so it applies to anything longer |
| C97 | `Tells.lean`: the table `Op.tells` of what each call sends, `leaving` for the calls that remove several elements | `exec_eq` gives the changes the loops send; an induction over the positions brings them into the closed form; an invariant over the history; for threads, the refinement of C75 carries it over |
| C98 | `Sends.lean`: `sends` folds a per-change table (`filterSays`, `sortSays`, `leftSays`/`rightSays`, `entrySays`, `keySays`) over what was taken | each loop round matches its table (`Round`); one run lemma (`run_said`) for all loops; for `chain` the order in which it took from its two inputs is existential; `SendsSignal.lean` does the same for the combinators with a signal per element, where the moments at which those signals change are existential, `SendsDelay.lean` for `delay_remove`, where the moments at which futures finish are existential; `SendsSwitch.lean` for `switch_signal_vec`, where the values at which it was polled are existential; `SendsFlatten.lean` for `SignalVec::flatten`, where the moments at which the inner vectors change are existential |
| C99 | `Waits.lean`: `waits` counts the polls with this waker that answered `Pending` | sum of wakes so far, wakers stored, and wakes in flight (taken out by a thread but not yet called) never exceeds the count; an invariant per event, in the sequential models and in the models with threads |
| C100 | `Tidy.lean`: `Plain`, `tidy`, `tidied` say what the plain form of a change of a list is | each call sends plain changes for the contents it finds (cases of `Op.tells`, induction over the removed indices); `apply_vec_diff d` sends `tidy d`; induction over the history and over the row of copies |
| C101 | `Same.lean`: `Expr.Same` (the same traces and woken wakers), `Expr.Swaps` (parts replaced at any depth) | a combinator with one input is a loop (`Thru`, an inductive relation between the polls at input and output); loops compose, and loops with bisimilar bodies are the same relation; congruence by induction over `Swaps` |
| C102 | `Tidy.lean`: `Plain`; `PlainFrom` | the exact changes of C98, and induction over them with lengths only (plainness and room depend only on the length) |
| C103 | `Whole.lean`: `replaces`, `clearsIn` | the exact changes of C98 and, for `MutableVec` and `MutableBTreeMap`, of C97, and counting; for `delay_remove` induction with lengths |
| C104 | `Pipe.Exec`, `Trace.diffs`, `AtRest` | each stage is a function of the changes it took, less what it still owes, and owes nothing after `Pending`; composition; for `MutableVec` and `MutableBTreeMap`, also with threads, the exact changes of C97; with `chain` the contents by C60, and a concrete pair of runs with other changes |

Nothing in the list is inexpressible; performance and memory consumption (but for the
length of the lists of registrations, C77) are not
claimed.
