{"id": "C01", "title": "MutableVec mirrors losslessly", "statement": "A consumer that subscribes to a MutableVec at any moment and applies every received VecDiff in order to an initially empty Vec never panics, and once it has received everything sent so far its Vec equals the current contents of the MutableVec.", "quantifier": "every initial contents, every finite history of MutableVec operations, subscriptions, subscriber polls and subscriber drops, every subscriber in it", "why_tests_cant": "Tests run a handful of fixed operation sequences with one subscriber; the claim ranges over unbounded histories with any number of interleaved subscribers.", "anchors": ["/repo/src/signal_vec.rs::MutableVecState (2833-3110)", "/repo/src/signal_vec.rs::MutableVecLockMut", "/repo/src/signal_vec.rs::MutableSignalVec::poll_vec_change", "/repo/src/signal_vec.rs::VecDiff::apply_to_vec"]}
{"id": "C02", "title": "MutableVec operations act on the contents like the Vec operations", "statement": "push, insert, set, remove, pop, clear, retain, truncate, drain, move_from_to, swap, reverse, replace and extend change the contents exactly as the list operation of the same name does (swap exchanges two positions, reverse reverses, move_from_to removes and reinserts, drain returns and removes the range), and panic exactly on out-of-range arguments of the underlying Vec call.", "quantifier": "all contents, all arguments", "why_tests_cant": "swap and reverse are composed of several moves with index arithmetic that depends on the relative order of the arguments; tests try only small literals.", "anchors": ["/repo/src/signal_vec.rs::MutableVecState::{pop,remove,move_from_to,clear,retain,remove_range,drain,truncate}", "/repo/src/signal_vec.rs::MutableVecLockMut::{swap,reverse,apply_vec_diff}"]}
{"id": "C03", "title": "No change, no notification", "statement": "A MutableVec operation which leaves the contents untouched because there is nothing to do (pop or clear of an empty vec, retain that keeps everything, truncate to at least the length, drain of an empty range, move or swap of a position with itself, reverse of at most one element) sends no diff to any subscriber.", "quantifier": "all contents and arguments for which the operation has nothing to do, all subscriber sets", "why_tests_cant": "Absence of a notification must hold for every state, tests only look at a few.", "anchors": ["/repo/src/signal_vec.rs::MutableVecState", "/repo/src/lib.rs (501-517)"]}
{"id": "C04", "title": "Subscribers of a MutableVec are independent", "statement": "The sequence of diffs a live subscriber receives does not depend on how many other subscribers exist, when they are polled, or when they are dropped; each live subscriber receives each diff exactly once and in the order in which the operations happened; dropped subscribers are forgotten at the next notification.", "quantifier": "every history and every pair of histories that differ only in the actions of other subscribers", "why_tests_cant": "It is a statement about all other subscribers' behaviours (a non-interference claim), not about one run.", "anchors": ["/repo/src/signal_vec.rs::MutableVecState::{notify,notify_with,notify_clone}"]}
{"id": "C05", "title": "A MutableVec subscriber ends exactly when the MutableVec is gone", "statement": "A subscriber's poll answers Ready(None) only if every handle of the MutableVec has been dropped and every diff sent to it has been delivered; after that point it always does; while a handle lives an empty queue answers Pending with the caller's waker registered, and the next diff (or the last drop) wakes that waker.", "quantifier": "every history of operations, handle clones/drops, subscriptions, polls", "why_tests_cant": "Ordering of drop, queue contents and polls is unbounded.", "anchors": ["/repo/src/signal_vec.rs::MutableSignalVec (3468-3481)", "/repo/src/signal_vec.rs::MutableVec"]}
{"id": "C06", "title": "VecDiff::map is natural", "statement": "Mapping a VecDiff with f and applying it to a Vec mapped with f gives the f-image of applying the original diff, including exactly the same panics.", "quantifier": "all diffs, vectors and functions f", "why_tests_cant": "Universal over the diff, vector and function.", "anchors": ["/repo/src/signal_vec.rs::VecDiff::{map,apply_to_vec}"]}
{"id": "C07", "title": "MapDiff::map is natural", "statement": "Mapping a MapDiff with f and applying it to a map whose values were mapped with f gives the f-image of applying the original diff; keys are untouched.", "quantifier": "all diffs, maps and functions f", "why_tests_cant": "Universal over the diff, map and function.", "anchors": ["/repo/src/signal_map.rs::MapDiff::map"]}
{"id": "C08", "title": "SignalVec::map tracks the input", "statement": "Applying the diffs emitted by v.map(f) yields at every moment the f-image of the vector described by the diffs consumed from v; f is called exactly once for every value carried by a consumed diff, in order.", "quantifier": "every well-formed input diff history, every poll schedule, every f", "why_tests_cant": "All diff sequences and poll schedules.", "anchors": ["/repo/src/signal_vec.rs::Map (669-687)"]}
{"id": "C09", "title": "SignalVec::chain tracks the concatenation", "statement": "Whenever a.chain(b) has nothing more to emit, applying its emitted diffs gives the contents of a followed by the contents of b, and applying them never panics.", "quantifier": "every pair of well-formed input histories and every interleaving of their availability", "why_tests_cant": "Chain combines Replace/Clear of one side with simultaneous changes of the other side in many cases; the number of interleavings is unbounded.", "anchors": ["/repo/src/signal_vec.rs::Chain (694-972)"]}
{"id": "C10", "title": "SignalVec::filter tracks the kept elements", "statement": "Applying the diffs emitted by v.filter(p) never panics and yields at every moment exactly the elements of v that satisfy p, in order.", "quantifier": "every well-formed input history, predicate and poll schedule", "why_tests_cant": "Index translation has to be right for every pattern of kept and dropped elements.", "anchors": ["/repo/src/signal_vec.rs::find_index, poll_filter_map (2010-2119), Filter (2125)"]}
{"id": "C11", "title": "SignalVec::filter_map tracks the kept and mapped elements", "statement": "Applying the diffs emitted by v.filter_map(f) never panics and yields at every moment the list of results of f on v, without the Nones; f is called once per value carried by a consumed diff.", "quantifier": "every well-formed input history, f and poll schedule", "why_tests_cant": "Index translation has to be right for every pattern of kept and dropped elements.", "anchors": ["/repo/src/signal_vec.rs::poll_filter_map, FilterMap (2155)"]}
{"id": "C12", "title": "SignalVec::map_signal shows the latest value of each inner signal", "statement": "Whenever v.map_signal(f) is Pending or has ended, applying its emitted diffs gives, position by position, the latest value produced by the inner signal created for that element; intermediate diffs are always applicable.", "quantifier": "every well-formed input history, every behaviour of the inner signals that yields a value on first poll, every poll schedule", "why_tests_cant": "Outer diffs and inner updates interleave arbitrarily.", "anchors": ["/repo/src/signal_vec.rs::MapSignal (1495-1623), PendingBuilder"]}
{"id": "C13", "title": "SignalVec::filter_signal_cloned shows exactly the elements whose signal is currently true", "statement": "Whenever v.filter_signal_cloned(f) is Pending or has ended, applying its emitted diffs gives exactly the elements of v whose inner signal's latest value is true, in order; intermediate diffs are always applicable.", "quantifier": "every well-formed input history, inner signal behaviours and poll schedules", "why_tests_cant": "Outer diffs and inner toggles interleave arbitrarily.", "anchors": ["/repo/src/signal_vec.rs::FilterSignalCloned (1627-1874)"]}
{"id": "C14", "title": "SignalVec::flatten tracks the concatenation of the inner vectors", "statement": "Whenever v.flatten() is Pending or has ended, applying its emitted diffs gives the concatenation of the current contents of the inner SignalVecs, in the order of v.", "quantifier": "every well-formed outer history, every well-formed inner histories, every schedule", "why_tests_cant": "Arbitrary nesting of outer and inner changes.", "anchors": ["/repo/src/signal_vec.rs::FlattenState (976-1092), Flatten (1096-1209)"]}
{"id": "C15", "title": "sort_by_cloned yields the sorted vector", "statement": "Applying the diffs emitted by v.sort_by_cloned(cmp) never panics and yields at every moment the elements of v sorted by cmp, equal elements keeping the order they have in v (a stable sort).", "quantifier": "every well-formed input history, every total preorder cmp, every poll schedule", "why_tests_cant": "Index bookkeeping is maintained incrementally over unbounded histories.", "anchors": ["/repo/src/signal_vec.rs::SortByCloned (2302-2534)"]}
{"id": "C16", "title": "enumerate keeps every index signal current", "statement": "At every moment the index signal handed out with the element at position i has value Some(i), and the index signal of every removed element has value None; the values emitted are those of the input in the same order.", "quantifier": "every well-formed input history and poll schedule", "why_tests_cant": "Each change must renumber the right range for every position.", "anchors": ["/repo/src/signal_vec.rs::Enumerate (1333-1456)"]}
{"id": "C17", "title": "delay_remove only delays removals", "statement": "Applying the diffs emitted by v.delay_remove(f) never panics; ignoring the elements whose removal is being delayed the result is always exactly v; a removed element stays until its future is ready and disappears at the next poll after that; the output ends only when the input has ended and no removal is outstanding.", "quantifier": "every well-formed input history, every behaviour of the futures, every poll schedule", "why_tests_cant": "Delayed elements shift positions arbitrarily.", "anchors": ["/repo/src/signal_vec.rs::DelayRemove (2538-2774)"]}
{"id": "C18", "title": "to_signal_map / to_signal_cloned expose the current vector", "statement": "Each value produced by v.to_signal_map(f) is f applied to the vector described by all diffs consumed so far; the first poll produces a value; a value is produced again only after a further diff; after the input ended the final vector has been produced.", "quantifier": "every well-formed input history, f, poll schedule", "why_tests_cant": "All histories.", "anchors": ["/repo/src/signal_vec.rs::ToSignalMap (1239-1327), ToSignalCloned (1214)"]}
{"id": "C19", "title": "len exposes the current length", "statement": "Each value produced by v.len() is the length of the vector described by the diffs consumed so far; the first poll produces a value; a value is produced only when the length differs from the one last produced; the end is reported after the input ended.", "quantifier": "every well-formed input history and poll schedule", "why_tests_cant": "All histories.", "anchors": ["/repo/src/signal_vec.rs::Len (1914-1989)"]}
{"id": "C20", "title": "is_empty exposes the current emptiness and reports the end", "statement": "Each value produced by v.is_empty() tells whether the vector described by the consumed diffs is empty, consecutive values differ, and when the input has ended the signal reports its end instead of staying Pending.", "quantifier": "every well-formed input history and poll schedule", "why_tests_cant": "All histories.", "anchors": ["/repo/src/signal_vec.rs::IsEmpty (1880-1908)"]}
{"id": "C21", "title": "sum exposes the current sum", "statement": "Each value produced by v.sum() is the sum of the elements of the vector described by the diffs consumed so far (for an addition that is associative and commutative); the first poll produces a value.", "quantifier": "every well-formed input history, every commutative monoid, every poll schedule", "why_tests_cant": "All histories.", "anchors": ["/repo/src/signal_vec.rs::SumSignal (2178-2270)"]}
{"id": "C22", "title": "switch_signal_vec follows the most recent inner vector", "statement": "Whenever s.switch_signal_vec(f) is Pending or has ended, applying its emitted diffs gives the contents of the SignalVec created for the most recent value of s; applying them never panics.", "quantifier": "every signal history, every well-formed inner histories, every schedule", "why_tests_cant": "Switch points interleave with inner diffs arbitrarily.", "anchors": ["/repo/src/signal/signal.rs::SwitchSignalVec (1644-1789)"]}
{"id": "C23", "title": "to_signal_vec, signal_vec::always and signal_vec::from_stream", "statement": "s.to_signal_vec() describes at every moment the latest Vec produced by s; always(xs) describes xs and then ends; from_stream describes the items received so far in order.", "quantifier": "every input history and poll schedule", "why_tests_cant": "All histories.", "anchors": ["/repo/src/signal/signal.rs::SignalSignalVec (1408-1421)", "/repo/src/signal_vec.rs::Always (591-613), StreamSignalVec (619-642)"]}
{"id": "C24", "title": "MutableBTreeMap mirrors losslessly", "statement": "A consumer that subscribes to a MutableBTreeMap at any moment and applies every received MapDiff in order to an initially empty map has, once it has received everything sent so far, exactly the current contents; Insert is only received for absent keys and Update / Remove only for present keys.", "quantifier": "every initial contents, every finite history of operations, subscriptions, polls and drops", "why_tests_cant": "Unbounded histories with interleaved subscribers.", "anchors": ["/repo/src/signal_map.rs::mutable_btree_map (510-1041)"]}
{"id": "C25", "title": "MutableBTreeMap operations act like the map operations", "statement": "insert, insert_cloned, remove, replace and clear change the contents like the BTreeMap operation and return the previous value of the key; clear of an empty map and remove of an absent key send nothing.", "quantifier": "all contents and arguments", "why_tests_cant": "Universal over contents and arguments.", "anchors": ["/repo/src/signal_map.rs::MutableBTreeMapState"]}
{"id": "C26", "title": "signal_vec_keys is the sorted key list", "statement": "Applying the VecDiffs of map.signal_vec_keys() never panics and yields the keys of the map in ascending order without duplicates.", "quantifier": "every well-formed map history and poll schedule", "why_tests_cant": "Insertion points must be right for every key set.", "anchors": ["/repo/src/signal_map.rs::MutableBTreeMapKeys (952-995)"]}
{"id": "C27", "title": "signal_vec_entries is the sorted entry list", "statement": "Applying the VecDiffs of map.entries_cloned() / signal_vec_entries() never panics and yields the (key, value) pairs of the map in ascending key order.", "quantifier": "every well-formed map history and poll schedule", "why_tests_cant": "Insertion points must be right for every key set.", "anchors": ["/repo/src/signal_map.rs::MutableBTreeMapEntries (1000-1040)"]}
{"id": "C28", "title": "SignalMap::map_value tracks the input", "statement": "Applying the MapDiffs emitted by m.map_value(f) yields at every moment the map described by the consumed diffs with every value mapped by f.", "quantifier": "every well-formed history, f, schedule", "why_tests_cant": "All histories.", "anchors": ["/repo/src/signal_map.rs::MapValue (223-242)"]}
{"id": "C29", "title": "SignalMap::map_value_signal shows the latest value of each inner signal", "statement": "Whenever m.map_value_signal(f) is Pending or has ended, applying its emitted diffs gives, key by key, the latest value produced by the inner signal created for that key's current value.", "quantifier": "every well-formed history (keys of a Replace distinct), inner behaviours, schedules", "why_tests_cant": "Outer diffs and inner updates interleave arbitrarily.", "anchors": ["/repo/src/signal_map.rs::MapValueSignal (280-392)"]}
{"id": "C30", "title": "key_cloned follows one key", "statement": "Each value produced by m.key_cloned(k) is the value of k in the map described by the diffs consumed so far (None if absent); the first poll produces a value; the SignalMap is not polled again after it has ended.", "quantifier": "every well-formed history, key and schedule", "why_tests_cant": "All histories.", "anchors": ["/repo/src/signal_map.rs::MapWatchKeySignal (396-467)"]}
{"id": "C31", "title": "A Mutable signal reports the current value", "statement": "Every value produced by a signal of a Mutable is the value of the Mutable at that moment, and the first poll of a signal always produces a value.", "quantifier": "every history of Mutable operations, handle clones/drops, signal creation, polls and drops", "why_tests_cant": "Unbounded histories with any number of signals and handles.", "anchors": ["/repo/src/signal/mutable.rs::MutableSignalState::poll_change, Mutable, MutableSignal*"]}
{"id": "C32", "title": "No update of a Mutable is missed (operations not overlapping)", "statement": "If a notifying write happened since a signal last produced a value then its next poll produces a value, and if its last poll was Pending the waker given to that poll has been woken since; otherwise its next poll is Pending or the end. In particular the final value is always delivered before the end.", "quantifier": "every history of non-overlapping operations, any number of signals and handles", "why_tests_cant": "Unbounded histories.", "anchors": ["/repo/src/signal/mutable.rs::ChangedWaker, MutableLockState::notify, MutableSignalState::poll_change"]}
{"id": "C33", "title": "A Mutable signal ends exactly when all handles are gone", "statement": "A signal answers Ready(None) only if every Mutable handle has been dropped and the final value was delivered, and then it always does; dropping the last handle wakes every signal whose last poll was Pending.", "quantifier": "every history of non-overlapping operations", "why_tests_cant": "Unbounded histories.", "anchors": ["/repo/src/signal/mutable.rs::Drop for Mutable (389-406), MutableSignalState::poll_change"]}
{"id": "C34", "title": "Conditional writes notify only when they write", "statement": "set_neq notifies iff the new value differs from the old; set_if writes and notifies iff the predicate accepts; lock_mut notifies on release iff the value was mutably dereferenced; set, replace and replace_with notify always; get and lock_ref never. replace and replace_with return the previous value (as the callback of replace_with left it), swap exchanges the two values and notifies both.", "quantifier": "all values and signal sets", "why_tests_cant": "Universal over values, states and predicates.", "anchors": ["/repo/src/signal/mutable.rs::Mutable::{replace,replace_with,swap,set,set_if,set_neq,lock_mut}, MutableLockMut (122-151)"]}
{"id": "C35", "title": "Values of a Mutable are never stale or lost under concurrency", "statement": "Under every interleaving of the atomic steps of any number of writers, handle drops and polls: a value produced by a poll was the current value at a moment after the poll started, and if a write completed before a poll started then that poll, or an earlier poll of the same signal, produced that value or a later one.", "quantifier": "every interleaving, any number of writer threads, writes and polls", "why_tests_cant": "Schedules cannot be enumerated by tests.", "anchors": ["/repo/src/signal/mutable.rs::ChangedWaker, MutableSignalState::poll_change"]}
{"id": "C36", "title": "No lost wakeup of a Mutable signal under concurrency", "statement": "Under every interleaving: whenever all threads are idle and a signal's last poll answered Pending, either the signal already delivered the current value and a handle remains, or the waker of that poll has been woken after it was registered.", "quantifier": "every interleaving, any number of writer threads", "why_tests_cant": "Needs a specific schedule inside a poll; tests cannot force or exclude it.", "anchors": ["/repo/src/signal/mutable.rs::ChangedWaker::{wake,set_waker,is_changed}, MutableSignalState::poll_change"]}
{"id": "C37", "title": "Mutable::swap never deadlocks", "statement": "Calling swap on Mutables from any threads, in any direction, including with itself, always completes.", "quantifier": "every interleaving of swap calls", "why_tests_cant": "Needs a specific schedule.", "anchors": ["/repo/src/signal/mutable.rs::Mutable::swap (279-288)"]}
{"id": "C38", "title": "channel delivers the most recent value", "statement": "A Receiver poll produces a value iff a value (the initial one, or one accepted by send) was stored since the last poll that produced one, and it is the most recent of them; values already stored are delivered before the end.", "quantifier": "every history of non-overlapping send/close/clone/drop/poll calls", "why_tests_cant": "Unbounded histories.", "anchors": ["/repo/src/signal/channel.rs::Sender::send, Receiver::poll_change"]}
{"id": "C39", "title": "channel ends exactly when closed or without senders", "statement": "The Receiver answers Ready(None) iff no value is waiting and either close was called or every Sender was dropped; send answers Err with the value given back iff the channel was closed or the Receiver dropped; a pending Receiver is woken by send, close and by the drop of the last Sender.", "quantifier": "every history of non-overlapping calls on any number of Sender clones", "why_tests_cant": "Unbounded histories.", "anchors": ["/repo/src/signal/channel.rs::Sender, Receiver"]}
{"id": "C40", "title": "channel stays closed", "statement": "After close has returned, no Sender clone, drop or send running on another thread can reopen the channel: once no call is running the Receiver reports the end as soon as no value is waiting.", "quantifier": "every interleaving of the atomic steps of close, clone, drop, send and poll", "why_tests_cant": "Needs a specific schedule.", "anchors": ["/repo/src/signal/channel.rs::Clone for Sender, Drop for Sender, Sender::close"]}
{"id": "C41", "title": "No lost wakeup of a channel Receiver under concurrency", "statement": "Under every interleaving: whenever no call is running and the Receiver's last poll answered Pending, either no value is waiting and the channel is open, or the waker of that poll has been woken.", "quantifier": "every interleaving", "why_tests_cant": "Needs a specific schedule inside a poll.", "anchors": ["/repo/src/signal/channel.rs::Receiver::poll_change, Inner::notify"]}
{"id": "C42", "title": "AtomicOption neither leaks nor frees twice", "statement": "Under every sequence of new, swap, store, take and drop on an AtomicOption each value put in is returned or dropped exactly once.", "quantifier": "every sequence of operations", "why_tests_cant": "Memory safety of raw pointer code over all histories.", "anchors": ["/repo/src/atomic.rs::AtomicOption (51-112)"]}
{"id": "C43", "title": "Broadcaster hands every subscriber the latest value", "statement": "Every value produced by a Broadcaster's signal is the most recent value the underlying signal has produced; a subscriber gets a value iff the underlying signal produced one since that subscriber last got one (or it never got one), and the underlying signal is not polled after its end; subscribers end iff it ended and they got its last value.", "quantifier": "every behaviour of the underlying signal, any number of subscribers, every history of non-overlapping polls", "why_tests_cant": "Unbounded histories.", "anchors": ["/repo/src/signal/broadcaster.rs::BroadcasterInnerState, BroadcasterSharedState, BroadcasterState"]}
{"id": "C44", "title": "No lost wakeup of a Broadcaster subscriber (operations not overlapping)", "statement": "When a subscriber's poll answered Pending and afterwards the underlying signal wakes the broadcaster, the waker of that poll is woken.", "quantifier": "every history of non-overlapping polls and wake-ups, any number of subscribers", "why_tests_cant": "Unbounded histories.", "anchors": ["/repo/src/signal/broadcaster.rs::BroadcasterNotifier::notify, BroadcasterState::poll_change"]}
{"id": "C45", "title": "No lost wakeup of a Broadcaster subscriber under concurrency", "statement": "Under every interleaving: whenever no poll or wake-up is running and a subscriber's last poll answered Pending, either the subscriber has the latest value or its waker was woken since.", "quantifier": "every interleaving of polls of different subscribers and wake-ups", "why_tests_cant": "Needs a specific schedule.", "anchors": ["/repo/src/signal/broadcaster.rs::BroadcasterSharedState::poll, BroadcasterState::poll_change"]}
{"id": "C46", "title": "cancelable_future", "statement": "A CancelableFuture answers what the inner future answers until it is cancelled; after the handle is discarded or dropped the next poll yields the cancel callback's value, the callback runs at most once and never together with a completed inner future, the inner future is dropped when the callback runs; a pending poll is woken by the discard.", "quantifier": "every behaviour of the inner future, every history of polls and discards", "why_tests_cant": "All histories.", "anchors": ["/repo/src/future.rs::CancelableFuture, CancelableFutureHandle, cancelable_future"]}
{"id": "C47", "title": "No lost cancellation under concurrency", "statement": "Under every interleaving of discard and poll: when both have returned and the poll answered Pending, its waker has been woken.", "quantifier": "every interleaving", "why_tests_cant": "Needs a specific schedule inside a poll.", "anchors": ["/repo/src/future.rs::CancelableFuture::poll (51-80), CancelableFutureHandle::discard (24-38)"]}
{"id": "C48", "title": "Signal map, inspect and not", "statement": "s.map(f) produces f of each value s produces, once each, and pends and ends exactly when s does; inspect additionally leaves the value untouched.", "quantifier": "every input history, f, poll schedule", "why_tests_cant": "All histories.", "anchors": ["/repo/src/signal/signal.rs::Map (1075), Inspect (1219), not (604)"]}
{"id": "C49", "title": "map_ref! and map_mut! combine the latest values", "statement": "Each value produced by map_ref!(s1, …, sn => f) is f of the latest values of all inputs; it produces a value iff at least one input produced one during the poll, ends iff all inputs have ended and none produced a value, and does not poll ended inputs; with inputs that yield a value on first poll it never panics.", "quantifier": "every number of inputs, all input histories, f, poll schedules", "why_tests_cant": "All histories and arities.", "anchors": ["/repo/src/internal.rs::MapRef1, MapRefSignal, PollResult", "/repo/src/signal/macros.rs::__internal_map"]}
{"id": "C50", "title": "Signal-level eq, neq, dedupe, dedupe_map and dedupe_cloned suppress exactly the repeats", "statement": "dedupe, dedupe_cloned and dedupe_map(f) produce a value iff the drained input value differs from the last produced one, so consecutive outputs always differ; eq(v) / neq(v) produce whether the latest value equals v, consecutive outputs differ, and the first input gives an output.", "quantifier": "every input history and poll schedule", "why_tests_cant": "All histories.", "anchors": ["/repo/src/signal/signal.rs::Eq, Neq, dedupe, DedupeMap, Dedupe, DedupeCloned (1139-1213, 1425-1531)"]}
{"id": "C51", "title": "Signal filter_map keeps the last mapped value", "statement": "s.filter_map(f) produces f of the first value of s, even if that is None, and afterwards Some of exactly the later values that f maps to Some, in order; f is called once per value, and the output ends when s ends.", "quantifier": "every input history, f, schedule", "why_tests_cant": "All histories.", "anchors": ["/repo/src/signal/signal.rs::FilterMap (1532-1571)"]}
{"id": "C52", "title": "Signal flatten / switch follow the most recent inner signal", "statement": "Each value produced by s.flatten() / s.switch(f) comes from the inner signal of the most recent value of s; it ends iff s and that inner signal have ended; when Pending, both are waiting with the caller's waker.", "quantifier": "every outer and inner history and schedule", "why_tests_cant": "All histories.", "anchors": ["/repo/src/signal/signal.rs::Flatten (1579-1638), Switch (929-944)"]}
{"id": "C53", "title": "stop_if, wait_for, first, to_future", "statement": "stop_if(p) produces the values up to and including the first satisfying p and then ends; wait_for(v) completes with the first value equal to v, or None if the signal ends before; first() produces one value then ends; to_future() completes with the last value when the signal ends.", "quantifier": "every input history and schedule", "why_tests_cant": "All histories.", "anchors": ["/repo/src/signal/signal.rs::StopIf, WaitFor, First, SignalFuture"]}
{"id": "C54", "title": "from_future, from_stream and map_future", "statement": "from_future produces None first if the future is pending and Some(output) exactly once when ready, then ends; from_stream produces None first if nothing is available and always the latest item drained; map_future shows the result of the future of the most recent value only.", "quantifier": "all future, stream and signal behaviours and schedules", "why_tests_cant": "All histories.", "anchors": ["/repo/src/signal/signal.rs::FromFuture, FromStream, MapFuture"]}
{"id": "C55", "title": "throttle", "statement": "throttle(f) produces a subsequence of the input values ending with the latest available one whenever it is waiting for the input; after a value is produced no further one is produced before the future created for it is ready.", "quantifier": "every input history, future behaviours, schedules", "why_tests_cant": "All histories.", "anchors": ["/repo/src/signal/signal.rs::Throttle (1316-1367)"]}
{"id": "C56", "title": "sample_stream_cloned, option and result", "statement": "sample_stream_cloned yields for each stream item the latest value of the signal at that moment; option(s) / result(s) wrap the inner signal's values, or produce None / Err(e) once and end.", "quantifier": "all histories and schedules", "why_tests_cant": "All histories.", "anchors": ["/repo/src/signal/signal.rs::SampleStreamCloned, OptionSignal, ResultSignal, Always"]}
{"id": "C57", "title": "Pending means armed", "statement": "Whenever any combinator answers Pending for a poll with waker w, it still has an input that has not ended, and every input that has not ended (and that is not deliberately held back, as in throttle) answered Pending to a poll with w during that call; so a later change of any input wakes w.", "quantifier": "every combinator, every input history, every state, every waker", "why_tests_cant": "A missed registration shows up only as a hang in a particular schedule.", "anchors": ["/repo/src/signal/signal.rs", "/repo/src/signal_vec.rs", "/repo/src/signal_map.rs", "/repo/src/internal.rs"]}
{"id": "C58", "title": "Inputs are not polled after their end", "statement": "No combinator polls an input again after that input answered Ready(None), provided the combinator itself is not polled after it answered Ready(None).", "quantifier": "every combinator, input history and schedule", "why_tests_cant": "All histories.", "anchors": ["/repo/src/signal/signal.rs", "/repo/src/signal_vec.rs", "/repo/src/signal_map.rs", "/repo/src/internal.rs"]}
{"id": "C59", "title": "The end is reported exactly when due", "statement": "A SignalVec or SignalMap combinator answers Ready(None) only when all its inputs have ended and every emitted change has been delivered.", "quantifier": "every combinator, history and schedule", "why_tests_cant": "All histories.", "anchors": ["/repo/src/signal_vec.rs", "/repo/src/signal_map.rs"]}
{"id": "C60", "title": "Pipelines compose", "statement": "Attaching any sequence of tracking combinators (map, filter without backwards moves, sort_by_cloned, enumerate, chain) to a MutableVec subscriber yields an output whose replay is the composition of the corresponding list functions on the MutableVec's contents.", "quantifier": "every history of the MutableVec, every schedule, every pipeline of such combinators", "why_tests_cant": "Unbounded pipelines and histories.", "anchors": ["/repo/src/signal_vec.rs"]}
{"id": "C61", "title": "MutableBTreeMap subscriptions end exactly when all handles are gone", "statement": "A subscriber's poll answers Ready(None) only if every handle of the MutableBTreeMap has been dropped and every diff sent to it has been delivered, and from then on always; while a handle lives an empty queue answers Pending with the caller's waker registered, and the next diff (or the last drop) wakes that waker.", "quantifier": "every history of operations, handle clones/drops, subscriptions, polls", "why_tests_cant": "The claim is about all histories and interleavings of subscribers and handles, and about the absence of lost wake-ups, which a test can only sample.", "anchors": ["/repo/src/signal_map.rs::MutableSignalMap (933-950)", "/repo/src/signal_map.rs::MutableBTreeMap (806-930)"]}
{"id": "C62", "title": "A Mutable's signal produces the last value before its end, under concurrency", "statement": "Under every interleaving of writes, handle drops and polls: if a poll of a Mutable's signal answers Ready(None), then that signal has produced the last value written.", "quantifier": "every interleaving, any number of writer threads, writes, handles, signals and polls", "why_tests_cant": "Needs a specific schedule inside a poll (a write and the drop of the last handle between two steps of one poll); tests cannot force or exclude it.", "anchors": ["/repo/src/signal/mutable.rs::MutableSignalState::poll_change (102-117)", "/repo/src/signal/mutable.rs::Drop for Mutable (389-406)"]}
{"id": "C63", "title": "A Broadcaster input may wake its waker while it is being polled", "statement": "Whenever no poll is running and a subscriber's last poll answered Pending, either its waker was woken since, or the underlying signal has not woken its waker since it was last polled - also when the underlying signal wakes its waker during its own poll.", "quantifier": "every behaviour of the underlying signal including self-waking ones, any number of subscribers, every history of non-overlapping polls and wake-ups", "why_tests_cant": "Depends on arbitrary input signals and unbounded histories; the source itself asks \"what if it is woken up while polling ?\".", "anchors": ["/repo/src/signal/broadcaster.rs::BroadcasterInnerState::poll_signal (79-107)", "/repo/src/signal/broadcaster.rs::BroadcasterNotifier::notify (28-43)", "/repo/src/signal/broadcaster.rs::BroadcasterState::poll_change (180-200)"]}
{"id": "C64", "title": "The end is reported after finitely many polls", "statement": "A consumer that keeps polling a combinator gets Ready(None) (a future: its result) after finitely many polls, provided each of its inputs ends and each future it waits for completes when polled often enough, whatever the diffs or values are and however Pending answers are interleaved, unless a poll panics.", "quantifier": "every combinator modelled, every script of answers of its inputs that contains the end, every sequence of wakers", "why_tests_cant": "Liveness over unbounded executions: needs a decreasing measure over every input script, every nesting of inner signals and every interleaving of Pending answers.", "anchors": ["/repo/src/signal_vec.rs", "/repo/src/signal.rs::SignalExt combinators", "/repo/src/signal_map.rs", "/repo/src/signal_map.rs::MapWatchKeySignal::poll_change"]}
{"id": "C65", "title": "for_each calls the callback once per value, one at a time", "statement": "for_each (of Signal, SignalVec and SignalMap) calls the callback exactly once on each value (or diff) the input gives, in order; it polls the input again only after the future of the previous call has completed; Pending means that the last future, or else the input, is armed with the waker of the poll; it completes exactly when the input has ended and all futures have completed, and does so after finitely many polls if the input and the futures do.", "quantifier": "every input, every callback with state of its own, every behaviour of the futures it returns, every sequence of polls", "why_tests_cant": "Needs all interleavings of Pending answers of the input and of every future, over unbounded runs.", "anchors": ["/repo/src/signal/signal.rs::ForEach::poll (998-1016)", "/repo/src/signal_vec.rs::ForEach::poll (645-663)", "/repo/src/signal_map.rs::ForEach::poll (488-506)"]}
{"id": "C66", "title": "Networks of signals over Mutables are glitch-free and eventually consistent", "statement": "For every signal built from signals of Mutables with map, dedupe, eq, neq, map_ref!, switch/flatten and always, nested in any way: every value it emits is the value of the expression for the values the Mutables have at that moment (no value is computed from a mixture of old and new values, however many paths lead from a Mutable to the output); after every poll the last value emitted is the current value of the expression; after Pending, any sequence of calls on the Mutables either wakes the waker of that poll or leaves the value of the expression and the answer Pending unchanged; a poll directly after a poll gives no value; after Ready(None) the value never changes again and all polls give Ready(None); when all handles are gone the second poll gives Ready(None); no poll panics.", "quantifier": "every expression (any depth and width, any callbacks, switch callbacks that create new signals), every number of Mutables, every history of calls on Mutables, other subscribers and polls", "why_tests_cant": "The claim is about all shapes of networks and all interleavings of writes, drops and polls; tests look at a few diamonds.", "anchors": ["/repo/src/signal/mutable.rs::MutableSignalState::poll_change (102-117)", "/repo/src/internal.rs::MapRef1::poll (66-99)", "/repo/src/signal/macros.rs::map_mut! (66-110)", "/repo/src/signal/signal.rs::Flatten::poll_change (1604-1637)", "/repo/src/signal/signal.rs::dedupe (1425-1450)"]}
{"id": "C67", "title": "Signals derived from a pipeline of SignalVec combinators show the present contents", "statement": "Put to_signal_map, to_signal_cloned, sum, len or is_empty at the end of any pipeline of SignalVec combinators. The first poll gives a value; after every poll the value last given is the function of the result of the list functions of the pipeline, applied to what the inputs have sent. On top of a MutableVec: at any time after a poll, the value last given is the function of the present contents of the MutableVec, or the waker of that poll has been woken since; after the end it is the function of the present contents.", "quantifier": "every pipeline, every callback, every history of a MutableVec and its subscribers, every interleaving of polls", "why_tests_cant": "The claim composes unboundedly many diffs through pipelines of any length and relates the result to every possible history.", "anchors": ["/repo/src/signal_vec.rs::ToSignalMap::poll_change", "/repo/src/signal_vec.rs::SumSignal::poll_change", "/repo/src/signal_vec.rs::Len::poll_change", "/repo/src/signal_vec.rs::IsEmpty::poll_change", "/repo/src/signal_vec.rs::MutableVec"]}
{"id": "C68", "title": "Networks of signals polled while other threads write lose nothing, but can show a mixture", "statement": "The networks of C66, polled while other threads use the Mutables between any two accesses of the poll: after Pending, either the waker of that poll was woken since the poll began, or the last value emitted is the current value of the expression and an undisturbed poll answers Pending again; Ready(None) comes only when no Mutable that the network listens to has handles left and its value was emitted, and is final; the first poll gives a value; after every poll the last value emitted is the value of the expression with each occurrence of a Mutable's signal read at some moment of that poll, and for chains without map_ref! and switch all at the same moment; once the others stop, one poll brings the current value and the next none. With map_ref! a disturbed poll can emit a value that the expression never had.", "quantifier": "every expression, every number of Mutables and of other threads, every interleaving at the granularity of single accesses to a Mutable", "why_tests_cant": "Interleavings inside a poll depend on the scheduler; the number of schedules grows with the size of the network.", "anchors": ["/repo/src/signal/mutable.rs::MutableSignalState::poll_change (102-117)", "/repo/src/signal/mutable.rs::MutableLockState::notify (66-76)", "/repo/src/internal.rs::MapRef1::poll (66-99)", "/repo/src/signal/signal.rs::Flatten::poll_change (1604-1637)"]}
{"id": "C69", "title": "Pipelines whose elements have signals of their own show the present lists and the present values", "statement": "Put map_signal and filter_signal_cloned at any places in a pipeline of list combinators over a MutableVec, the closures making signals of Mutables chosen by the element. After Pending to a poll with waker x, either the emitted diffs describe the composition of the list functions applied to the present contents of the MutableVec and the present values of the Mutables, or x has been woken since, by the MutableVec or by a Mutable; after the end, the former. The same for a signal made by to_signal_map, to_signal_cloned, sum, len or is_empty at the end of the pipeline.", "quantifier": "every such pipeline, every history of the MutableVec, its subscribers, and of any number of Mutables and their signals, every element type and every choice of the Mutables", "why_tests_cant": "The changes of the list and of the values of its elements interleave freely, through any number of stages; tests check a few schedules of a few pipelines.", "anchors": ["/repo/src/signal_vec.rs::MapSignal::poll_vec_change (1510-1622)", "/repo/src/signal_vec.rs::FilterSignalCloned::poll_vec_change (1658-1873)", "/repo/src/signal/mutable.rs::MutableSignalState::poll_change (102-117)", "/repo/src/signal/mutable.rs::MutableLockState::notify (66-76)"]}
{"id": "C70", "title": "Wrappers, debug and serialization are transparent", "statement": "A reference to a signal (Signal, SignalVec or SignalMap), a boxed and a pinned one answer every sequence of polls as the signal itself. debug polls its input once per poll with the same waker, passes on the answer, and logs exactly the answers. Reading back a serialized Mutable, MutableVec or MutableBTreeMap gives a container with the value or contents at the time of writing, one handle and no subscribers, whose subscribers see its contents.", "quantifier": "every implementation of the traits, every poll sequence, every history before writing and after reading, every format that reads back what it wrote", "why_tests_cant": "All implementations, histories and formats.", "anchors": ["/repo/src/signal/signal.rs:32-61 (wrappers)", "/repo/src/signal_vec.rs:121-150", "/repo/src/signal_map.rs:63-96", "/repo/src/signal/signal.rs::SignalDebug::poll_change (749-757)", "/repo/src/signal_vec.rs::SignalVecDebug::poll_vec_change (2287-2295)", "/repo/src/signal/mutable.rs:358-371", "/repo/src/signal_vec.rs:3436-3450", "/repo/src/signal_map.rs:901-915"]}
{"id": "C71", "title": "Nested expressions over signals, lists and maps show the present values, or the task is woken", "statement": "Take any expression built from Mutables, MutableVecs, MutableBTreeMaps, channel Receivers, Broadcasters and always with combinators of Signal, SignalVec and SignalMap: map, inspect, not, eq, neq, dedupe, dedupe_map, map_ref!, and, or, option, result, stop_if, filter_map, throttle, map_future, delay_remove (C87), broadcast, switch, flatten of a SignalVec of SignalVecs, switch_signal_vec, to_signal_vec, the SignalVec combinators of C60 and C67, map_signal (also of enumerate, using the index signals), filter_signal_cloned, signal_vec_keys, entries_cloned, key_cloned, map_value, map_value_signal; the closures of switch, switch_signal_vec, flatten, map_signal, filter_signal_cloned and map_value_signal may build such expressions again, to any depth. What comes out is in order: a signal starts with a value, diffs can be applied. If the last answer was Pending, then the output shows what the expression denotes for the present values of the sources, or the waker of the last poll has been woken since by one of the sources in use. If the last answer was the end, the former is the case.", "quantifier": "every expression, every history of every source, every sequence of polls", "why_tests_cant": "Unbounded nesting, unbounded histories, and every interleaving of changes and polls.", "anchors": ["/repo/src/signal/signal.rs", "/repo/src/signal_vec.rs", "/repo/src/signal_map.rs", "/repo/src/signal/mutable.rs", "/repo/src/signal/channel.rs", "/repo/src/signal/macros.rs", "/repo/src/signal/broadcaster.rs"]}
{"id": "C72", "title": "A panic in user code under the lock of a Mutable shows nobody a torn value and strands nobody", "statement": "User code that runs while the lock of a Mutable is held may panic: the closures of replace_with and set_if, code between lock_mut and the drop of the guard, the Clone of get_cloned and signal_cloned, the closures of signal_ref. A panic in code that only reads changes nothing for any other call. After a panic in code that writes, no call and no signal ever gives out the value it left behind: reads and writes panic from then on. If the guard of lock_mut had been dereferenced mutably, its drop during the panic still wakes the waiting signals. When all handles are gone, a signal that is polled reports the end, and a signal that waits is woken. How every call and poll ends after such a panic is determined: handles are still counted, a signal that had something to report panics once and after that waits or, when no handle is left, ends, new signals can only be made when no handle is left, and nobody is woken any more.", "quantifier": "every history of a Mutable, its handles and signals, in which any calls panic at any point of their user code", "why_tests_cant": "Every point of every history at which user code can panic, and what all other handles and signals see for ever after.", "anchors": ["/repo/src/signal/mutable.rs::MutableLockState::notify (66-76)", "/repo/src/signal/mutable.rs::MutableSignalState::poll_change (102-117)", "/repo/src/signal/mutable.rs::MutableLockMut::drop (144-155)", "/repo/src/signal/mutable.rs::Mutable::drop (389-410)", "/repo/src/signal/mutable.rs::Mutable::replace_with (268-279), set_if (298-308)"]}
{"id": "C73", "title": "A panic in a method of a MutableVec leaves its subscribers with the completed calls", "statement": "A method of a MutableVec may panic, because an index is out of range or because user code under the lock does: the closure of retain, the iterator of extend, the Clone of an element, code that holds a guard of lock_mut. Whatever panics, the diffs that a subscriber received, with those still queued for it, describe the contents after the calls that completed (of extend, the elements pushed before the panic), never a half-made change. From then on every method and every new subscription panics. Subscribers are still woken and still end when the last handle is gone.", "quantifier": "every history of a MutableVec, its handles and subscribers, in which any calls panic at any point", "why_tests_cant": "Every point of every history at which a call can panic, for any number of subscribers at different positions.", "anchors": ["/repo/src/signal_vec.rs::MutableVecState (2778-3104)", "/repo/src/signal_vec.rs::MutableVecState::notify_with (2840-2872)", "/repo/src/signal_vec.rs::MutableVecState::move_from_to (2899-2912)", "/repo/src/signal_vec.rs::MutableVecState::retain (2915-2952)", "/repo/src/signal_vec.rs::MutableVec (3363-3482)"]}
{"id": "C74", "title": "Consumers of an expression are told the present values, or the task is woken", "statement": "Put for_each, wait_for, to_future, stop_if, filter_map, map_future or throttle on top of an expression as in C71. If the last answer to a poll with waker x was Pending, then x has been woken since by a source in use, or: the callback of for_each has been called on values or diffs that show what the expression denotes at present (or the future of its last call is still running, and was polled with x); what wait_for waits for is not what the expression denotes; the last value of stop_if is what the expression denotes, and does not pass the test; the last value of filter_map is what the callback makes of what the expression denotes, if it accepts it; the future that map_future made for what the expression denotes is still running, and was polled with x, or its output is the last value; the last value of throttle is what the expression denotes, or its future is still running and was polled with x. When they complete or end, they have shown what the expression denotes, to_future gives it, and to_future does not panic.", "quantifier": "every expression, every history of every source, every callback, every sequence of polls", "why_tests_cant": "Unbounded nesting below the consumer, unbounded histories, every interleaving of changes and polls.", "anchors": ["/repo/src/signal/signal.rs::ForEach (998-1016)", "/repo/src/signal/signal.rs::WaitFor (1373-1401)", "/repo/src/signal/signal.rs::SignalFuture (1041-1068)", "/repo/src/signal/signal.rs::StopIf (1098-1132)", "/repo/src/signal/signal.rs::FilterMap (1532-1570)", "/repo/src/signal/signal.rs::MapFuture (1248-1309)", "/repo/src/signal/signal.rs::Throttle (1316-1365)"]}
{"id": "C75", "title": "MutableVec and MutableBTreeMap keep subscribers on other threads in step", "statement": "Polling or dropping a subscriber takes no lock, so another thread, or a waker, can do it between any two sends of one call on a MutableVec or MutableBTreeMap, and between the drops of the senders when the last handle goes. Still, at every moment: what a subscriber got replays without panic; when no call is running, what a live subscriber got and has queued rebuilds the contents; while a call is running, it rebuilds the contents at a point between two diffs of that call, the rest of which is still to come. A poll is never blocked by a running call. A subscriber that was told Pending is woken before a poll would answer anything else. It is told the end exactly when all it was sent has been delivered, no handle is left and its sender is dropped. A call ends after a bounded number of its own steps whatever subscribers do meanwhile, and if nobody interferes its effect is that of the one-step model of C01-C05, C24, C25 and C61.", "quantifier": "every history of calls, subscriptions, polls, drops and handle changes, interleaved at every send and every drop of a sender", "why_tests_cant": "The windows are a few instructions wide and every schedule of any number of threads and subscribers has to be covered.", "anchors": ["/repo/src/signal_vec.rs::MutableVecState::notify (2833-2837)", "/repo/src/signal_vec.rs::MutableVecState::notify_with (2840-2872)", "/repo/src/signal_vec.rs::MutableSignalVec::poll_vec_change (3478-3480)", "/repo/src/signal_map.rs::MutableBTreeState::notify (535-539)", "/repo/src/signal_map.rs::MutableBTreeState::notify_clone (545-566)", "/repo/src/signal_map.rs::MutableSignalMap::poll_map_change (945-947)"]}
{"id": "C76", "title": "Panics of user code inside a Broadcaster", "statement": "The input, and the callbacks of subscribers (signal_ref, or the clone of signal_cloned), may panic while a subscriber is polled. A panic of a callback in a poll for which the input was not due (it was polled before, and did not wake its waker since) concerns only its subscriber: everything else goes on as if nobody had panicked, and the value is lost for this subscriber alone. A panic of the input, or of the callback of one subscriber, in a poll for which the input was due breaks the broadcaster: every later poll of every subscriber panics, for ever, and nobody is woken to learn about it. Nothing else breaks it.", "quantifier": "every input (also one that wakes its waker while it is polled), every number of subscribers, every history with any panics", "why_tests_cant": "Which of the subscribers polls first after a wake-up decides whether a panic is contained; every history and every place of the panic has to be covered.", "anchors": ["/repo/src/signal/broadcaster.rs::BroadcasterSharedState::poll (128-141)", "/repo/src/signal/broadcaster.rs::BroadcasterInnerState::poll_signal (79-107)", "/repo/src/signal/broadcaster.rs::BroadcasterState::poll_change (180-200)"]}
{"id": "C77", "title": "Registrations of dropped signals go with the next notification, and pile up without one", "statement": "A Mutable, a Broadcaster, a MutableVec and a MutableBTreeMap keep a list of the signals made from them, and a signal that is dropped stays on it until the next notification. At every moment the list of a Mutable with a handle holds, each once, exactly the live signals and those dropped since the last write that notified; that of a Broadcaster exactly the live subscribers and those dropped since its input last woke its waker. When a call that changes the contents of a MutableVec or MutableBTreeMap is over, no subscriber dropped before it is on the list, whatever subscribers did during the call. If nothing is written, the list grows by one with each signal made and dropped, without bound. The last handle of a Mutable empties it.", "quantifier": "every history of writes, subscriptions, polls, drops and handle changes", "why_tests_cant": "How long the list is after an arbitrary history, and that there is no bound, cannot be enumerated.", "anchors": ["/repo/src/signal/mutable.rs::MutableLockState::push_signal (62-64)", "/repo/src/signal/mutable.rs::MutableLockState::notify (66-76)", "/repo/src/signal/mutable.rs::Mutable::drop (389-406)", "/repo/src/signal/broadcaster.rs::BroadcasterNotifier::notify (28-43)", "/repo/src/signal_vec.rs::MutableVecState::notify (2833-2872)", "/repo/src/signal_map.rs::MutableBTreeState::notify (535-566)"]}
{"id": "C78", "title": "The locks of the crate never deadlock, unless user code uses objects that are locked", "statement": "Number all Mutables, Broadcasters, MutableVecs, MutableBTreeMaps and cancelable futures of a program in any way such that code that runs under the lock of an object (closures of replace_with, set_if and signal_ref, Clone, PartialEq and Drop of values, code that holds a lock_ref or lock_mut guard, the input of a Broadcaster) uses only objects with smaller numbers, swaps go from greater to smaller numbers, and wakers of tasks use no object. Then no set of threads ever deadlocks: at every moment all are finished or one can go on, even if a RwLock lets no reader pass a waiting writer, and every run can be continued until all calls have returned. The conditions are needed: a thread that takes a lock under its own guard of it (a waker that at once polls its signal, set inside a signal_ref closure) never goes on, whatever others do; two threads whose closures read each other's Mutable, two opposite swaps, and a read inside a read beside a writer deadlock.", "quantifier": "every number of threads and objects, every graph of Broadcasters over each other, every program, every schedule", "why_tests_cant": "A deadlock needs a particular interleaving of particular calls on a particular graph of objects; all of them have to be covered.", "anchors": ["/repo/src/signal/mutable.rs::ChangedWaker (28-46)", "/repo/src/signal/mutable.rs::MutableSignalState::poll_change (102-117)", "/repo/src/signal/mutable.rs::Mutable (256-316)", "/repo/src/signal/broadcaster.rs::BroadcasterNotifier::notify (28-43)", "/repo/src/signal/broadcaster.rs::BroadcasterSharedState::poll (128-141)", "/repo/src/signal/broadcaster.rs::BroadcasterState (165-200)", "/repo/src/signal_vec.rs::MutableVec (3366-3442)", "/repo/src/signal_map.rs::MutableBTreeMap (806-907)", "/repo/src/future.rs::CancelableFuture (24-79)"]}
{"id": "C79", "title": "A panic inside a method of a MutableVec or MutableBTreeMap tears at most that one call", "statement": "User code may panic anywhere inside a method of a MutableVec or a MutableBTreeMap: Clone of an element, a key or a value at any call of it, also between the sends to two subscribers, the closure of retain, the iterator of extend, code that holds a guard. For every subscriber by itself the diffs that it received, with those still queued for it, replay without panic and describe the contents after the calls that completed, or those with the one call that panicked made as a whole; different subscribers can differ in which of the two. At most one call panics by itself; after it every method and every new subscription panics. Subscribers are still woken, still receive what is queued for them, and still end exactly when the last handle is gone. If the panic comes in the middle of the broadcast of a MutableBTreeMap, exactly the subscribers before one of them are told, in the order of the subscriptions, and the others never are, whatever happens afterwards. All this is for a panic that is not caught while the guard of lock_mut is still held. If it is caught there, the lock is not poisoned and the map stays in use: subscribers of a MutableBTreeMap which missed a new key are then sent an Update of a key that they do not have.", "quantifier": "every history of a MutableVec or MutableBTreeMap, its handles and any number of subscribers, in which any call panics at any point of its user code", "why_tests_cant": "Every point of every history at which user code can panic, for any number of subscribers, each at its own position; a test picks one point.", "anchors": ["/repo/src/signal_vec.rs::MutableVecState::notify_with (2840-2872)", "/repo/src/signal_vec.rs::MutableVecState (2778-3104)", "/repo/src/signal_map.rs::MutableBTreeState::notify_clone (545-566)", "/repo/src/signal_map.rs::MutableBTreeState::remove (588-596)", "/repo/src/signal_map.rs::MutableBTreeState::insert_cloned (613-624)", "/repo/src/signal_map.rs::MutableBTreeMap (806-950)"]}
{"id": "C80", "title": "Expressions stay right while other threads change their sources", "statement": "One thread polls an expression as in C71; meanwhile other threads write to its Mutables, call any methods of its MutableVecs and MutableBTreeMaps, send to its channels, make and drop subscribers, at any point inside those polls and inside each other. At every moment at which none of these calls is running: what came out of the expression is in order, and if its last answer was Pending then the output shows what the expression denotes for the present values of the sources, or the waker of that poll has been woken since by one of the sources in use; if its last answer was the end, the former is the case.", "quantifier": "every expression, every interleaving of the polls with the calls of any number of other threads, at the granularity of single accesses to shared memory (Mutable, channel) or of single sends of diffs (MutableVec, MutableBTreeMap)", "why_tests_cant": "The schedules of several threads, the nesting of expressions and the histories are all unbounded; a test sees the few schedules that its machine happens to produce.", "anchors": ["/repo/src/signal/mutable.rs::MutableSignalState::poll_change (102-117)", "/repo/src/signal/mutable.rs::MutableLockState::notify (66-76)", "/repo/src/signal_vec.rs::MutableVecState::notify (2840-2872)", "/repo/src/signal_map.rs::MutableBTreeState::notify (545-566)", "/repo/src/signal/channel.rs::Receiver::poll_change (123-137)", "/repo/src/signal/signal.rs", "/repo/src/signal_vec.rs", "/repo/src/signal_map.rs"]}
{"id": "C81", "title": "Index signals of enumerate", "statement": "enumerate hands out with every element a ReadOnlyMutable<Option<usize>>. Whatever well-formed changes the input sends, and however the polls of the Enumerate, its drop, and the creation, polls and drops of signals of those cells are mixed: nothing panics; get answers Some(i) while the element is at position i of the list that the emitted changes describe, and None once it is not in it; every signal starts with a value; when a signal has answered Pending or its end, its last value is the element's present position, or the waker of that poll has been woken since; it answers its end only after the element has left the list or the Enumerate was dropped, and Pending only if neither is so; a signal that waits is woken by both.", "quantifier": "every script of well-formed changes, every history of polls, drop, and uses of every cell and signal, any number of elements, cells and signals", "why_tests_cant": "The cells are shared between the Enumerate and any number of receivers; which of them is told what, and when, depends on unbounded interleaved histories of changes and polls.", "anchors": ["/repo/src/signal_vec.rs::Enumerate::poll_vec_change (1343-1455)", "/repo/src/signal/mutable.rs::MutableSignalState::poll_change (102-117)", "/repo/src/signal/mutable.rs::Mutable::replace_with (268-277)", "/repo/src/signal/mutable.rs::Drop for Mutable (389-406)"]}
{"id": "C82", "title": "channel with the orderings the code asks for", "statement": "channel asks for Acquire, Release and AcqRel, not SeqCst. With these orderings: the values that the polls produce are some of the values sent, in order, each at most once, and a waiting value is the last one sent and is produced by the next poll; a value sent is not lost if no notify takes the waker between the poll's taking the value and its storing the waker; the end is answered only after the channel was closed or all Senders were dropped; after that a poll answers the end; and a receiver that waits is woken by the end. If every load reads the latest value, the executions are those of C39-C41.", "quantifier": "every release/acquire execution, any number of handles, calls running at the same time and polls; every choice of what the loads read and of what the threads know of each other", "why_tests_cant": "Stale loads depend on hardware and compiler; x86 does not show most of them, and a test cannot enumerate the executions that the memory model allows.", "anchors": ["/repo/src/signal/channel.rs::Inner (11-45)", "/repo/src/signal/channel.rs::Sender (55-107)", "/repo/src/signal/channel.rs::Receiver::poll_change (123-137)", "/repo/src/atomic.rs::AtomicOption (85-103)"]}
{"id": "C83", "title": "Lists whose elements show their own position", "statement": "e.enumerate().map_signal(|(i, a)| i.signal().map(move |i| h(i, a))), for any list expression e as in C71: whatever is inserted, removed, moved, replaced, the changes that come out can be applied, and if the last answer was Pending then they show h(Some(i), a) for every element a of the list that e denotes at present, at its position i in this list, or the waker of the last poll has been woken since. If the last answer was the end, the former is the case. The same holds for any other use of the index signals in the closure, to any depth of nesting.", "quantifier": "every expression, every history of every source, every h, every sequence of polls", "why_tests_cant": "the positions change while the list that carries them is polled, through Mutables that wake the very task which is polling; every interleaving of list changes, index changes and polls matters, for lists of every length", "anchors": ["src/signal_vec.rs:1333-1456", "src/signal_vec.rs:1460-1622", "src/signal/mutable.rs:175-219"]}
{"id": "C84", "title": "AtomicOption has no data races under the orderings it asks for", "statement": "Values are handed from thread to thread through an AtomicOption without data races: whichever threads call swap, store and take, however the calls overlap, and even if these threads know nothing of each other by other means, every access to the heap box of a value happens before (in the sense of the memory model) the next access to the same address, including accesses after the allocator handed the address out again and the final drop. What happened before a value was handed in happens before everything done with it after it was taken out. AcqRel is the weakest ordering for which this is so.", "quantifier": "every number of threads, every history of calls, every choice of addresses, every knowledge that threads have of each other", "why_tests_cant": "a missing happens-before edge has no visible effect on most machines; on x86 the wrong orderings behave like the right ones", "anchors": ["src/atomic.rs:54-112"]}
{"id": "C85", "title": "Futures and streams inside expressions", "statement": "from_future, signal::from_stream and signal_vec::from_stream may be sources of the expressions of C71, also inside of closures, if the futures and streams keep the contract of poll (once there is something new, the waker of the last poll is woken). from_future shows None, and the output once there is one; signal::from_stream the item produced last, or None; signal_vec::from_stream the list of all items produced, and sends only Push. So a list whose elements are fetched, e.map_signal(|a| from_future(fetch(a))), shows for each element of the present list its output, or None as long as there is none, or the waker of the last poll has been woken. And a query with an asynchronous answer, e.switch(|q| from_future(fetch(q))), shows the answer to the present query or None, never one to an older query, or the waker of the last poll has been woken.", "quantifier": "every future and stream that keeps the contract, every expression, every history of the sources, every sequence of polls", "why_tests_cant": "answers may come in any order, before, between and after changes of the list or the query, and wake-ups may be lost in any of these orders", "anchors": ["src/signal/signal.rs:766-872", "src/signal_vec.rs:619-642", "src/signal_vec.rs:1460-1622", "src/signal/signal.rs:1575-1638"]}
{"id": "C86", "title": "Subscribers of a MutableBTreeMap, and subscribers on other threads, are independent", "statement": "What a subscriber of a MutableBTreeMap receives, the contents and its channel do not depend on how many other subscribers exist, when they are polled or when they are dropped. For MutableVec and MutableBTreeMap used from several threads, where other subscribers are polled and dropped between any two sends of one call: everything one subscriber and the users of the handles see (their calls, the subscriber's polls and the answers, in order, the contents and what is queued for it) they could also have seen if that subscriber had been the only one ever.", "quantifier": "every history, every subscriber, every interleaving at sends and at drops of senders", "why_tests_cant": "It is a non-interference claim about all behaviours of all other subscribers and all schedules.", "anchors": ["/repo/src/signal_map.rs::MutableBTreeState::{notify,notify_clone} (535-566)", "/repo/src/signal_vec.rs::MutableVecState::{notify,notify_with,notify_clone} (2833-2872)", "/repo/src/signal_map.rs::MutableSignalMap::poll_map_change (945-947)", "/repo/src/signal_vec.rs::MutableSignalVec::poll_vec_change (3478-3480)"]}
{"id": "C87", "title": "stop_if, filter_map, throttle, map_future and delay_remove inside expressions", "statement": "The expressions of C71 may also use stop_if, filter_map, throttle, map_future and delay_remove, everywhere and to any depth, if the futures keep the contract of poll. At rest (the last answer was Pending and the waker of the last poll has not been woken since, or the last answer was the end): stop_if shows the present value, or one that passes its test; filter_map shows what the closure makes of the present value if it accepts that, otherwise None or what it made of some value; throttle shows the present value, unless one of its timers is running; map_future shows the output of the future made last, which was made from the present value, or this future is running; delay_remove shows the present list, and in between elements whose future is running, so the present list itself if none is. So e.throttle(timer).map_future(fetch) shows the answer for the present query once the timer and the request are over, or the waker of the last poll has been woken. delay_remove sends no Clear or Replace without effect if its input sends none, so it may be used below chain.", "quantifier": "every expression, every future that keeps the contract, every history of the sources, every sequence of polls", "why_tests_cant": "timers and answers may fire in any order, before, between and after changes, and the wake-ups of nested combinators may be lost in any of these orders", "anchors": ["src/signal/signal.rs:1098-1132", "src/signal/signal.rs:1248-1309", "src/signal/signal.rs:1316-1365", "src/signal/signal.rs:1532-1570", "src/signal_vec.rs:2538-2775"]}
{"id": "C88", "title": "Tasks that keep Mutables up to date settle on the equations", "statement": "Any number of tasks signal.for_each(|v| { target.set(v); ready(()) }) (or set_neq) run on an executor over shared Mutables, where the signals are built from the signals of the Mutables with map, map_ref!, dedupe and so on, so tasks may depend on the targets of other tasks. Whenever the executor has nothing to do for a task, its callback was called last on the present value of its expression. If each Mutable is the target of at most one task and nobody else changes the targets, then each target has the present value of its expression whenever the executor has nothing to do for that task. Without cyclic dependencies, every run of the executor ends after less than 2^n polls, whatever the order of the polls, and if it takes tasks in the order of their dependencies, one poll of each is enough; the final values do not depend on the order, and are the only solution of the equations; and once only the tasks have handles of what they read, all tasks complete. With a cycle whose equations have no solution, the executor never comes to rest.", "quantifier": "any number of tasks and Mutables, every network of signals, every history of changes by others, every order of polls by the executor", "why_tests_cant": "The order in which an executor polls woken tasks, and changes by others in between, give unboundedly many schedules; a lost wake-up or a stale value shows only in some of them.", "anchors": ["src/signal/signal.rs:479-489", "src/signal/signal.rs:1002-1016", "src/signal/mutable.rs:290-305", "src/signal/mutable.rs:342-344", "src/signal/mutable.rs:389-406", "src/signal/mutable.rs:428-447"]}
{"id": "C89", "title": "Two-way bindings", "statement": "A task that sets the Mutable it reads, m.signal().map(f).for_each(|v| m.set(v)), never returns from its first poll. Two tasks that keep two Mutables equal to the conversion of each other (b to f(a), a to g(b)) never come to rest with set, whatever happens. With set_neq, if fgf = f and gfg = g, the executor comes to rest after at most six polls, from every state; at rest one of the two is the conversion of the other, and each is of the other if f and g are inverse. If at rest a is set to x, then at the next rest b is f(x), and a is x or g(f(x)).", "quantifier": "all conversions f and g, every history of changes by others, every order of polls", "why_tests_cant": "Divergence and termination are claims about all runs, from all states that changes by others can produce.", "anchors": ["src/signal/signal.rs:479-489", "src/signal/mutable.rs:290-305", "src/signal/mutable.rs:342-344", "src/signal/mutable.rs:428-447"]}
{"id": "C90", "title": "Changes that do not fit are noticed by whoever keeps the list", "statement": "Let the input of a SignalVec combinator be arbitrary, so that it may send a change that cannot be applied to the list sent so far (a wrong position, Pop of an empty list), as a SignalVec written by the user may. filter, filter_map, enumerate, map_signal, filter_signal_cloned, flatten (its outer vector), sort_by_cloned, to_signal_map, to_signal_cloned and sum notice: the poll that takes such a change panics, so as long as no poll has panicked, all changes taken fit. map, which keeps no list, passes the change on, so what it sends does not fit either. len, delay_remove and chain do not notice some of them: len counts a wrong position, delay_remove takes a position after the end for the end, and chain lets a change of the left vector change an element of the right one.", "quantifier": "every sequence of answers of the input, valid or not, all closures, every sequence of polls", "why_tests_cant": "A test has to guess the wrong position and the state in which it is overlooked; the claim is about all sequences of changes up to the first wrong one.", "anchors": ["src/signal_vec.rs:2010-2119", "src/signal_vec.rs:1343-1455", "src/signal_vec.rs:1253-1326", "src/signal_vec.rs:2190-2269", "src/signal_vec.rs:1510-1622", "src/signal_vec.rs:1658-1873", "src/signal_vec.rs:1122-1208", "src/signal_vec.rs:2395-2533", "src/signal_vec.rs:682-686"]}
{"id": "C91", "title": "A MutableVec kept as a copy by apply_vec_diff", "statement": "Let a task e.for_each(|diff| { MutableVecLockMut::apply_vec_diff(&mut target.lock_mut(), diff); ready(()) }) apply the changes of an expression e for a list to a MutableVec target that was empty, while target has any number of subscribers. Nothing panics. When the task is waiting and its waker has not been woken, the contents of target are what e denotes for the present values of the sources; when the task is complete they are that too. So every subscriber of target that is waiting and has not been woken shows what e denotes: a list that can be listened to only once is shared. If e sends no change without effect, neither does target, so target can be used in chain. Copies of copies, any number of them in a row, end up with the contents of the first list. The target has to be empty at first: a subscriber of an empty list gets no change, so the old contents would stay.", "quantifier": "all expressions covered by C71, all histories of the sources and of the target's subscribers, any number of copies in a row, all schedules of polls", "why_tests_cant": "The claim composes every pipeline with every interleaving of subscribers of the copy, and with rows of copies of any length.", "anchors": ["src/signal_vec.rs:3339-3350", "src/signal_vec.rs:505-514", "src/signal_vec.rs:3056-3097", "src/signal_vec.rs:3478-3480"]}
{"id": "C92", "title": "Polls after the end", "statement": "The traits do not say what a poll after Ready(None) does. There are two kinds of combinators. The first kind remembers its end: from then on every poll answers Ready(None), nothing in it changes, and neither its inputs nor its closures nor the futures it holds are touched, whatever the inputs would do: stop_if, first, from_future, from_stream, always, flatten and switch, map_future, throttle, map_ref!, map_mut!, and, or; always of lists and maps, to_signal_map, sum, len, is_empty, chain, flatten of lists, map_signal, filter_signal_cloned, delay_remove, switch_signal_vec, map_value_signal. The second kind asks its input once more on every poll, and answers Ready(None) without any other change as long as the input does: map, inspect, not, eq, neq, dedupe, dedupe_cloned, dedupe_map, filter_map, wait_for, sample_stream_cloned (its stream), option and result (the first kind for a value), from_stream of lists, map, filter, filter_map, enumerate, sort_by_cloned, to_signal_vec, map_value, key_cloned, signal_vec_keys, entries_cloned. So any combination of these over a source that stays ended stays ended, with any number of polls. Combinators of the second kind do not end for good: map and key_cloned give a value again if their input does. A future made by to_future that has completed panics when it is polled again.", "quantifier": "for every combinator, every closure, every state in which a poll answers Ready(None), every script of the inputs, and every number of later polls with any wakers", "why_tests_cant": "an executor stops polling at the end, so tests never reach these polls; the claim is about every state that can answer with the end and any number of later polls, including inputs that misbehave", "anchors": ["src/signal/signal.rs:1110-1132", "src/signal/signal.rs:1604-1637", "src/signal/signal.rs:1330-1366", "src/signal/signal.rs:1051-1068", "src/internal.rs:66-99", "src/signal_vec.rs:942-971", "src/signal_vec.rs:1122-1208", "src/signal_vec.rs:1510-1622", "src/signal_vec.rs:1658-1873", "src/signal_vec.rs:2638-2775", "src/signal_map.rs:409-466", "src/signal_map.rs:297-391"]}
{"id": "C93", "title": "What a combinator sends is proportional to what it received", "statement": "Call the size of a change one, and one more for each element it carries. map, enumerate, map_value and entries_cloned answer each change with one of the same size. filter, filter_map and signal_vec_keys send no more changes and no more volume than they received. sort_by_cloned sends at most one and a half times, delay_remove and chain at most three times what they received (chain from both). flatten sends at most one for each change of the outer list and three times what the inner lists it was given send; map_signal, filter_signal_cloned and map_value_signal at most one for each change and two for each value of the signals made; switch_signal_vec at most one for each value and what the lists made send. to_signal_map, sum, len, is_empty, key_cloned, map_future and from_stream send at most one value for each change, value or item taken, and one at the start; flatten of signals at most the values of the inner signals; map_ref! and map_mut! at most one for each value of an input; throttle and sample_stream_cloned exactly one for each value or item taken. None of this depends on the length of the lists: no combinator answers small changes by sending its whole list again. The source keeps to it as well: in every history of calls without reverse, what any subscriber of a MutableVec has received is at most three times what the calls were given, two for each call, and twice the contents at the beginning; reverse is the exception, it puts exactly one change fewer than there are values into each live subscriber's queue. What any subscriber of a MutableBTreeMap has received is at most the entries at the beginning and one, the entries given to the calls, and one for each call. The factors of sort_by_cloned and chain cannot be improved: there are arbitrarily long runs that miss them by a constant only.", "quantifier": "all inputs, valid or not, all closures and inner signals, every sequence of polls", "why_tests_cant": "A cost bound over all sequences of changes; a test measures one sequence, and the expensive ones (an inner list emptied under a long chain) are hard to find.", "anchors": ["src/signal_vec.rs:1122-1208", "src/signal_vec.rs:1253-1326", "src/signal_vec.rs:1343-1455", "src/signal_vec.rs:1510-1622", "src/signal_vec.rs:1658-1873", "src/signal_vec.rs:2010-2119", "src/signal_vec.rs:2190-2269", "src/signal_vec.rs:2395-2533", "src/signal_map.rs:237-391", "src/signal_map.rs:409-466", "src/signal/signal.rs:1192-1366", "src/signal/signal.rs:1604-1637", "src/signal_vec.rs:2572-2999"]}
{"id": "C94", "title": "Combinators hold exactly what belongs to the present elements", "statement": "At every moment map_signal, filter_signal_cloned and flatten hold the inner signals or lists made from the elements of the present list, one for each and in their order, and map_value_signal one for each present key; the signal of an element that was removed or replaced is let go of by the poll that takes the change. delay_remove holds the futures of the present elements and of those whose removal is outstanding, and no completed one. to_signal_map, sum and sort_by_cloned hold a copy of the present list; filter, filter_map and enumerate one flag or index for each present element. flatten and switch of signals, map_future and switch_signal_vec hold at most one inner signal, future or list, that of the last value. Changes wait to be sent only while the answers are changes: after Pending and after the end no combinator holds an unsent one.", "quantifier": "all inputs, valid or not (for delay_remove: valid), all closures and inner signals, every sequence of polls that does not panic", "why_tests_cant": "A leak, or an inner signal kept in the wrong place, shows only in particular sequences of changes; a test looks at a few.", "anchors": ["src/signal_vec.rs:1122-1208", "src/signal_vec.rs:1510-1622", "src/signal_vec.rs:1658-1873", "src/signal_vec.rs:2395-2533", "src/signal_vec.rs:2638-2775", "src/signal_map.rs:297-391", "src/signal/signal.rs:1263-1309", "src/signal/signal.rs:1604-1637", "src/signal/signal.rs:1659-1788"]}
{"id": "C95", "title": "Callbacks may have state: each is called exactly once for each value that arrives", "statement": "The closures of map_signal, filter_signal_cloned, delay_remove, map_value_signal and map_future may change state that they capture, so that what they make depends on the calls before. Each is called exactly once for each value that arrives (each value of Replace, InsertAt, UpdateAt and Push, of Replace, Insert and Update, or of the signal), in the order of arrival, and never for a move or a removal; the closure of switch_signal_vec once for the last of the values that arrive between two Pendings. What is held for an element is what the call for that element made, and no two elements share what one call made, even if they are equal. With this, what the combinators promise for pure closures (C12, C17, C29, C54, and as far as they hold C13, C22) holds for closures with state.", "quantifier": "all deterministic closures with state (functions of the arguments of all calls so far), all valid inputs (for the number and order of calls of filter_signal_cloned, map_future: all inputs), all inner signals that answer their first poll with a value, every sequence of polls", "why_tests_cant": "The tests use closures whose result depends on the argument alone; a value evaluated twice, skipped or in another order shows only with counters in the closure and particular sequences of changes.", "anchors": ["src/signal_vec.rs:1510-1622", "src/signal_vec.rs:1658-1873", "src/signal_vec.rs:2638-2775", "src/signal_map.rs:297-391", "src/signal/signal.rs:1263-1309", "src/signal/signal.rs:1659-1788"]}
{"id": "C96", "title": "A leaked Drain leaves the subscribers with too much, never too little, and replace repairs it", "statement": "If the Drain returned by MutableVecLockMut::drain is leaked (mem::forget) instead of dropped, the MutableVec keeps only what is before the range while its subscribers remove the range only, so they agree exactly if the range reaches to the end. Whatever happens then, with any number of leaks, every change a subscriber gets can be applied to its copy, and its copy equals the contents or is longer. A subscription made after the last leak is exact; all are exact again after replace, replace_cloned, or clear of a MutableVec that is not empty. clear of a MutableVec left empty by the leak tells nobody, and the subscribers keep what was behind the range.", "quantifier": "all contents, histories of operations, subscriptions, polls, drops and leaked Drains, all ranges, any number of subscribers", "why_tests_cant": "The states reached after a leak differ between subscribers and contents, and every later operation sends changes computed for other contents; whether one of them can ever fail to apply depends on all operations and lengths at once.", "anchors": ["src/signal_vec.rs:2954-2980", "src/signal_vec.rs:3255-3257", "src/signal_vec.rs:2907-2913"]}
{"id": "C97", "title": "Each call of a MutableVec or MutableBTreeMap sends exactly the expected changes", "statement": "A subscriber of a MutableVec gets the contents as one Replace when it subscribes (nothing if they are empty), and then for each call that does not panic, in the order of the calls, exactly these changes: Pop for pop, Pop or RemoveAt for remove, one Move for move_from_to, one or two Moves for swap, one Move per element but one for reverse, Push for push, Push or InsertAt for insert, UpdateAt for set, Replace for replace, one Push per element for extend; for retain, drain and truncate nothing if all elements stay, Clear if none stays, and otherwise one change for each element that goes, the last one first, which is Pop if no element that stays comes after it and RemoveAt otherwise; for apply_vec_diff what the corresponding call sends. A subscriber of a MutableBTreeMap gets the entries, and then Insert, Update or Remove, Replace or Clear, one for each call that has something to do. Nothing else is sent, and a subscriber that was dropped has received a beginning of this. The same holds when threads call, subscribe and poll concurrently: the changes are those of the calls in the order in which they got the lock.", "quantifier": "every initial contents, every history of calls, subscriptions, polls and drops, every subscriber", "why_tests_cant": "The indices depend on which elements stay and on what was already removed by the same call; a test covers a few shapes of retain or drain, not all predicates, ranges and histories.", "anchors": ["src/signal_vec.rs:2874-3104", "src/signal_vec.rs:3216-3361", "src/signal_map.rs:578-684"]}
{"id": "C98", "title": "Each SignalVec combinator sends exactly the expected changes", "statement": "map, enumerate and map_value send for each change they take one change of the same kind at the same position. filter and filter_map send nothing for a change of an element that is hidden before and after, otherwise exactly one change, at the number of kept elements before it (for a Move, both numbers are counted after the move, see C11). sort_by_cloned sends one change per change, at the position the element has in the stably sorted list (Push or Pop at the end), nothing for a Move that does not change the order, and a removal and an insertion for an update that does. chain sends the changes of its left input unchanged and those of its right input shifted, with Push and Pop of the left turned into InsertAt and RemoveAt while the right is non-empty; a Replace or Clear is expanded into removals and insertions of that side only while the other side is non-empty. signal_vec_keys and entries_cloned send one change per map change at the number of smaller keys; signal_vec_keys sends nothing for an Update. map_signal and map_value_signal send, besides those, an UpdateAt (Update) whenever the signal of an element gives a value; filter_signal_cloned an InsertAt or RemoveAt, at the number of kept elements before it, whenever the signal of an element turns. delay_remove sends one removal for each element whose future finished, the last one first, Pop if it is the last element and RemoveAt otherwise; and each other change it took, with its positions counted among the elements that are not leaving, where a Replace comes as that many Push if elements are shown. switch_signal_vec sends each change of the SignalVec it follows as it is, but when it begins to follow one while elements are shown, it sends one Replace with what that one gives at once. SignalVec::flatten sends one Replace for a Replace of the outer vector, with what the new inner vectors give at once, and Clear for its Clear; for a change of an inner vector it sends that change moved on by the number of elements the inner vectors before it show, with Push and Pop as InsertAt and RemoveAt, and Replace and Clear as removals and insertions; for any other change of the outer vector it sends nothing (see C14). Nothing else is sent, nothing is sent twice.", "quantifier": "every history of the inputs, every schedule of polls, every callback or comparison", "why_tests_cant": "The position depends on all the elements before it and on the whole history; equivalent-looking outputs (a Replace instead of a Move, an update sent twice) leave the same final contents, so tests of the contents do not see them.", "anchors": ["src/signal_vec.rs:2010-2119", "src/signal_vec.rs:2302-2533", "src/signal_vec.rs:694-971", "src/signal_map.rs:954-1039", "src/signal/signal.rs:1644-1788", "src/signal_vec.rs:2554-2775", "src/signal_vec.rs:975-1208"]}
{"id": "C99", "title": "A task is woken at most once for each Pending it was given", "statement": "For every waker, the number of times the crate wakes it is at most the number of polls that were given this waker and answered Pending. A write or send after which nobody polled again wakes nobody a second time, a poll that answers Ready never leads to a wake, and cancelling or dropping the last handle wakes only a task that is waiting. This holds for the signals of a Mutable, of MutableVec and MutableBTreeMap, of a channel and of a Broadcaster, and for cancelable_future; and for every interleaving of the threads that write, poll, subscribe and drop.", "quantifier": "every waker, every history of calls, every number of signals, every interleaving", "why_tests_cant": "A spurious wake leaves the values right and only costs a poll, so tests of the values pass; whether one can occur depends on when the waker is taken out relative to polls and wakes of other threads.", "anchors": ["src/signal/mutable.rs:28-42", "src/signal/channel.rs:41-45", "src/signal/broadcaster.rs:28-43", "src/future.rs:25-37"]}
{"id": "C100", "title": "A MutableVec sends its changes in their plain form, and copies pass them on unchanged", "statement": "Every change that a subscriber of a MutableVec receives says what it does in the plainest way, for the list that the changes before it describe: an insertion at the end comes as Push and not as InsertAt, a removal at the end as Pop and not as RemoveAt, there is no Move to the same place and no Clear of an empty list. A MutableVec to which changes are applied with apply_vec_diff sends exactly the plain form of these changes, in order. So a MutableVec that copies another one sends the same changes, in the same order and number, and so does every copy of a copy.", "quantifier": "every history of calls, every subscriber, every list of changes, every number of copies in a row", "why_tests_cant": "A change that is written in another way has the same effect on a copy, so tests that compare contents pass; the claim is about every position in every history, among them ranges that reach the end and calls that change nothing.", "anchors": ["src/signal_vec.rs:2884-3104", "src/signal_vec.rs:3339-3350"]}
{"id": "C101", "title": "Refactoring: two ways of writing an expression that cannot be told apart", "statement": "Programs may be rewritten by the usual laws without anybody who polls the signal noticing, at any place of an expression, including inside the expressions made by closures. Signals: .map(f).map(g) is .map(g after f); .map(identity) and .inspect(..) are nothing; not is .map(!), not(not(s)) is s; option(Some(s)) is s.map(Some), result(Ok(s)) is s.map(Ok); .eq(v) is .map(== v).dedupe(), .neq(v) is not(.eq(v)); a second dedupe does nothing; .dedupe_map(f) is .dedupe().map(f); .map(f).dedupe() is .dedupe().map(f).dedupe(), and .dedupe().map(f) for injective f; .map(g).filter_map(f) and .filter_map(f).map(..) are one filter_map. Lists: the same for map, filter_map and filter; .map(g).filter(q) is .filter(q after g).map(g); .to_signal_cloned().map(f) is .to_signal_map(f); .map(f).to_signal_map(g) is .to_signal_map(g after f); len and is_empty do not see a map; .map(f).sort_by_cloned(c) is .sort_by_cloned(|a, b| c(&f(a), &f(b))).map(f); .map(f).enumerate() is .enumerate().map(|(i, x)| (i, f(x))); a.chain(b).map(f) is a.map(f).chain(b.map(f)). Maps: .map_value(f).map_value(g) is .map_value(g after f). But .filter(p).filter(q) is not .filter(p and q): if an element is moved to the front, past one that is filtered out, the first panics and the second does not; they are the same in every run in which nothing is moved.", "quantifier": "all functions, values and expressions built from all combinators, all behaviours of the sources, all sequences of polls and wakers", "why_tests_cant": "Two expressions are the same only if they agree in every answer to every poll in every run, for every way of using them in a larger expression; a test compares a few runs of one use.", "anchors": ["src/signal/signal.rs:155-252", "src/signal/signal.rs:361-371", "src/signal/signal.rs:606-734", "src/signal/signal.rs:1087-1241", "src/signal/signal.rs:1425-1570", "src/signal_vec.rs:200-207", "src/signal_vec.rs:266-284", "src/signal_vec.rs:322-354", "src/signal_vec.rs:2014-2171", "src/signal_map.rs:101-108", "src/signal_vec.rs:1343-1455", "src/signal_vec.rs:2302-2533", "src/signal_vec.rs:694-971"]}
{"id": "C102", "title": "Which combinators keep changes plain", "statement": "If the changes that arrive are plain in the sense of C100 (an insertion at the end is a Push, a removal at the end a Pop, nothing moves to where it is, nothing empty is cleared), then so are the changes that map, enumerate, map_signal, chain and delay_remove send, and those of switch_signal_vec if all lists it may follow send plain changes. What sort_by_cloned sends is plain even if what arrives is not, as long as nothing empty is cleared. So a MutableVec that copies a mapped, enumerated, chained or sorted MutableVec sends exactly the changes it gets (C100). filter does not keep changes plain: an element inserted before one that is filtered out comes as InsertAt although it is put at the end, its removal as RemoveAt, and a Clear comes even if all elements were filtered out. Neither do signal_vec_keys, entries_cloned and signal_vec_entries, which never send Push or Pop.", "quantifier": "for all sequences of changes, all interleavings of changes with Pending and with the changes of signals of elements, all closures and comparison functions, at every point of the run", "why_tests_cant": "Whether a change is plain depends on the list that all changes before it describe, and for chain and map_signal on how the changes of the inputs are interleaved; tests look at a few sequences of changes.", "anchors": ["src/signal_vec.rs:675-687", "src/signal_vec.rs:694-971", "src/signal_vec.rs:1339-1456", "src/signal_vec.rs:1504-1623", "src/signal_vec.rs:2133-2149", "src/signal_vec.rs:2302-2533", "src/signal_vec.rs:2554-2760", "src/signal/signal.rs:1644-1788"]}
{"id": "C103", "title": "A list is sent as a whole only when an input sends one", "statement": "A consumer that shows a list, such as a user interface, has to build everything anew for a Replace and to throw everything away for a Clear, so a combinator should not send them on its own. map, enumerate, filter, filter_map, sort_by_cloned, map_signal and filter_signal_cloned send one Replace for each Replace and one Clear for each Clear they take, and never another one, whatever the signals of the elements do. flatten sends one for each of the outer list and none for anything an inner list does. chain sends no more than both inputs together. delay_remove never sends Clear, and Replace only for a Replace and only if nothing is shown, not even an element that is leaving. A pipeline of map, filter, filter_map, sort_by_cloned, enumerate and chain sends no more than its inputs together; if no input sends its list as a whole, neither does the pipeline. switch_signal_vec adds at most one Replace for each list it follows after the first, and no Clear; map_value, map_value_signal, signal_vec_keys and signal_vec_entries add none. A subscriber of a MutableVec or MutableBTreeMap gets at most one Replace that no call of replace asked for, its first contents, and a Clear only for a call that can leave the list empty; so a pipeline on a MutableVec that is edited element by element sends each list at most once.", "quantifier": "for all sequences of changes, all interleavings with Pending, with the changes of signals of elements and of inner lists, all closures, futures and comparison functions, all pipelines of any depth, at every point of the run", "why_tests_cant": "The claim is that something is never sent, over all sequences of changes of several inputs that are interleaved; tests look at what is sent for a few sequences.", "anchors": ["src/signal_vec.rs:675-687", "src/signal_vec.rs:694-971", "src/signal_vec.rs:1339-1456", "src/signal_vec.rs:1504-1623", "src/signal_vec.rs:1658-1873", "src/signal_vec.rs:2010-2119", "src/signal_vec.rs:2133-2149", "src/signal_vec.rs:2302-2533", "src/signal_vec.rs:2554-2773", "src/signal/signal.rs:1644-1788", "src/signal_map.rs:952-1043", "src/signal_vec.rs:2825-3195", "src/signal_map.rs:527-745"]}
{"id": "C104", "title": "Timing does not change the changes that are sent", "statement": "Take a pipeline of map, filter, filter_map, sort_by_cloned and enumerate. What it sends depends only on the changes that its input sends, not on when they arrive, how many of them are waiting when it is polled, how many Pendings lie in between, or when and with which wakers it is polled. If the input of one run has sent the same changes as that of another, or a beginning of them, then what one run has sent is a beginning of what the other has sent; if both last answered Pending or have ended and got the same changes, they have sent exactly the same changes. In particular no change is merged, split or dropped because a consumer is slow. The same holds for a pipeline on a subscriber of a MutableVec in two histories that make the same calls on the MutableVec, whenever the subscribers are polled or other subscribers are dropped. The same holds for map_value, signal_vec_keys and signal_vec_entries, and for a subscriber of a MutableBTreeMap. It also holds if the calls are made by other threads, in the same order, and the subscribers are polled between any two sends of a call. With chain this is false: it sends the changes of its two inputs in the order in which they arrive. But also then the contents do not depend on timing: if the inputs of two runs describe the same lists, in whatever way, and both runs are at rest, the outputs describe the same list (chains not nested, filters without backward moves, no enumerate, lawful comparisons). The same holds if one of the two runs is of a pipeline rewritten by a law of C101.", "quantifier": "for all pipelines without chain, all functions, predicates and comparisons (lawful or not), all pairs of runs, with any changes and wakers and any interleaving with Pending", "why_tests_cant": "the pairs of schedules of unboundedly long runs cannot be listed, and a test fixes one schedule", "anchors": ["src/signal_vec.rs:675-687", "src/signal_vec.rs:1339-1456", "src/signal_vec.rs:1504-1623", "src/signal_vec.rs:2133-2149", "src/signal_vec.rs:2554-2773", "src/signal_vec.rs:694-971", "src/signal_vec.rs:2825-3195", "src/signal_map.rs:228-241", "src/signal_map.rs:952-1043", "src/signal_map.rs:527-745"]}
