{
 "claims": [
  {
   "property": "C01",
   "status": "proved",
   "theorems": [
    "Verif.MutVec.C01_mirror",
    "Verif.MutVec.C01_caught_up"
   ],
   "note": "All histories of operations, subscriptions, polls and drops over any contents; futures mpsc channel modelled as a FIFO."
  },
  {
   "property": "C02",
   "status": "proved",
   "theorems": [
    "Verif.MutVec.C02_ops"
   ],
   "note": "Every MutableVecLockMut method against the plain list operation, including panics. Drain is assumed to be dropped, not leaked."
  },
  {
   "property": "C03",
   "status": "proved",
   "theorems": [
    "Verif.MutVec.C03_silent"
   ],
   "note": "The whole world, including every subscriber queue and the wake log, is unchanged."
  },
  {
   "property": "C04",
   "status": "proved",
   "theorems": [
    "Verif.MutVec.C04_independent",
    "Verif.MutVec.C04_solo",
    "Verif.MutVec.C04_forgotten"
   ],
   "note": ""
  },
  {
   "property": "C05",
   "status": "proved",
   "theorems": [
    "Verif.MutVec.C05_poll",
    "Verif.MutVec.C05_stays",
    "Verif.MutVec.C05_wake"
   ],
   "note": ""
  },
  {
   "property": "C06",
   "status": "proved",
   "theorems": [
    "Verif.C06_map_natural"
   ],
   "note": "All diffs, vectors and functions; panics included."
  },
  {
   "property": "C07",
   "status": "proved",
   "theorems": [
    "Verif.C07_map_natural"
   ],
   "note": ""
  },
  {
   "property": "C08",
   "status": "proved",
   "theorems": [
    "Verif.C08_map"
   ],
   "note": "All well-formed histories and poll schedules; includes that the callback is called once per carried value, in order."
  },
  {
   "property": "C09",
   "status": "proved",
   "theorems": [
    "Verif.C09_chain"
   ],
   "note": ""
  },
  {
   "property": "C10",
   "status": "partial",
   "theorems": [
    "Verif.C10_filter_partial",
    "Verif.feed_moveOk_of_no_back_moves",
    "Verif.C10_filter_fails",
    "Verif.C10_filter_exact",
    "Verif.C11_filter_map_any"
   ],
   "note": "False as stated: Move towards the front can be mis-indexed. Proved for all histories satisfying MoveOk, and that condition is exact: if no element is shown twice the output is right at every moment if and only if the history satisfies MoveOk (C10_filter_exact). For every applicable history: no panic, the callback is called as claimed, the number of elements shown is right (C11_filter_map_any). Counterexample and general form of the defect proved."
  },
  {
   "property": "C100",
   "status": "proved",
   "theorems": [
    "Verif.MutVec.C100_plain",
    "Verif.MutVec.C100_copy",
    "Verif.MutVec.C100_passed_on",
    "Verif.MutVec.C100_copies_of_copies"
   ],
   "note": ""
  },
  {
   "property": "C101",
   "status": "proved",
   "theorems": [
    "Verif.Expr.C101_anywhere",
    "Verif.Expr.C101_map_map",
    "Verif.Expr.C101_map_id",
    "Verif.Expr.C101_not",
    "Verif.Expr.C101_option",
    "Verif.Expr.C101_eq",
    "Verif.Expr.C101_dedupe",
    "Verif.Expr.C101_dedupe_map",
    "Verif.Expr.C101_filter_map",
    "Verif.Pipe.C101_map_map",
    "Verif.Pipe.C101_filter_map_map",
    "Verif.Pipe.C101_map_filter_map",
    "Verif.Pipe.C101_filter",
    "Verif.Expr.C101_pipe",
    "Verif.Expr.C101_map_value",
    "Verif.Expr.C101_to_signal_map",
    "Verif.C101_fused",
    "Verif.C101_not_filter_filter",
    "Verif.Pipe.C101_filter_filter_partial",
    "Verif.Pipe.C101_filters_partial",
    "Verif.Expr.C101_map_sink",
    "Verif.Pipe.C101_map_sort",
    "Verif.Pipe.C101_map_enumerate",
    "Verif.Pipe.C101_map_chain"
   ],
   "note": "Traces contain the wakers and answers of all polls. The laws with the identity require that the expression is not polled after its end; C101_fused: this holds for every expression with a combinator at its top."
  },
  {
   "property": "C102",
   "status": "proved",
   "theorems": [
    "Verif.C102_map",
    "Verif.C102_enumerate",
    "Verif.C102_map_signal",
    "Verif.C102_sort",
    "Verif.C102_chain",
    "Verif.C102_not_filter",
    "Verif.C102_pipe",
    "Verif.MutVec.C102_copy",
    "Verif.C102_delay_remove",
    "Verif.C102_keys_never",
    "Verif.C102_entries_never",
    "Verif.C102_not_keys",
    "Verif.C102_switch"
   ],
   "note": "The theorems say \"if what it took so far is plain\", at every point of the run. Derived from the exact changes of C98."
  },
  {
   "property": "C103",
   "status": "proved",
   "theorems": [
    "Verif.C103_map",
    "Verif.C103_enumerate",
    "Verif.C103_filter_map",
    "Verif.C103_filter",
    "Verif.C103_sort",
    "Verif.C103_map_signal",
    "Verif.C103_filter_signal",
    "Verif.C103_flatten",
    "Verif.C103_chain",
    "Verif.C103_delay_remove",
    "Verif.C103_pipe",
    "Verif.C103_switch",
    "Verif.C103_keys",
    "Verif.C103_entries",
    "Verif.MutVec.C103_vec",
    "Verif.MutVec.C103_from_vec",
    "Verif.MutMap.C103_map",
    "Verif.C103_map_value",
    "Verif.C103_map_value_signal"
   ],
   "note": "Derived from the exact changes of C98. The theorems count what was taken and sent so far, at every point of the run; for combinators that keep changes pending the equality includes those. C103_pipe assumes, like C60, that the inputs of filters send no Move backwards (see C11)."
  },
  {
   "property": "C104",
   "status": "proved",
   "theorems": [
    "Verif.C104_same_changes",
    "Verif.C104_at_rest",
    "Verif.C104_not_chain",
    "Verif.MutVec.C104_from_vec",
    "Verif.MutVec.C104_from_vec_rest",
    "Verif.C104_map_value",
    "Verif.C104_keys",
    "Verif.C104_entries",
    "Verif.MutMap.C104_map_subscriber",
    "Verif.C104_contents",
    "Verif.HubConc.C104_vec_threads",
    "Verif.HubConc.C104_map_threads",
    "Verif.HubConc.C104_pipe_threads",
    "Verif.C104_rewritten"
   ],
   "note": "For all pipelines without chain; C104_not_chain shows with two concrete runs that chain has to be left out. For subscribers of a MutableVec the two runs may differ in when anything is polled and in which subscribers are dropped."
  },
  {
   "property": "C11",
   "status": "partial",
   "theorems": [
    "Verif.C11_filter_map_partial",
    "Verif.feed_moveOk_of_no_back_moves",
    "Verif.C11_filter_map_fails",
    "Verif.C11_move_off_by_one",
    "Verif.C11_filter_map_exact",
    "Verif.C11_filter_map_any"
   ],
   "note": "As C10: exact condition C11_filter_map_exact, any history C11_filter_map_any."
  },
  {
   "property": "C12",
   "status": "proved",
   "theorems": [
    "Verif.C12_map_signal"
   ],
   "note": ""
  },
  {
   "property": "C13",
   "status": "partial",
   "theorems": [
    "Verif.C13_filter_signal_partial",
    "Verif.C13_filter_signal_fails",
    "Verif.C13_filter_signal_wrong_order",
    "Verif.C13_filter_signal_forward_partial",
    "Verif.C13_move_off_by_one"
   ],
   "note": "False as stated: a move towards the front of a shown element that passes a hidden element directly before it is mis-indexed (two counterexamples, and the general form C13_move_off_by_one). Proved for all other histories as far as a condition on the histories alone can say (FMoveOk), in particular for all without moves towards the front."
  },
  {
   "property": "C14",
   "status": "partial",
   "theorems": [
    "Verif.C14_flatten_partial",
    "Verif.C14_flatten_any_partial",
    "Verif.C14_flatten_fails",
    "Verif.C14_flatten_wrong_index"
   ],
   "note": "False as stated: UpdateAt, RemoveAt, Move and Pop of the outer vector emit nothing for the affected inner vectors; counterexamples proved. For any outer history: no panic, diffs applicable, never too few elements shown, and exact again after a Replace or Clear of the outer vector (C14_flatten_any_partial); exact throughout for outer Replace, InsertAt, Push and Clear."
  },
  {
   "property": "C15",
   "status": "proved",
   "theorems": [
    "Verif.C15_sort_by_cloned",
    "Verif.demoFns_lawful"
   ],
   "note": "For every implementation of slice::sort_unstable_by and slice::binary_search_by that satisfies their documentation (SliceFns.Lawful); the callback is a pure total preorder."
  },
  {
   "property": "C16",
   "status": "proved",
   "theorems": [
    "Verif.C16_enumerate"
   ],
   "note": "All well-formed histories and schedules. Index signals are modelled by the value of their Mutable; the Mutable signal itself is C31-C34."
  },
  {
   "property": "C17",
   "status": "proved",
   "theorems": [
    "Verif.C17_delay_remove"
   ],
   "note": ""
  },
  {
   "property": "C18",
   "status": "proved",
   "theorems": [
    "Verif.C18_to_signal_map",
    "Verif.C18_only_after_diff",
    "Verif.C18_end"
   ],
   "note": "to_signal_cloned is the instance f = id."
  },
  {
   "property": "C19",
   "status": "partial",
   "theorems": [
    "Verif.C19_len_partial",
    "Verif.C19_len_changes_partial",
    "Verif.C19_end",
    "Verif.C19_len_repeats"
   ],
   "note": "Everything except \"a value is produced only when the length differs from the last one\", which is false when one poll consumes several diffs (counterexample proved); proved when the poll consumes at most one diff."
  },
  {
   "property": "C20",
   "status": "partial",
   "theorems": [
    "Verif.C20_is_empty_partial",
    "Verif.C20_is_empty_fails"
   ],
   "note": "Values and distinctness proved; the end can be lost (counterexample proved)."
  },
  {
   "property": "C21",
   "status": "proved",
   "theorems": [
    "Verif.C21_sum",
    "Verif.C21_needs_comm"
   ],
   "note": "Any associative and commutative addition."
  },
  {
   "property": "C22",
   "status": "partial",
   "theorems": [
    "Verif.C22_switch_signal_vec_partial",
    "Verif.C22_switch_fails"
   ],
   "note": "False when the outer signal has ended and the last SignalVec answers its first poll with its end while the output is not empty: C22_switch_fails. Everything else is proved, at every moment of every run."
  },
  {
   "property": "C23",
   "status": "proved",
   "theorems": [
    "Verif.C23_always",
    "Verif.C23_from_stream",
    "Verif.C23_to_signal_vec",
    "Verif.C23_map_always"
   ],
   "note": ""
  },
  {
   "property": "C24",
   "status": "proved",
   "theorems": [
    "Verif.MutMap.C24_mirror",
    "Verif.MutMap.C24_caught_up",
    "Verif.MutMap.C24_sorted"
   ],
   "note": ""
  },
  {
   "property": "C25",
   "status": "proved",
   "theorems": [
    "Verif.MutMap.C25_ops",
    "Verif.MutMap.C25_silent",
    "Verif.MutMap.C25_tells"
   ],
   "note": ""
  },
  {
   "property": "C26",
   "status": "proved",
   "theorems": [
    "Verif.C26_keys",
    "Verif.MutMap.C26_C27_of_map"
   ],
   "note": "binary_search is any function meeting its documented contract"
  },
  {
   "property": "C27",
   "status": "proved",
   "theorems": [
    "Verif.C27_entries",
    "Verif.MutMap.C26_C27_of_map"
   ],
   "note": "binary_search is any function meeting its documented contract"
  },
  {
   "property": "C28",
   "status": "proved",
   "theorems": [
    "Verif.C28_map_value"
   ],
   "note": ""
  },
  {
   "property": "C29",
   "status": "proved",
   "theorems": [
    "Verif.C29_map_value_signal"
   ],
   "note": "inner signals answer their first poll with a value, as Signal requires"
  },
  {
   "property": "C30",
   "status": "partial",
   "theorems": [
    "Verif.C30_key_cloned",
    "Verif.C30_key_cloned_fails",
    "Verif.C30_key_cloned_fails_first",
    "Verif.C30_key_cloned_polite_partial",
    "Verif.C57_key_cloned"
   ],
   "note": "the values are right; the claim that the SignalMap is not polled after its end is false when the end arrives together with a change or in the first poll (counterexamples), and proved otherwise"
  },
  {
   "property": "C31",
   "status": "proved",
   "theorems": [
    "Verif.Mut.C31_current",
    "Verif.Mut.C31_signal_ref",
    "Verif.Mut.C31_C32_C33_poll"
   ],
   "note": "All histories of non-overlapping operations with any number of signals and handles."
  },
  {
   "property": "C32",
   "status": "proved",
   "theorems": [
    "Verif.Mut.C32_no_missed_update",
    "Verif.Mut.C32_C33_woken",
    "Verif.Mut.C31_C32_C33_poll"
   ],
   "note": "All histories of non-overlapping operations."
  },
  {
   "property": "C33",
   "status": "proved",
   "theorems": [
    "Verif.Mut.C33_end",
    "Verif.Mut.C32_C33_woken",
    "Verif.Mut.C33_senders"
   ],
   "note": "All histories of non-overlapping operations."
  },
  {
   "property": "C34",
   "status": "proved",
   "theorems": [
    "Verif.Mut.C34_refines",
    "Verif.Mut.C34_set_neq",
    "Verif.Mut.C34_swap"
   ],
   "note": "Refinement of a small specification machine, covering answers, values and wake-ups of all operations."
  },
  {
   "property": "C35",
   "status": "proved",
   "theorems": [
    "Verif.MutConc.C35_no_lost_value",
    "Verif.MutConc.C35_value",
    "Verif.MutConc.log_runs",
    "Verif.MutConc.C35_monotone"
   ],
   "note": "Interleaving model, sequentially consistent, one step per atomic access or critical section. MutConc.C35_monotone: a signal never goes back to an older value."
  },
  {
   "property": "C36",
   "status": "partial",
   "theorems": [
    "Verif.MutConc.C36_lost_wakeup",
    "Verif.MutConc.C36_lost_end",
    "Verif.MutConc.C36_no_window_partial",
    "Verif.MutConc.C36_handles",
    "Verif.MutConc.C36_not_too_early",
    "Verif.MutConc.C36_ends"
   ],
   "note": "The claim is false for the code: a write (or the drop of the last handle) between a poll's check of changed and its set_waker finds no waker. Proved for all schedules without such a window."
  },
  {
   "property": "C37",
   "status": "partial",
   "theorems": [
    "Verif.SwapConc.C37_self_swap",
    "Verif.SwapConc.C37_opposite_swaps",
    "Verif.SwapConc.C37_never_stuck_partial",
    "Verif.SwapConc.C37_completes_partial",
    "Verif.SwapConc.C37_bounded",
    "Verif.SwapConc.C37_atomic",
    "Verif.SwapConc.C37_done",
    "Verif.SwapConc.C37_exclusive"
   ],
   "note": "The claim is false for the code (swap with itself, swaps in opposite directions). Proved if all swaps go upwards in some order; atomicity is proved for all."
  },
  {
   "property": "C38",
   "status": "proved",
   "theorems": [
    "Verif.Chan.C38_latest"
   ],
   "note": "Sequential model, all histories of calls on any number of Senders."
  },
  {
   "property": "C39",
   "status": "proved",
   "theorems": [
    "Verif.Chan.C39_end",
    "Verif.Chan.C39_send",
    "Verif.Chan.C39_woken",
    "Verif.Chan.C39_pending_waits"
   ],
   "note": "Sequential model, all histories of calls on any number of Senders."
  },
  {
   "property": "C40",
   "status": "partial",
   "theorems": [
    "Verif.ChanConc.C40_reopened",
    "Verif.ChanConc.C40_never_ends",
    "Verif.ChanConc.C40_no_overlap_partial",
    "Verif.ChanConc.C40_stays_closed_partial",
    "Verif.ChanConc.C40_without_close_partial"
   ],
   "note": "The claim is FALSE: C40_reopened and C40_never_ends exhibit schedules (close between the check and the change of the counter in clone / drop). Proved for every schedule without that overlap, any number of handles and running calls."
  },
  {
   "property": "C41",
   "status": "partial",
   "theorems": [
    "Verif.ChanConc.C41_lost_wakeup",
    "Verif.ChanConc.C41_lost_end",
    "Verif.ChanConc.C41_no_window_partial",
    "Verif.ChanConc.C41_wakes_bounded"
   ],
   "note": "The claim is FALSE: C41_lost_wakeup and C41_lost_end exhibit schedules (notify between value.take and waker.store in poll_change). Proved for every schedule without that overlap."
  },
  {
   "property": "C42",
   "status": "proved",
   "theorems": [
    "Verif.AtomicOption.C42_accounted",
    "Verif.AtomicOption.C42_no_leak",
    "Verif.AtomicOption.C42_at_rest",
    "Verif.AtomicOption.C42_atomic",
    "Verif.AtomicOption.C42_drop_last"
   ],
   "note": "Proved for every interleaving of any number of calls, not only for sequences of calls."
  },
  {
   "property": "C43",
   "status": "proved",
   "theorems": [
    "Verif.Bc.C43_answer",
    "Verif.Bc.C43_input",
    "Verif.Bc.C43_no_panic"
   ],
   "note": ""
  },
  {
   "property": "C44",
   "status": "proved",
   "theorems": [
    "Verif.Bc.C44_woken"
   ],
   "note": ""
  },
  {
   "property": "C45",
   "status": "partial",
   "theorems": [
    "Verif.BcConc.C45_values",
    "Verif.BcConc.C45_latest",
    "Verif.BcConc.C45_stale",
    "Verif.BcConc.C45_lost_wake",
    "Verif.BcConc.C45_no_race_partial",
    "Verif.BcConc.C45_wake_polls"
   ],
   "note": "The property is false: C45_stale and C45_lost_wake exhibit schedules that break it. C45_no_race_partial proves it for all schedules without these two races; C45_values and C45_latest hold for every schedule. BcConc.C45_wake_polls: a wake-up of the shared waker always leads to a poll of the input by the next subscriber that polls."
  },
  {
   "property": "C46",
   "status": "proved",
   "theorems": [
    "Verif.Cancelable.C46_answer",
    "Verif.Cancelable.C46_callback",
    "Verif.Cancelable.C46_woken",
    "Verif.Cancelable.C46_not_twice"
   ],
   "note": "Sequential model, every behaviour of the inner future, every history of polls, discard and drop."
  },
  {
   "property": "C47",
   "status": "partial",
   "theorems": [
    "Verif.CancelableConc.C47_lost_cancellation",
    "Verif.CancelableConc.C47_no_race_partial",
    "Verif.CancelableConc.C47_same_waker_partial",
    "Verif.CancelableConc.C47_later_polls_partial"
   ],
   "note": "The claim is FALSE: C47_lost_cancellation exhibits the schedule. Proved for every schedule without that race, and with the race if an earlier poll with the same waker was pending; later polls always see the cancellation."
  },
  {
   "property": "C48",
   "status": "proved",
   "theorems": [
    "Verif.C48_map",
    "Verif.C48_inspect",
    "Verif.C48_not",
    "Verif.C57_signal_map",
    "Verif.C57_inspect"
   ],
   "note": "Exact traces: one poll of the input per poll, with the same waker, the answer mapped, the callback called once per value."
  },
  {
   "property": "C49",
   "status": "proved",
   "theorems": [
    "Verif.C49_map_ref",
    "Verif.C49_map_mut",
    "Verif.C49_map_ref_panics",
    "Verif.C49_and",
    "Verif.C49_or"
   ],
   "note": "map_ref!, map_mut!, and, or for any number of inputs, all histories and schedules, under the Signal contract that the first poll yields a value; C49_map_ref_panics shows that the contract is needed. All inputs have one item type in the model."
  },
  {
   "property": "C50",
   "status": "proved",
   "theorems": [
    "Verif.C50_eq",
    "Verif.C50_neq",
    "Verif.C50_dedupe",
    "Verif.C50_dedupe_map",
    "Verif.C50_dedupe_consecutive",
    "Verif.dedup_consecutive",
    "Verif.dedup_getLast?",
    "Verif.C57_eq",
    "Verif.C57_neq",
    "Verif.C57_dedupe",
    "Verif.C57_dedupe_map"
   ],
   "note": "For an arbitrary ==; the corollaries about consecutive values are for a lawful ==. dedupe_map is proved for callbacks that mutate the value."
  },
  {
   "property": "C51",
   "status": "proved",
   "theorems": [
    "Verif.C51_filter_map",
    "Verif.C57_signal_filter_map"
   ],
   "note": ""
  },
  {
   "property": "C52",
   "status": "proved",
   "theorems": [
    "Verif.C52_flatten",
    "Verif.C52_flatten_current",
    "Verif.C57_flatten_needs_eager"
   ],
   "note": "flatten, and switch (which is flatten of map). The current-value and wake-up parts need the Signal contract for the inner signals; C57_flatten_needs_eager shows why."
  },
  {
   "property": "C53",
   "status": "proved",
   "theorems": [
    "Verif.C53_stop_if",
    "Verif.C57_stop_if",
    "Verif.C53_wait_for",
    "Verif.C53_to_future",
    "Verif.C53_to_future_panics",
    "Verif.C53_first"
   ],
   "note": "to_future needs a signal that produces a value before it ends, otherwise it panics (C53_to_future_panics). first() passes on the answer to its only poll; a signal that follows the contract answers with a value there."
  },
  {
   "property": "C54",
   "status": "proved",
   "theorems": [
    "Verif.C54_from_future",
    "Verif.C54_from_stream",
    "Verif.C54_map_future",
    "Verif.C54_always"
   ],
   "note": "from_future, from_stream, map_future, always"
  },
  {
   "property": "C55",
   "status": "proved",
   "theorems": [
    "Verif.C55_throttle"
   ],
   "note": "Exact values, one timer per value, no value before the previous timer completed, wake-ups, end."
  },
  {
   "property": "C56",
   "status": "proved",
   "theorems": [
    "Verif.C56_sample_stream",
    "Verif.C56_sample_stream_panics",
    "Verif.C56_option_some",
    "Verif.C56_option_none",
    "Verif.C56_result_ok",
    "Verif.C56_result_err"
   ],
   "note": "sample_stream_cloned needs a signal that has a value at once (panics otherwise)."
  },
  {
   "property": "C57",
   "status": "partial",
   "theorems": [
    "Verif.C57_map",
    "Verif.C57_filter_map",
    "Verif.C57_filter",
    "Verif.C57_enumerate",
    "Verif.C57_to_signal_map",
    "Verif.C57_sum",
    "Verif.C57_len",
    "Verif.C57_is_empty_partial",
    "Verif.C57_from_stream",
    "Verif.C57_chain_partial",
    "Verif.C57_chain_fails",
    "Verif.C57_flatten",
    "Verif.C57_map_signal",
    "Verif.C57_filter_signal",
    "Verif.C57_sort_by_cloned",
    "Verif.C57_delay_remove",
    "Verif.C57_switch_signal_vec",
    "Verif.C57_to_signal_vec",
    "Verif.C57_map_value",
    "Verif.C57_map_value_signal",
    "Verif.C57_keys",
    "Verif.C57_entries",
    "Verif.C57_key_cloned",
    "Verif.C57_signal_map",
    "Verif.C57_inspect",
    "Verif.C57_eq",
    "Verif.C57_neq",
    "Verif.C57_dedupe",
    "Verif.C57_dedupe_map",
    "Verif.C57_signal_filter_map",
    "Verif.C57_signal_from_stream",
    "Verif.C57_stop_if",
    "Verif.C53_wait_for",
    "Verif.C53_to_future",
    "Verif.C54_from_future",
    "Verif.C52_flatten",
    "Verif.C52_flatten_current",
    "Verif.C57_flatten_needs_eager",
    "Verif.C54_map_future",
    "Verif.C55_throttle",
    "Verif.C49_map_ref",
    "Verif.C56_sample_stream"
   ],
   "note": "One theorem per combinator, all combinators of the crate. False for chain: a Replace or Clear that changes nothing leaves the input without a waker (C57_chain_fails); false for is_empty, whose end is not arranged for, and for Signal::flatten of inner signals that break the contract of having a value at once (C57_flatten_needs_eager). Everything else is proved for all inputs."
  },
  {
   "property": "C58",
   "status": "partial",
   "theorems": [
    "Verif.C57_map",
    "Verif.C57_filter_map",
    "Verif.C57_filter",
    "Verif.C57_enumerate",
    "Verif.C57_to_signal_map",
    "Verif.C57_sum",
    "Verif.C57_len",
    "Verif.C57_from_stream",
    "Verif.C58_C59_chain",
    "Verif.C57_flatten",
    "Verif.C57_map_signal",
    "Verif.C57_filter_signal",
    "Verif.C57_sort_by_cloned",
    "Verif.C57_delay_remove",
    "Verif.C57_switch_signal_vec",
    "Verif.C57_to_signal_vec",
    "Verif.C57_map_value",
    "Verif.C57_map_value_signal",
    "Verif.C57_keys",
    "Verif.C57_entries",
    "Verif.C30_key_cloned_fails",
    "Verif.C30_key_cloned_polite_partial",
    "Verif.C57_signal_map",
    "Verif.C57_inspect",
    "Verif.C57_eq",
    "Verif.C57_neq",
    "Verif.C57_dedupe",
    "Verif.C57_dedupe_map",
    "Verif.C57_signal_filter_map",
    "Verif.C57_signal_from_stream",
    "Verif.C57_stop_if",
    "Verif.C53_wait_for",
    "Verif.C53_to_future",
    "Verif.C54_from_future",
    "Verif.C52_flatten",
    "Verif.C52_flatten_current",
    "Verif.C57_flatten_needs_eager",
    "Verif.C54_map_future",
    "Verif.C55_throttle",
    "Verif.C49_map_ref",
    "Verif.C56_sample_stream"
   ],
   "note": "One theorem per combinator, all combinators of the crate. False for key_cloned only (C30_key_cloned_fails; proved for it if the end does not come together with the last change)."
  },
  {
   "property": "C59",
   "status": "proved",
   "theorems": [
    "Verif.C57_map",
    "Verif.C57_filter_map",
    "Verif.C57_filter",
    "Verif.C57_enumerate",
    "Verif.C57_to_signal_map",
    "Verif.C57_sum",
    "Verif.C57_len",
    "Verif.C57_from_stream",
    "Verif.C58_C59_chain",
    "Verif.C57_flatten",
    "Verif.C57_map_signal",
    "Verif.C57_filter_signal",
    "Verif.C57_sort_by_cloned",
    "Verif.C57_delay_remove",
    "Verif.C57_switch_signal_vec",
    "Verif.C57_to_signal_vec",
    "Verif.C57_map_value",
    "Verif.C57_map_value_signal",
    "Verif.C57_keys",
    "Verif.C57_entries",
    "Verif.C57_key_cloned",
    "Verif.C57_signal_map",
    "Verif.C57_inspect",
    "Verif.C57_eq",
    "Verif.C57_neq",
    "Verif.C57_dedupe",
    "Verif.C57_dedupe_map",
    "Verif.C57_signal_filter_map",
    "Verif.C57_signal_from_stream",
    "Verif.C52_flatten",
    "Verif.C52_flatten_current",
    "Verif.C57_flatten_needs_eager",
    "Verif.C54_map_future",
    "Verif.C55_throttle",
    "Verif.C49_map_ref",
    "Verif.C56_sample_stream"
   ],
   "note": "One theorem per SignalVec and SignalMap combinator: the end is reported only if every input held has ended and the queue of diffs is empty."
  },
  {
   "property": "C60",
   "status": "partial",
   "theorems": [
    "Verif.C60_pipeline_partial",
    "Verif.C60_mutable_vec_partial",
    "Verif.C60_mutable_vec_chain_partial",
    "Verif.C60_armed",
    "Verif.C60_nested_chain_fails"
   ],
   "note": "Proved for every pipeline of map, filter_map, filter, sort_by_cloned, enumerate and chain in which no chain is below another chain, and for inputs that do not move elements towards the front if the pipeline filters. C60_mutable_vec_partial goes from any history of a MutableVec to the output of a pipeline without chain, including wake-ups. The claim is false for nested chains (C60_nested_chain_fails) and for filters below backward moves (C10, C11). Composition is composition of the trace relations of the single combinators."
  },
  {
   "property": "C61",
   "status": "proved",
   "theorems": [
    "Verif.MutMap.C61_poll",
    "Verif.MutMap.C61_stays",
    "Verif.MutMap.C61_wake"
   ],
   "note": ""
  },
  {
   "property": "C62",
   "status": "partial",
   "theorems": [
    "Verif.MutConc.C62_last_value_lost",
    "Verif.MutConc.C62_quiet_partial"
   ],
   "note": "The claim is false for the code: write and last drop between the two checks of a poll. Proved if all writes completed before that poll started."
  },
  {
   "property": "C63",
   "status": "partial",
   "theorems": [
    "Verif.Bc.C63_self_wake_lost",
    "Verif.Bc.C63_quiet_input_partial"
   ],
   "note": "The property is false: C63_self_wake_lost exhibits an input that breaks it. C63_quiet_input_partial proves it for inputs that do not wake their waker while being polled."
  },
  {
   "property": "C64",
   "status": "partial",
   "theorems": [
    "Verif.C64_map",
    "Verif.C64_filter_map",
    "Verif.C64_filter",
    "Verif.C64_enumerate",
    "Verif.C64_from_stream",
    "Verif.C64_to_signal_vec",
    "Verif.C64_signal_map",
    "Verif.C64_inspect",
    "Verif.C64_not",
    "Verif.C64_stop_if",
    "Verif.C64_eq",
    "Verif.C64_neq",
    "Verif.C64_dedupe_map",
    "Verif.C64_dedupe",
    "Verif.C64_signal_filter_map",
    "Verif.C64_wait_for",
    "Verif.C64_map_value",
    "Verif.C64_entries",
    "Verif.C64_keys",
    "Verif.C64_to_signal_map",
    "Verif.C64_sum",
    "Verif.C64_len",
    "Verif.C64_is_empty",
    "Verif.C64_signal_from_stream",
    "Verif.C64_sort_by_cloned",
    "Verif.C64_first",
    "Verif.C64_from_future",
    "Verif.C64_always",
    "Verif.C64_vec_always",
    "Verif.C64_map_always",
    "Verif.C64_result",
    "Verif.C64_option",
    "Verif.C64_chain",
    "Verif.C64_flatten",
    "Verif.C64_map_signal",
    "Verif.C64_filter_signal",
    "Verif.C64_delay_remove",
    "Verif.C64_switch_signal_vec",
    "Verif.C64_signal_flatten",
    "Verif.C64_map_future",
    "Verif.C64_throttle",
    "Verif.C64_sample_stream",
    "Verif.C64_map_mut",
    "Verif.C64_map_ref",
    "Verif.C64_and",
    "Verif.C64_or",
    "Verif.C64_to_future",
    "Verif.C64_map_value_signal",
    "Verif.C64_key_cloned_partial",
    "Verif.C64_key_cloned_fails"
   ],
   "note": "Proved for every combinator modelled except key_cloned, by a lexicographic measure (answers left in the outer input, in the inner ones, queued diffs). key_cloned polls its input again after the end, so with an input that reports its end once together with the last change it never ends (C64_key_cloned_fails); C64_key_cloned_partial covers inputs that repeat their end."
  },
  {
   "property": "C65",
   "status": "proved",
   "theorems": [
    "Verif.C65_for_each",
    "Verif.C65_completes"
   ],
   "note": "The crate wraps futures_util::stream::ForEach, whose documented loop is modelled (DESIGN.md, trusted base); callbacks and futures are arbitrary scripts."
  },
  {
   "property": "C66",
   "status": "proved",
   "theorems": [
    "Verif.Net.C66_consistent",
    "Verif.Net.C66_glitch_free",
    "Verif.Net.C66_reads_only",
    "Verif.Net.C66_no_repeat",
    "Verif.Net.C66_woken",
    "Verif.Net.C66_end_final",
    "Verif.Net.C66_ends",
    "Verif.Net.C66_total"
   ],
   "note": "API-level interleaving: calls and polls run to their end one after the other. Expressions over source, always, map, dedupe, eq, neq, map_ref! and switch; the poll functions of the combinators are those of the script models, the inputs are the combinators below and the Mutables of Verif/Mutable.lean. All inputs of a map_ref! have the same item type."
  },
  {
   "property": "C67",
   "status": "partial",
   "theorems": [
    "Verif.C67_pipeline_partial",
    "Verif.C67_mutable_vec_partial",
    "Verif.C67_mutable_vec_chain_partial"
   ],
   "note": "Same restrictions as C60: no chain below another chain, and no moves towards the front if the pipeline filters; sum needs an associative and commutative addition. C67_mutable_vec_partial goes from any history of a MutableVec to the signal, including wake-ups, for pipelines without chain."
  },
  {
   "property": "C68",
   "status": "proved",
   "theorems": [
    "Verif.Net.C68_woken",
    "Verif.Net.C68_end_final",
    "Verif.Net.C68_first",
    "Verif.Net.C68_moments",
    "Verif.Net.C68_chain_glitch_free",
    "Verif.Net.C68_settles",
    "Verif.Net.C68_undisturbed",
    "Verif.Net.C68_not_glitch_free"
   ],
   "note": "Interleaving at single accesses: one call on a Mutable, or one poll, creation or drop of one of its signals, is one step (what can happen inside of these is C36, C62). C68_not_glitch_free is the concrete mixture."
  },
  {
   "property": "C69",
   "status": "partial",
   "theorems": [
    "Verif.C69_pipeline_partial",
    "Verif.C69_mutables_partial",
    "Verif.C69_signal_partial"
   ],
   "note": "Proved for pipelines without chain, and without backward moves of the list if the pipeline filters (both restrictions are needed, see C13 and C60)."
  },
  {
   "property": "C70",
   "status": "proved",
   "theorems": [
    "Verif.C70_wrapped",
    "Verif.C70_debug",
    "Verif.C70_mutable",
    "Verif.C70_mutable_vec",
    "Verif.C70_mutable_map"
   ],
   "note": "serde and the log are external: a format is a pair of functions with de (ser a) = a, a log is a list."
  },
  {
   "property": "C71",
   "status": "partial",
   "theorems": [
    "Verif.C71_expressions_partial",
    "Verif.C71_in_order_partial",
    "Verif.C71_mutable",
    "Verif.C71_mutable_vec",
    "Verif.C71_mutable_map",
    "Verif.C71_receiver",
    "Verif.C71_always",
    "Verif.C71_option_none",
    "Verif.C71_result_err",
    "Verif.C71_vec_always",
    "Verif.C71_map_always",
    "Verif.C71_brisk_partial",
    "Verif.C71_nested_chains",
    "Verif.C71_mutable_vec_brisk",
    "Verif.C71_vec_always_brisk"
   ],
   "note": "Not covered: chain above expressions that send a Replace by nothing or a Clear while they are empty (C57; C71_brisk_partial and C71_mutable_vec_brisk say which send none, so nested chains are covered); SignalVec flatten with RemoveAt, Pop, UpdateAt or Move of the outer vector (C14); moves towards the front where something is filtered (C13); switch_signal_vec with an inner SignalVec that ends at its first poll (C22); a Broadcaster whose input wakes its waker while it is polled (C63); a poll of a combinator after its end. Each of these is excluded because the claim is false there (see the named properties)."
  },
  {
   "property": "C72",
   "status": "partial",
   "theorems": [
    "Verif.MutPanic.C72_readers",
    "Verif.MutPanic.C72_no_torn_value",
    "Verif.MutPanic.C72_poisoned",
    "Verif.MutPanic.C72_guard_wakes",
    "Verif.MutPanic.C72_end_partial",
    "Verif.MutPanic.C72_never_woken",
    "Verif.MutPanic.C72_end_lost",
    "Verif.MutPanic.C72_aborts",
    "Verif.MutPanic.C72_unusable",
    "Verif.MutPanic.C72_after"
   ],
   "note": "All of the statement is proved except that a signal that waits is woken when all handles are gone, which is false for the code: once the lock is poisoned nothing wakes anyone (C72_never_woken), so a waiting signal is not woken when the last handle is dropped (C72_end_lost); only a poll finds the end (C72_end_partial). Dropping the last handle panics itself, and aborts the process if it happens while unwinding (C72_aborts)."
  },
  {
   "property": "C73",
   "status": "partial",
   "theorems": [
    "Verif.MutVecPanic.C73_as_if_partial",
    "Verif.MutVecPanic.C73_mirror_partial",
    "Verif.MutVecPanic.C73_poll_partial",
    "Verif.MutVecPanic.C73_wake_partial",
    "Verif.MutVecPanic.C73_poisoned",
    "Verif.MutVecPanic.C73_clone_panics",
    "Verif.MutVecPanic.C73_unusable",
    "Verif.MutVecPanic.C73_torn",
    "Verif.MutVecPanic.C73_half_move",
    "Verif.MutVecPanic.C73_caught",
    "Verif.MutVecPanic.C73_half_retain"
   ],
   "note": "Proved for every panic except one of Clone after the change was made (hypothesis CloneOk). For that one the claim is false: if clone panics between the sends to two subscribers, one has the push and the other never gets it (C73_clone_panics). What a method that panics on an index leaves in the contents is C73_half_move: move_from_to, swap and apply_vec_diff of a Move have then lost the element, which the poisoned lock hides, but not the guard through which the call was made. If the holder of that guard catches the panic, the lock is not poisoned, and the subscribers differ from the contents from then on (C73_caught)."
  },
  {
   "property": "C74",
   "status": "partial",
   "theorems": [
    "Verif.C74_for_each_partial",
    "Verif.C74_wait_for_partial",
    "Verif.C74_to_future_partial",
    "Verif.C74_stop_if_partial",
    "Verif.C74_filter_map_partial",
    "Verif.C74_map_future_partial",
    "Verif.C74_throttle_partial"
   ],
   "note": "Proved for the expressions of C71 that meet Expr.Lawful; what that excludes is wrong in the code itself (see C71). The waking of the futures made by callbacks is left to those futures."
  },
  {
   "property": "C75",
   "status": "proved",
   "theorems": [
    "Verif.HubConc.C75_vec_mirror",
    "Verif.HubConc.C75_vec_poll",
    "Verif.HubConc.C75_vec_wake",
    "Verif.HubConc.C75_vec_ends",
    "Verif.HubConc.C75_vec_closes",
    "Verif.HubConc.C75_vec_alone",
    "Verif.HubConc.C75_map_mirror",
    "Verif.HubConc.C75_map_poll",
    "Verif.HubConc.C75_map_wake",
    "Verif.HubConc.C75_map_ends",
    "Verif.HubConc.C75_map_closes",
    "Verif.HubConc.C75_map_alone"
   ],
   "note": "A call and the changes it makes to the contents happen under the lock, which is taken as one step; each send and each drop of a sender is a step. The channel (futures-channel) is external and its operations are atomic. Calls that panic are C73."
  },
  {
   "property": "C76",
   "status": "proved",
   "theorems": [
    "Verif.Bc.C76_contained",
    "Verif.Bc.C76_breaks",
    "Verif.Bc.C76_broken",
    "Verif.Bc.C76_silent",
    "Verif.Bc.C76_skips",
    "Verif.Bc.C76_not_only_itself",
    "Verif.Bc.C76_input_panics"
   ],
   "note": "Panics of wakers and of the drop of a value are not modelled. C76_not_only_itself is a concrete history in which a panic of one callback makes another subscriber panic."
  },
  {
   "property": "C77",
   "status": "proved",
   "theorems": [
    "Verif.Mut.C77_mutable",
    "Verif.Mut.C77_mutable_piles_up",
    "Verif.Bc.C77_broadcaster",
    "Verif.HubConc.C77_vec",
    "Verif.HubConc.C77_map",
    "Verif.HubConc.C77_hub_piles_up",
    "Verif.Mut.C77_mutable_which",
    "Verif.Bc.C77_broadcaster_which"
   ],
   "note": "registered = live + dropped since the last notification (Mutable, Broadcaster); a changing call purges every subscriber dropped before it (MutableVec, MutableBTreeMap); without one the list grows without bound"
  },
  {
   "property": "C78",
   "status": "proved",
   "theorems": [
    "Verif.Locks.C78_no_deadlock",
    "Verif.Locks.C78_finishes",
    "Verif.Locks.C78_reentrant",
    "Verif.Locks.C78_itself",
    "Verif.Locks.C78_crossed",
    "Verif.Locks.C78_swaps",
    "Verif.Locks.C78_read_read"
   ],
   "note": "for the lock skeleton of the crate (values erased); poisoning is C72, C73, C76"
  },
  {
   "property": "C79",
   "status": "proved",
   "theorems": [
    "Verif.MutVecPanic.C79_vec_mirror",
    "Verif.MutVecPanic.C79_vec_once",
    "Verif.MutVecPanic.C79_vec_poll",
    "Verif.MutVecPanic.C79_vec_wake",
    "Verif.MutVecPanic.C73_poisoned",
    "Verif.MutMapPanic.C79_map_mirror",
    "Verif.MutMapPanic.C79_map_once",
    "Verif.MutMapPanic.C79_map_poisoned",
    "Verif.MutMapPanic.C79_map_poll",
    "Verif.MutMapPanic.C79_map_wake",
    "Verif.MutMapPanic.C79_map_unusable",
    "Verif.MutMapPanic.C79_map_torn",
    "Verif.MutMapPanic.C79_caught"
   ],
   "note": "Both parts hold for every history with panics at any call of clone; wakers and drops of elements do not panic. If the panic is caught under the guard of lock_mut, the map stays in use and the next insert of the key sends an Update of a key that some subscribers do not have (C79_caught)."
  },
  {
   "property": "C80",
   "status": "partial",
   "theorems": [
    "Verif.C80_vec",
    "Verif.C80_map",
    "Verif.C80_mutable_partial",
    "Verif.C80_receiver_partial",
    "Verif.C80_receiver_left",
    "Verif.C71_expressions_partial",
    "Verif.demoSumConc_meets"
   ],
   "note": "Full for MutableVec and MutableBTreeMap. For Mutable and channel the claim is false in general (lost wake-ups and lost last values, C36, C41, C62, C80_receiver_left), and proved for all schedules without those windows. Expressions as in C71; the inside of a Broadcaster is not interleaved."
  },
  {
   "property": "C81",
   "status": "proved",
   "theorems": [
    "Verif.EnumSig.C81_no_panic",
    "Verif.EnumSig.C81_list",
    "Verif.EnumSig.C81_get",
    "Verif.EnumSig.C81_latest",
    "Verif.EnumSig.C81_answer",
    "Verif.EnumSig.C81_end_woken"
   ],
   "note": "Each cell of enumerate is a whole Mutable of Verif/Mutable.lean with its handles and signals; calls do not overlap (one thread at a time). place reads the position of an element off the emitted diffs."
  },
  {
   "property": "C82",
   "status": "partial",
   "theorems": [
    "Verif.ChanRA.C82_values",
    "Verif.ChanRA.C82_next_poll",
    "Verif.ChanRA.C82_without_close",
    "Verif.ChanRA.C82_closed_partial",
    "Verif.ChanRA.C82_send_not_lost_partial",
    "Verif.ChanRA.C82_not_lost_partial",
    "Verif.ChanRA.C82_sequential",
    "Verif.ChanRA.C82_of_sequential",
    "Verif.ChanRA.C82_stale_end",
    "Verif.ChanRA.C82_wider_window",
    "Verif.ChanRA.C82_unsynced_clone"
   ],
   "note": "False in part: without any overlap of calls, a poll whose thread has not heard of the drop of the last Sender reads the old counter and sleeps for ever (C82_stale_end); and the window in which the end is lost is the whole poll, wider than under sequential consistency (C82_wider_window). Proved for every execution: the values, the next poll, and everything about Senders if close is not called; proved under conditions on synchronisation and overlap: closing, and that nothing is lost. C82_unsynced_clone shows that the condition on calls (which Weak::upgrade meets) is needed."
  },
  {
   "property": "C83",
   "status": "partial",
   "theorems": [
    "Verif.C83_positions_partial",
    "Verif.C83_composes",
    "Verif.C71_expressions_partial"
   ],
   "note": "Proved for every expression e of C71 that meets Expr.Lawful (what that excludes is wrong in the code itself, see C71). Any other use of the indexes: C71_expressions_partial with Expr.mapIndexed."
  },
  {
   "property": "C84",
   "status": "proved",
   "theorems": [
    "Verif.AtomicRA.C84_no_race",
    "Verif.AtomicRA.C84_published",
    "Verif.AtomicRA.C84_same",
    "Verif.AtomicRA.C84_logged",
    "Verif.AtomicRA.C84_needed"
   ],
   "note": "The orderings are a parameter of the model; C84_no_race is for the one in the code, C84_needed for every weaker one. Nothing is assumed of what threads know of each other."
  },
  {
   "property": "C85",
   "status": "partial",
   "theorems": [
    "Verif.C85_from_future",
    "Verif.C85_signal_from_stream",
    "Verif.C85_vec_from_stream",
    "Verif.C85_vec_from_stream_pushes",
    "Verif.C85_fetched_partial",
    "Verif.C85_answered_partial"
   ],
   "note": "The sources are proved in full. The claims about map_signal and switch are partial as C71: e must be Lawful (no backward moves into filter etc., for which the claim is false). Futures made for equal elements are assumed to have their outputs at the same time."
  },
  {
   "property": "C86",
   "status": "proved",
   "theorems": [
    "Verif.MutMap.C86_map_independent",
    "Verif.MutMap.C86_map_solo",
    "Verif.HubConc.C86_alone"
   ],
   "note": "C86_alone is for any container that broadcasts; vecApi and mapApi are its instances."
  },
  {
   "property": "C87",
   "status": "partial",
   "theorems": [
    "Verif.C87_stop_if_partial",
    "Verif.C87_filter_map_partial",
    "Verif.C87_throttle_partial",
    "Verif.C87_map_future_partial",
    "Verif.C87_delay_remove_partial",
    "Verif.C87_delay_brisk_partial",
    "Verif.C87_throttled_fetch_partial"
   ],
   "note": "Partial as C71: see Expr.Lawful (no moves towards the front where something is filtered, flatten only with Replace, InsertAt, Push and Clear, inputs of chain send no change without effect); there the claim is false for the code (C13, C14, C57)."
  },
  {
   "property": "C88",
   "status": "proved",
   "theorems": [
    "Verif.Net.C88_called",
    "Verif.Net.C88_equations",
    "Verif.Net.C88_settles",
    "Verif.Net.C88_in_order",
    "Verif.Net.C88_one_pass",
    "Verif.Net.C88_confluent",
    "Verif.Net.C88_end",
    "Verif.Net.C88_no_solution"
   ],
   "note": ""
  },
  {
   "property": "C89",
   "status": "proved",
   "theorems": [
    "Verif.Net.C89_self_loop",
    "Verif.Net.C89_set_never_rests",
    "Verif.Net.C89_settles",
    "Verif.Net.C89_agree",
    "Verif.Net.C89_follows"
   ],
   "note": ""
  },
  {
   "property": "C90",
   "status": "proved",
   "theorems": [
    "Verif.C90_to_signal",
    "Verif.C90_sum",
    "Verif.C90_filter_map",
    "Verif.C90_filter",
    "Verif.C90_enumerate",
    "Verif.C90_map_signal",
    "Verif.C90_filter_signal",
    "Verif.C90_flatten",
    "Verif.C90_sort",
    "Verif.C90_map",
    "Verif.C90_len_unchecked",
    "Verif.C90_delay_unchecked",
    "Verif.C90_chain_unchecked"
   ],
   "note": ""
  },
  {
   "property": "C91",
   "status": "partial",
   "theorems": [
    "Verif.C91_replica_partial",
    "Verif.C91_shared_partial",
    "Verif.C91_brisk",
    "Verif.C91_copies_of_copies",
    "Verif.C91_needs_empty"
   ],
   "note": "Partial only in that expressions containing the combinators for which C71 is false (see Expr.Lawful) are excluded; everything else of the statement is proved."
  },
  {
   "property": "C92",
   "status": "proved",
   "theorems": [
    "Verif.C92_stop_if",
    "Verif.C92_first",
    "Verif.C92_from_future",
    "Verif.C92_from_stream",
    "Verif.C92_always",
    "Verif.C92_flatten",
    "Verif.C92_map_future",
    "Verif.C92_throttle",
    "Verif.C92_map_mut",
    "Verif.C92_map_ref",
    "Verif.C92_and",
    "Verif.C92_or",
    "Verif.C92_map",
    "Verif.C92_inspect",
    "Verif.C92_not",
    "Verif.C92_eq",
    "Verif.C92_neq",
    "Verif.C92_dedupe_map",
    "Verif.C92_dedupe",
    "Verif.C92_filter_map",
    "Verif.C92_wait_for",
    "Verif.C92_sample_stream",
    "Verif.C92_option_result",
    "Verif.C92_vec_always",
    "Verif.C92_to_signal_map",
    "Verif.C92_sum",
    "Verif.C92_len",
    "Verif.C92_is_empty",
    "Verif.C92_chain",
    "Verif.C92_vec_flatten",
    "Verif.C92_vec_map_signal",
    "Verif.C92_vec_filter_signal",
    "Verif.C92_delay_remove",
    "Verif.C92_switch_signal_vec",
    "Verif.C92_map_value_signal",
    "Verif.C92_map_always",
    "Verif.C92_vec_from_stream",
    "Verif.C92_vec_map",
    "Verif.C92_vec_filter_map",
    "Verif.C92_vec_filter",
    "Verif.C92_enumerate",
    "Verif.C92_sort_by",
    "Verif.C92_to_signal_vec",
    "Verif.C92_map_value",
    "Verif.C92_key_cloned",
    "Verif.C92_map_keys",
    "Verif.C92_map_entries",
    "Verif.C92_to_future",
    "Verif.C92_not_for_good_map",
    "Verif.C92_not_for_good_vec_map",
    "Verif.C92_not_for_good_key_cloned"
   ],
   "note": "EndsForGood and EndsAsLongAs (Verif/AfterEnd.lean) for every combinator, for all states and scripts; the negations for map and key_cloned; to_future panics"
  },
  {
   "property": "C93",
   "status": "proved",
   "theorems": [
    "Verif.C93_map",
    "Verif.C93_enumerate",
    "Verif.C93_filter_map",
    "Verif.C93_filter",
    "Verif.C93_sort",
    "Verif.C93_chain",
    "Verif.C93_flatten",
    "Verif.C93_map_signal",
    "Verif.C93_filter_signal",
    "Verif.C93_delay_remove",
    "Verif.C93_switch_signal_vec",
    "Verif.C93_map_value",
    "Verif.C93_entries",
    "Verif.C93_keys",
    "Verif.C93_map_value_signal",
    "Verif.C93_key_cloned",
    "Verif.C93_to_signal_map",
    "Verif.C93_sum",
    "Verif.C93_len",
    "Verif.C93_is_empty",
    "Verif.C93_signal_flatten",
    "Verif.C93_map_future",
    "Verif.C93_throttle",
    "Verif.C93_from_stream",
    "Verif.C93_map_mut",
    "Verif.C93_map_ref",
    "Verif.C93_sample_stream",
    "Verif.MutVec.C93_mutable_vec",
    "Verif.MutVec.C93_reverse",
    "Verif.MutMap.C93_mutable_map",
    "Verif.C93_sort_sharp",
    "Verif.C93_chain_sharp"
   ],
   "note": "sizes of changes sent against sizes of changes received, for all inputs; sort_by_cloned needs a library sort that returns as many elements as it got (part of the contract of slice::sort_unstable_by)"
  },
  {
   "property": "C94",
   "status": "proved",
   "theorems": [
    "Verif.C94_map_signal",
    "Verif.C94_filter_signal",
    "Verif.C94_flatten",
    "Verif.C94_to_signal",
    "Verif.C94_sum",
    "Verif.C94_sort",
    "Verif.C94_filter_map",
    "Verif.C94_filter",
    "Verif.C94_enumerate",
    "Verif.C94_chain",
    "Verif.C94_map_value_signal",
    "Verif.C94_signal_flatten",
    "Verif.C94_map_future",
    "Verif.C94_switch",
    "Verif.C94_delay_remove"
   ],
   "note": "Entries are identified by the ghost tag of the model (the element the entry was made from). delay_remove needs changes that fit (C90 shows why)."
  },
  {
   "property": "C95",
   "status": "partial",
   "theorems": [
    "Verif.C95_map_signal",
    "Verif.C95_map_signal_answers",
    "Verif.C95_filter_signal",
    "Verif.C95_filter_signal_forward_partial",
    "Verif.C95_delay_remove",
    "Verif.C95_map_future",
    "Verif.C95_switch_signal_vec_partial",
    "Verif.C95_map_value_signal"
   ],
   "note": "Calls once per value, in order: proved for all six. The promises carried over are those of C12, C17, C29, C54 in full; of C13 and C22 only as far as they hold for pure closures (they are false in general, see there)."
  },
  {
   "property": "C96",
   "status": "proved",
   "theorems": [
    "Verif.MutVec.C96_never_short",
    "Verif.MutVec.C96_leak",
    "Verif.MutVec.C96_late",
    "Verif.MutVec.C96_repaired",
    "Verif.MutVec.C96_clear_fails"
   ],
   "note": "C96_leak shows that C01 needs the Drain to be dropped."
  },
  {
   "property": "C97",
   "status": "proved",
   "theorems": [
    "Verif.MutVec.C97_vec",
    "Verif.MutVec.C97_vec_call",
    "Verif.MutMap.C97_map",
    "Verif.HubConc.C97_vec_threads",
    "Verif.HubConc.C97_map_threads"
   ],
   "note": "The table of changes is Op.tells in Tells.lean, with leaving for retain, drain and truncate."
  },
  {
   "property": "C98",
   "status": "proved",
   "theorems": [
    "Verif.C98_map",
    "Verif.C98_map_value",
    "Verif.C98_enumerate",
    "Verif.C98_filter_map",
    "Verif.C98_filter",
    "Verif.C98_chain",
    "Verif.C98_sort",
    "Verif.C98_entries",
    "Verif.C98_keys",
    "Verif.C98_map_signal",
    "Verif.C98_map_value_signal",
    "Verif.C98_filter_signal",
    "Verif.C98_delay_remove",
    "Verif.C98_switch",
    "Verif.C98_delay_remove_exact",
    "Verif.C98_flatten"
   ],
   "note": "The tables of changes are in Sends.lean. filter and filter_map compute the old position of a Move after the move (C10, C11), and filterSays says so. For chain the order in which it took from its inputs is existential, for the combinators with a signal per element the moments at which these change, and for delay_remove the moments at which futures finish; C98_delay_remove is the part about changes that are not removals without existentials. For flatten the moments at which the inner vectors change are existential."
  },
  {
   "property": "C99",
   "status": "proved",
   "theorems": [
    "Verif.Mut.C99_mutable",
    "Verif.Chan.C99_channel",
    "Verif.Bc.C99_broadcaster",
    "Verif.Cancelable.C99_cancelable",
    "Verif.HubConc.C99_vec",
    "Verif.HubConc.C99_map",
    "Verif.ChanConc.C99_channel_threads",
    "Verif.CancelableConc.C99_cancelable_threads",
    "Verif.MutConc.C99_mutable_threads",
    "Verif.BcConc.C99_broadcaster_threads"
   ],
   "note": "An upper bound on wakes; that the wakes needed do happen is C36, C41, C44, C45, C47 and C75."
  }
 ]
}
