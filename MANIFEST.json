{
 "claims": [
  {
   "property": "C01",
   "status": "proved",
   "theorems": [
    "Verif.TimedMutex.mutual_exclusion",
    "Verif.TimedMutex.call_returns"
   ],
   "note": "timed_lock with not-a-date-time or minus infinity is excluded here and treated in C04"
  },
  {
   "property": "C02",
   "status": "proved",
   "theorems": [
    "Verif.TimedMutex.no_lost_wakeup"
   ],
   "note": ""
  },
  {
   "property": "C03",
   "status": "partial",
   "theorems": [
    "Verif.RecursiveMutex.ownership_and_depth_partial",
    "Verif.RecursiveMutex.depth_overflow",
    "Verif.RecursiveMutex.no_lost_wakeup",
    "Verif.RecursiveMutex.call_returns"
   ],
   "note": "holds up to depth 2^32-1; beyond it the counter wraps and the property is false (depth_overflow)"
  },
  {
   "property": "C04",
   "status": "partial",
   "theorems": [
    "Verif.TimedMutex.timed_lock_true_holds_partial",
    "Verif.TimedMutex.timed_lock_special_not_held",
    "Verif.TimedMutex.timed_lock_neg_infinity_not_held",
    "Verif.RecursiveMutex.timed_lock_true_holds_partial",
    "Verif.RecursiveMutex.timed_lock_special_not_held"
   ],
   "note": "false for not-a-date-time and minus infinity: timed_lock returns true without locking"
  },
  {
   "property": "C07",
   "status": "partial",
   "theorems": [
    "Verif.SharedMutex.exclusion_partial",
    "Verif.SharedMutex.accepted_exclusive",
    "Verif.SharedMutex.counter_exact_partial",
    "Verif.SharedMutex.two_writers",
    "Verif.SharedMutex.call_returns"
   ],
   "note": "proved for schedules that do not combine try_unlock_shared_and_lock_for/until with unlock_upgrade_and_lock; with both, two writers are possible (two_writers)"
  },
  {
   "property": "C08",
   "status": "partial",
   "theorems": [
    "Verif.SharedMutex.upgrade_owner_not_overtaken_partial",
    "Verif.SharedMutex.upgrade_overtaken"
   ],
   "note": "same restriction as C07; without it the property is false (upgrade_overtaken)"
  },
  {
   "property": "C09",
   "status": "partial",
   "theorems": [
    "Verif.SharedMutex.no_lost_wakeup_partial",
    "Verif.SharedMutex.shared_wait_reason_partial",
    "Verif.SharedMutex.lost_wakeup_upgrade",
    "Verif.SharedMutex.lost_wakeup_shared_to_exclusive",
    "Verif.SharedMutex.lost_wakeup_shared_to_upgrade"
   ],
   "note": "proved for lock_shared, lock_upgrade, lock, their timed forms and unlock_upgrade_and_lock; false for the timed upward conversions"
  },
  {
   "property": "C05",
   "status": "proved",
   "theorems": [
    "Verif.WinMutex.mutual_exclusion",
    "Verif.WinMutex.handover",
    "Verif.WinMutex.call_returns",
    "Verif.WinMutex.markExpr_pack",
    "Verif.WinMutex.guessExpr_pack",
    "Verif.WinMutex.clearExpr_pack",
    "Verif.WinMutex.unlockExpr_pack",
    "Verif.WinMutex.mustSignal_pack",
    "Verif.WinMutex.giveUp_pack",
    "Verif.WinMutex.pack_inj"
   ],
   "note": "the *_pack theorems show that the 32-bit arithmetic of the code is the field updates of the model"
  },
  {
   "property": "C06",
   "status": "partial",
   "theorems": [
    "Verif.WinRecursiveMutex.ownership_and_depth_partial",
    "Verif.WinRecursiveMutex.relock_succeeds",
    "Verif.WinRecursiveMutex.call_returns"
   ],
   "note": "up to depth 2^31-1, the range of the counter"
  },
  {
   "property": "C25",
   "status": "partial",
   "theorems": [
    "Verif.SyncQueue.sync_queue_is_fifo",
    "Verif.DevQueue.conforms_partial",
    "Verif.DevQueue.elements_are_lost"
   ],
   "note": "proved in full for containers that are empty after having been moved from; with the default container as long as underlying_queue is not called after a pull since the queue was last empty (see C62)"
  },
  {
   "property": "C26",
   "status": "proved",
   "theorems": [
    "Verif.SyncQueue.push_after_close",
    "Verif.SyncQueue.call_returns",
    "Verif.SyncQueue.close_releases_everybody",
    "Verif.SyncQueue.elements_survive_close",
    "Verif.DevQueue.push_iff_open",
    "Verif.DevQueue.close_releases_everybody",
    "Verif.DevQueue.elements_survive_close"
   ],
   "note": "also over the default container (DevQueue) as long as it is not broken by underlying_queue, see C62"
  },
  {
   "property": "C27",
   "status": "proved",
   "theorems": [
    "Verif.SyncQueue.no_sleeper_when_nonempty",
    "Verif.SyncQueue.priority_no_sleeper_when_nonempty",
    "Verif.SyncQueue.blocked_consumer_gets_element",
    "Verif.DevQueue.no_sleeper_when_nonempty",
    "Verif.DevQueue.blocked_consumer_gets_element"
   ],
   "note": "stronger than the count: no consumer is asleep at all while the queue is not empty"
  },
  {
   "property": "C28",
   "status": "partial",
   "theorems": [
    "Verif.BoundedQueue.bounded_fifo_partial",
    "Verif.BoundedQueue.never_over_capacity",
    "Verif.BoundedQueue.size_is_wrong",
    "Verif.BoundedQueue.wait_push_back_throws"
   ],
   "note": "FIFO, capacity, empty, full, closed proved; size() is one too small after wrap-around and wait_push_back throws when closed while it waits (both refuted)"
  },
  {
   "property": "C29",
   "status": "partial",
   "theorems": [
    "Verif.BoundedQueue.consumer_served_partial",
    "Verif.BoundedQueue.producer_served_partial",
    "Verif.BoundedQueue.close_releases_everybody",
    "Verif.BoundedQueue.lost_wakeup_interrupt"
   ],
   "note": "wake-ups proved unless a thread is interrupted after its wait has ended; with such an interruption a wake-up is lost"
  },
  {
   "property": "C30",
   "status": "proved",
   "theorems": [
    "Verif.SyncQueue.sync_priority_queue_is_ordered"
   ],
   "note": "for every comparison function"
  },
  {
   "property": "C31",
   "status": "partial",
   "theorems": [
    "Verif.TimedQueue.never_early",
    "Verif.TimedQueue.never_early_any_clock_partial",
    "Verif.TimedQueue.due_is_delivered",
    "Verif.TimedQueue.sleeper_wakes_in_time",
    "Verif.TimedQueue.close_wakes_everybody",
    "Verif.TimedQueue.backward_clock"
   ],
   "note": "proved in full for clocks that never go backwards; with a clock that is set back pull_until calls top() on an empty queue (backward_clock), everything else still holds"
  },
  {
   "property": "C19",
   "status": "proved",
   "theorems": [
    "Verif.Once.call_once_exactly_once",
    "Verif.Once.call_once_completes_at_most_once",
    "Verif.Once.call_once_caller_gets_in",
    "Verif.Once.recursive_call_never_returns"
   ],
   "note": "any number of threads, flags and nested calls"
  },
  {
   "property": "C20",
   "status": "proved",
   "theorems": [
    "Verif.OnceEpoch.epoch_call_once_exactly_once",
    "Verif.OnceEpoch.epoch_call_once_completes_at_most_once",
    "Verif.OnceEpoch.epoch_call_once_caller_gets_in",
    "Verif.OnceEpoch.epoch_runs_out_hangs",
    "Verif.OnceEpoch.epoch_runs_out_runs_twice"
   ],
   "note": "for the first 2^32-3 completed calls in the process, which is the bound in the claim; the last two theorems show the bound is sharp"
  },
  {
   "property": "C21",
   "status": "partial",
   "theorems": [
    "Verif.Barrier.barrier_generations",
    "Verif.Barrier.one_true_per_generation",
    "Verif.Barrier.complete_generation_is_released_partial",
    "Verif.Barrier.zero_count_rejected",
    "Verif.Barrier.straggler_misses_generation"
   ],
   "note": "election and grouping proved without bound; release proved while fewer than 2^32 generations have ended, after which a straggler may miss its own (straggler_misses_generation)"
  },
  {
   "property": "C22",
   "status": "partial",
   "theorems": [
    "Verif.Barrier.barrier_generations",
    "Verif.Barrier.size_is_kept",
    "Verif.Barrier.complete_generation_is_released_partial",
    "Verif.Barrier.size_from_function",
    "Verif.Barrier.throwing_completion_strands_waiters",
    "Verif.Barrier.stuck_after_throw"
   ],
   "note": "exactly once, before release and the size it sets are proved; if the function throws the waiting threads are never notified, and no later generation ends before 2^32 more arrivals (stuck_after_throw)"
  },
  {
   "property": "C23",
   "status": "partial",
   "theorems": [
    "Verif.Latch.latch_correct_partial",
    "Verif.Latch.call_returns",
    "Verif.Latch.count_down_and_wait_returns",
    "Verif.Latch.passes_only_after_count",
    "Verif.Latch.released_passes_partial",
    "Verif.Latch.wait_at_zero_passes",
    "Verif.Latch.reset_to_zero_strands_waiter",
    "Verif.Latch.reset_to_zero_times_out"
   ],
   "note": "proved for everything but reset(0), which does not release present waiters (refuted)"
  },
  {
   "property": "C24",
   "status": "partial",
   "theorems": [
    "Verif.CompletionLatch.completion_latch_partial",
    "Verif.CompletionLatch.completion_once_per_cycle_partial",
    "Verif.CompletionLatch.registered_waiter_released_partial",
    "Verif.CompletionLatch.completion_runs_partial",
    "Verif.CompletionLatch.no_wait_ever_fails",
    "Verif.CompletionLatch.try_wait_blocks",
    "Verif.CompletionLatch.late_waiter_blocks",
    "Verif.CompletionLatch.no_waiter_no_completion",
    "Verif.CompletionLatch.count_down_and_wait_alone_blocks",
    "Verif.CompletionLatch.interrupted_waiter_blocks_arrival"
   ],
   "note": "one completion per cycle and release of registered waiters proved without interruptions; try_wait blocks, late waiters and lone arrivals block, an interrupted waiter blocks the arrival (refuted)"
  },
  {
   "property": "C13",
   "status": "proved",
   "theorems": [
    "Verif.LockAlg.lock_all_or_nothing",
    "Verif.LockAlg.range_lock_all_or_nothing",
    "Verif.LockAlg.never_holds_while_blocking",
    "Verif.LockAlg.no_deadlock",
    "Verif.LockAlg.histories_are_faithful",
    "Verif.LockAlg.retry_starts_with_failed",
    "Verif.LockAlg.unique_locks",
    "Verif.LockAlg.unique_lock_of"
   ],
   "note": "two to five lockables and ranges of any length, arbitrary lockables; unlock() does not throw"
  },
  {
   "property": "C14",
   "status": "proved",
   "theorems": [
    "Verif.LockAlg.try_lock_reports_first_failure",
    "Verif.LockAlg.range_try_lock_reports_first_failure",
    "Verif.LockAlg.histories_are_faithful"
   ],
   "note": "any number of lockables, arbitrary behaviour of each"
  },
  {
   "property": "C15",
   "status": "proved",
   "theorems": [
    "Verif.LockObj.no_double_release",
    "Verif.LockObj.conversions_exist",
    "Verif.LockObj.owns_lock_is_exact",
    "Verif.LockObj.nothing_left_locked",
    "Verif.LockObj.misuse_raises_lock_error",
    "Verif.LockObj.lock_and_unlock",
    "Verif.LockObj.move_transfers",
    "Verif.LockObj.assign_transfers",
    "Verif.LockObj.swap_exchanges",
    "Verif.LockObj.release_hands_out",
    "Verif.LockObj.destroy_releases",
    "Verif.LockObj.failed_conversion_keeps_source",
    "Verif.LockObj.conversion_transfers",
    "Verif.LockObj.upgrade_to_unique_round_trip"
   ],
   "note": "every history over any number of objects of the three classes and upgrade_to_unique_lock; destructors' releases do not throw"
  },
  {
   "property": "C16",
   "status": "proved",
   "theorems": [
    "Verif.CondVar.history_conforms",
    "Verif.CondVar.history_state",
    "Verif.CondVar.notify_all_wakes",
    "Verif.CondVar.notify_one_wakes",
    "Verif.CondVar.woken_returns",
    "Verif.CondVar.no_internal_deadlock",
    "Verif.CondVar.notification_consumed_by_interrupted_thread"
   ],
   "note": "Refinement of condition_variable (with interruption) to an atomic condition variable; progress of woken threads; a notify_one consumed by a thread that is then interrupted is shown as a remark."
  },
  {
   "property": "C17",
   "status": "partial",
   "theorems": [
    "Verif.TimedWait.timed_waits_conform_partial",
    "Verif.TimedWait.timed_waits_conform_if_no_failure",
    "Verif.TimedWait.woken_with_true_returns",
    "Verif.TimedWait.expired_returns",
    "Verif.TimedWait.user_clock_is_polled",
    "Verif.TimedWait.wait_until_in_the_past_throws",
    "Verif.TimedWait.wait_for_max_overflows",
    "Verif.TimedWait.timed_wait_neg_infinity_reports_no_timeout",
    "Verif.TimedWait.windows_never_throws",
    "Verif.TimedWait.windows_past_times_out"
   ],
   "note": "Holds for every call that returns, on POSIX systems and on Windows (there no wait throws). Calls with extreme times fail: wait_until far in the past throws condition_error, wait_for(max) overflows (both shown)."
  },
  {
   "property": "C18",
   "status": "proved",
   "theorems": [
    "Verif.CondVar.history_conforms",
    "Verif.CondVar.interrupted_only_if_due",
    "Verif.CondVar.not_passed_if_due",
    "Verif.CondVar.at_most_one_per_request",
    "Verif.CondVar.interrupt_wakes",
    "Verif.CondVar.woken_returns",
    "Verif.CondVar.no_internal_deadlock"
   ],
   "note": "Interruption flag semantics, race between going to sleep and being interrupted; interruption points modelled: interruption_point() and condition waits (sleep and join are built on them)."
  },
  {
   "property": "C32",
   "status": "partial",
   "theorems": [
    "Verif.Future.plain_history_partial",
    "Verif.Future.every_history_partial",
    "Verif.Future.spec_outcome_stable",
    "Verif.Future.deferred_twice_fails",
    "Verif.Future.exception_changes_fails",
    "Verif.Future.value_after_deferred_exception_fails",
    "Verif.Future.notify_without_outcome",
    "Verif.Future.at_thread_exit_lazy_fails",
    "Verif.Future.moved_from_set_value",
    "Verif.Future.shared_get_or_fails",
    "Verif.Future.interrupted_get_fails",
    "Verif.Future.unshared_get_moves"
   ],
   "note": "full contract proved for clients using set_value/set_exception; for every history a weaker contract in which a second deferred attempt spoils its channel. The full contract is false of the code: the deferred and at-thread-exit variants check only has_value, so a second attempt overwrites the first"
  },
  {
   "property": "C33",
   "status": "partial",
   "theorems": [
    "Verif.Future.plain_history_partial",
    "Verif.Future.every_history_partial",
    "Verif.Future.ready_waiter_returns",
    "Verif.Future.ended_thread_publishes",
    "Verif.Future.nobody_waits_for_a_dead_promise_partial",
    "Verif.Future.assigned_promise_fails",
    "Verif.Future.deferred_then_destroyed_fails",
    "Verif.Future.at_thread_exit_needs_release_fails",
    "Verif.Future.at_thread_exit_foreign_thread_fails"
   ],
   "note": "proved without promise assignment, without the deferred setters, and with threads started by the library; each restriction is shown to be needed by a counterexample"
  },
  {
   "property": "C45",
   "status": "partial",
   "theorems": [
    "Verif.PlatformTime.roundtrip",
    "Verif.PlatformTime.roundtrip_timespec",
    "Verif.PlatformTime.roundtrip32_partial",
    "Verif.PlatformTime.roundtrip32_fails",
    "Verif.PlatformTime.normalised_iff",
    "Verif.PlatformTime.normalised_partial",
    "Verif.PlatformTime.negative_not_normalised",
    "Verif.PlatformTime.ofPosixTime_exact",
    "Verif.PlatformTime.ceilNs_least",
    "Verif.PlatformTime.ofChrono_least",
    "Verif.PlatformTime.getMs_partial",
    "Verif.PlatformTime.getMs_overflow",
    "Verif.PlatformTime.platformMilliseconds_exact",
    "Verif.PlatformTime.platformMilliseconds_overflow",
    "Verif.PlatformTime.platformMilliseconds_32",
    "Verif.PlatformTime.plus_exact",
    "Verif.PlatformTime.minus_exact",
    "Verif.PlatformTime.plus_comm",
    "Verif.PlatformTime.plus_minus",
    "Verif.PlatformTime.lt_exact",
    "Verif.PlatformTime.plus_mono",
    "Verif.PlatformTime.convert_mono",
    "Verif.PlatformTime.getMax_overflow"
   ],
   "note": "exact round trip, arithmetic and order with 64-bit long; normalised exactly for non-negative times (negative times give a negative tv_nsec, shown); with a 32-bit long the seconds are cut (shown); getMs and getMax overflow near the end of the range (shown)"
  },
  {
   "property": "C46",
   "status": "partial",
   "theorems": [
    "Verif.CpuInfo.trim_exact",
    "Verif.CpuInfo.toUnsigned_partial",
    "Verif.CpuInfo.toUnsigned_le",
    "Verif.CpuInfo.nul_accepted",
    "Verif.CpuInfo.nul_alone_accepted"
   ],
   "note": "trim is exact for every string; parsing is exact for every string without a NUL character; strings with one are accepted although they are not numerals (shown)"
  },
  {
   "property": "C47",
   "status": "partial",
   "theorems": [
    "Verif.CpuInfo.counts_listing",
    "Verif.CpuInfo.counts_pairs",
    "Verif.CpuInfo.malformed_falls_back",
    "Verif.CpuInfo.nothing_listed",
    "Verif.CpuInfo.lines_exact",
    "Verif.CpuInfo.order_matters_fails"
   ],
   "note": "for every listing without NUL characters; core ids are paired with the last physical id above them, so a listing with the two in the other order is miscounted (shown)"
  },
  {
   "property": "C48",
   "status": "partial",
   "theorems": [
    "Verif.StackSize.smallest_multiple_partial",
    "Verif.StackSize.zero_ignored",
    "Verif.StackSize.overflow_fails"
   ],
   "note": "for every non-zero size whose rounding fits in size_t; size 0 is ignored, and sizes near the end of the range wrap to 0 (both shown)"
  },
  {
   "property": "C39",
   "status": "partial",
   "theorems": [
    "Verif.Thread.history_conforms",
    "Verif.Thread.terminates_exactly",
    "Verif.Thread.terminate_is_last",
    "Verif.Thread.join_after_completion",
    "Verif.Thread.released_once",
    "Verif.Thread.completion_seen_once_partial",
    "Verif.Thread.join_ends",
    "Verif.Thread.both_see_completion",
    "Verif.Thread.self_move_detaches"
   ],
   "note": "For every history: join returns only after completion, a thread is joined or detached at the operating system at most once, self-join is refused, joinable() follows construction, join, detach, move and swap, and joins end. 'Completion is seen at most once' holds for clients that use an object from one thread at a time; two concurrent joins of one object both succeed (both_see_completion, proved)."
  },
  {
   "property": "C50",
   "status": "partial",
   "theorems": [
    "Verif.ScopedThread.history_conforms",
    "Verif.ScopedThread.terminate_is_last",
    "Verif.ScopedThread.released_at_most_once",
    "Verif.ScopedThread.never_lost",
    "Verif.ScopedThread.action_exactly_once",
    "Verif.ScopedThread.self_assignment_applies_action",
    "Verif.ScopedThread.self_join_terminates"
   ],
   "note": "for every history of the four library actions; false for an object moved onto itself: the action is applied although nothing is assigned over it (shown)"
  },
  {
   "property": "C49",
   "status": "partial",
   "theorems": [
    "Verif.ThreadGroup.history_conforms_partial",
    "Verif.ThreadGroup.membership_of_empty_objects",
    "Verif.ThreadGroup.double_delete_unchecked",
    "Verif.ThreadGroup.double_delete_race",
    "Verif.ThreadGroup.checked_add_keeps_members_distinct",
    "Verif.ThreadGroup.join_all_deadlocks_with_a_member"
   ],
   "note": "Proved for every history, in any number of threads, as long as no member is added again and for objects that hold a thread. False beyond that, with witnesses: objects holding no thread are confused with joined members; duplicate adds (unchecked, or racing) delete twice; join_all deadlocks with a member that uses the group."
  },
  {
   "property": "C40",
   "status": "partial",
   "theorems": [
    "Verif.ThreadExit.history_conforms_partial",
    "Verif.ThreadExit.tear_down_terminates",
    "Verif.ThreadExit.own_slot_reset_cleans_twice",
    "Verif.ThreadExit.own_slot_release_undefined"
   ],
   "note": "Proved for every nesting of callbacks and cleanup functions, as long as no cleanup function changes the slot it was called for; in that case the value is cleaned up twice or the behaviour is undefined, with witnesses."
  },
  {
   "property": "C44",
   "status": "partial",
   "theorems": [
    "Verif.SyncValue.history_conforms",
    "Verif.SyncValue.operations_can_return_partial",
    "Verif.SyncValue.self_compare_never_returns",
    "Verif.SyncValue.legacy_synchronize3_not_exclusive"
   ],
   "note": "Atomicity proved for every history, any number of threads and objects; every operation can return from every reachable state except comparing (or synchronising) an object with itself over a non-recursive mutex, which never returns (shown); the pre-variadic synchronize of three objects locks only two (shown)"
  },
  {
   "property": "C41",
   "status": "partial",
   "theorems": [
    "Verif.ThreadPool.history_conforms_partial",
    "Verif.ThreadPool.terminate_is_last",
    "Verif.ThreadPool.calls_return",
    "Verif.ThreadPool.single_worker_keeps_order",
    "Verif.ThreadPool.two_workers_change_order",
    "Verif.ThreadPool.accepted_closures_complete",
    "Verif.ThreadPool.join_can_return",
    "Verif.ThreadPool.destructor_drops_closures",
    "Verif.ThreadPool.destructor_drops_closures_behind_an_interrupted_one",
    "Verif.ThreadPool.constructor_failure_terminates"
   ],
   "note": "At most once, acceptance exactly while open, bounded overtaking (submission order with one worker), close+join carries everything out: proved for every number of workers, clients and every schedule. False: the destructor interrupts the workers and can lose accepted closures; with two workers invocation order is not submission order; a failing constructor ends the program (all shown)"
  },
  {
   "property": "C42",
   "status": "partial",
   "theorems": [
    "Verif.SerialExecutor.history_conforms",
    "Verif.SerialExecutor.terminate_is_last",
    "Verif.SerialExecutor.serial_and_in_order",
    "Verif.SerialExecutor.accepted_closures_complete",
    "Verif.SerialExecutor.destructor_can_return",
    "Verif.SerialExecutor.helping_overlaps_and_reorders",
    "Verif.SerialExecutor.rescheduling_on_one_thread_deadlocks",
    "Verif.SerialExecutor.closed_underlying_executor_terminates"
   ],
   "note": "One at a time, in order and each once, for every schedule and any underlying executor, as long as nobody but the executor's own thread executes its closures; try_executing_one called by others overlaps and reorders them, rescheduling on a one-thread underlying executor deadlocks, and a closed underlying executor ends the program. serial_executor_cont is not part of this model."
  },
  {
   "property": "C43",
   "status": "partial",
   "theorems": [
    "Verif.LoopExecutor.history_conforms_partial",
    "Verif.LoopExecutor.terminate_is_last",
    "Verif.LoopExecutor.each_closure_at_most_once",
    "Verif.LoopExecutor.run_queued_closures_runs_exactly_the_queue",
    "Verif.LoopExecutor.loop_runs_everything_in_order",
    "Verif.LoopExecutor.loop_gets_through_the_queue",
    "Verif.LoopExecutor.destructor_drops_closures",
    "Verif.LoopExecutor.throwing_closure_loses_the_rest",
    "Verif.LoopExecutor.user_scheduler_run_queued_drops_closures",
    "Verif.LoopExecutor.user_scheduler_run_queued_undefined",
    "Verif.LoopExecutor.user_scheduler_hides_exceptions",
    "Verif.LoopExecutor.user_scheduler_loop_leaves_closures",
    "Verif.LoopExecutor.two_loops_change_the_order",
    "Verif.LoopExecutor.run_queued_closures_breaks_the_executor",
    "Verif.LoopExecutor.closures_are_lost"
   ],
   "note": "loop_executor and user_scheduler: for every history with any number of threads, closures start only if accepted, at most once, in submission order, and loop returns only when closed and drained. Missing because false: completion before the destructor, the executor after run_queued_closures if a closure had been taken since the queue was last empty (the default container is broken, C62), closures after one that throws in run_queued_closures, user_scheduler::run_queued_closures (inverted condition) and user_scheduler's treatment of exceptions; negations proved with concrete histories."
  },
  {
   "property": "C34",
   "status": "partial",
   "theorems": [
    "Verif.PackagedTask.history_conforms_partial",
    "Verif.PackagedTask.invoked_at_most_once",
    "Verif.PackagedTask.get_delivers_the_outcome_of_the_run",
    "Verif.PackagedTask.get_returns",
    "Verif.PackagedTask.destroyed_task_breaks_the_promise",
    "Verif.PackagedTask.outcomes_are_published_after_the_end_of_the_thread",
    "Verif.PackagedTask.reset_leaves_the_state_ready",
    "Verif.PackagedTask.reset_keeps_the_exception",
    "Verif.PackagedTask.reset_does_not_separate_futures",
    "Verif.PackagedTask.destruction_after_reset_breaks_a_kept_promise",
    "Verif.PackagedTask.reset_does_not_allow_at_thread_exit",
    "Verif.PackagedTask.foreign_thread_never_publishes"
   ],
   "note": "Any number of tasks, threads, nested calls, moves and futures. Missing: functions whose task was reset after a call or after its future was taken, where the code keeps the old shared state (negations proved); lifetime of the shared state (see C72)."
  },
  {
   "property": "C35",
   "status": "partial",
   "theorems": [
    "Verif.Continuation.history_conforms",
    "Verif.Continuation.history_conforms_strict",
    "Verif.Continuation.called_at_most_once",
    "Verif.Continuation.called_after_readiness",
    "Verif.Continuation.called_exactly_once",
    "Verif.Continuation.launching_goes_on",
    "Verif.Continuation.waits_agree",
    "Verif.Continuation.wait_returns_the_result",
    "Verif.Continuation.resolve_explicit",
    "Verif.Continuation.resolve_inherit",
    "Verif.Continuation.resolve_default",
    "Verif.Continuation.not_then_on_deferred",
    "Verif.Continuation.not_all_called",
    "Verif.Continuation.not_one_outcome"
   ],
   "note": "Any number of threads, states, attachments and nested calls. At most once and only after readiness: always. Exactly once: in every run in which every thread can be started and every executor accepts, as soon as nothing is left to do. Missing because false: a failing launch loses the remaining continuations, makes set_value throw, and can replace a delivered value by an exception; a non-deferred continuation of a deferred future is not launched until somebody waits for the antecedent itself (all shown). Blocking futures and unwrap are not part of the model."
  },
  {
   "property": "C38",
   "status": "proved",
   "theorems": [
    "Verif.Continuation.history_conforms",
    "Verif.Continuation.deferred_called_in_a_wait",
    "Verif.Continuation.deferred_called_at_most_once",
    "Verif.Continuation.wait_returns_after_readiness",
    "Verif.Continuation.wait_on_ready_returns",
    "Verif.Continuation.wait_calls_the_deferred_function",
    "Verif.Continuation.waits_agree",
    "Verif.Continuation.wait_returns_the_result",
    "Verif.Continuation.is_ready_blocks"
   ],
   "note": "Any number of waiters and any mixture of deferred futures and deferred continuations. Timed waits on deferred futures are not part of the model."
  },
  {
   "property": "C36",
   "status": "partial",
   "theorems": [
    "Verif.WaitAny.history_conforms",
    "Verif.WaitAny.history_conforms_partial",
    "Verif.WaitAny.returns_position_of_ready",
    "Verif.WaitAny.own_steps_bounded",
    "Verif.WaitAny.returns_if_ready_partial",
    "Verif.WaitAny.interruption_ends_call_partial",
    "Verif.WaitAny.nothing_left_behind",
    "Verif.WaitAny.not_position_in_range",
    "Verif.WaitAny.not_opposite_orders",
    "Verif.WaitAny.not_duplicates",
    "Verif.WaitAny.only_invalid_never_returns"
   ],
   "note": "Any number of callers, futures and schedules. Identification: always for single futures, and for ranges without invalid futures. Return: for all sets of concurrent calls whose futures are distinct and in a common order, every maximal continuation of the calls returns, and it is bounded; so does a request for interruption, and nothing is left registered or locked. False: ranges with invalid futures give the wrong position; callers with opposite orders, and duplicates, block for ever although a future is ready (shown). Wait callbacks are not part of the model."
  },
  {
   "property": "C37",
   "status": "partial",
   "theorems": [
    "Verif.WhenAll.history_conforms",
    "Verif.WhenAll.all_ready",
    "Verif.WhenAll.any_ready",
    "Verif.WhenAll.exception_only_if_invalid",
    "Verif.WhenAll.crash_only_if_invalid",
    "Verif.WhenAll.ready_at_most_once",
    "Verif.WhenAll.executed_at_most_once",
    "Verif.WhenAll.not_executed_after_readiness",
    "Verif.WhenAll.goes_on_or_waits",
    "Verif.WhenAll.steps_bounded",
    "Verif.WhenAll.ready_when_all_inputs_are",
    "Verif.WhenAll.any_ready_when_one_is_partial",
    "Verif.WhenAll.empty_is_ready",
    "Verif.WhenAll.calls_do_not_wait",
    "Verif.WhenAll.any_blocks_in_a_deferred_input",
    "Verif.WhenAll.invalid_input_crashes",
    "Verif.WhenAll.invalid_input_excepts",
    "Verif.WhenAll.call_may_throw"
   ],
   "note": "Readiness only when the inputs are ready, all inputs delivered in order, and progress (bounded work, blocked only by an input that is not ready) are proved for every number of calls, inputs and schedules. False of the code and proved so: when_any with a deferred input executes it and is not ready before that has ended although another input is ready; invalid inputs crash or give an exception; if the internal thread cannot be started the call throws."
  },
  {
   "property": "C10",
   "status": "partial",
   "theorems": [
    "Verif.V2Mutex.history_conforms",
    "Verif.V2Mutex.call_returns",
    "Verif.V2Mutex.exclusion",
    "Verif.V2Mutex.counters_exact_partial",
    "Verif.V2Mutex.counter_bounds",
    "Verif.V2Mutex.undisturbed",
    "Verif.V2Mutex.no_abort_partial",
    "Verif.V2Mutex.try_exact_partial",
    "Verif.V2Mutex.phantom_readers",
    "Verif.V2Mutex.interrupted_writer_stays",
    "Verif.V2Mutex.interrupted_conversion_aborts",
    "Verif.V2Mutex.Word.ready_word",
    "Verif.V2Mutex.Word.pass1_word",
    "Verif.V2Mutex.Word.fail2_word",
    "Verif.V2Mutex.Word.tryReady_word",
    "Verif.V2Mutex.Word.try_word",
    "Verif.V2Mutex.Word.down_word"
   ],
   "note": "Exclusion holds for every history with time-outs, spurious wake-ups and interruptions. The claim that a failed timed conversion leaves the mutex consistent is false: readers that left while it waited are counted again (phantom_readers). Interrupted exclusive requests leave the mutex locked or make assertions fail. The counter claims are proved for histories without such events. The Word theorems prove that the bit operations on the packed 32-bit word do what the model does on its fields."
  },
  {
   "property": "C11",
   "status": "partial",
   "theorems": [
    "Verif.V2Mutex.no_lost_wakeup_partial",
    "Verif.V2Mutex.quiescent_partial",
    "Verif.V2Mutex.lost_wakeup",
    "Verif.V2Mutex.lost_wakeup_forever",
    "Verif.V2Mutex.full_lost_wakeup"
   ],
   "note": "False of the code: a timed exclusive request that gives up on the second gate wakes nobody, and a reader blocked by it sleeps on after everything is released (lost_wakeup_forever). Proved: in histories in which no such request is given up and the reader limit is not reached, nobody sleeps without a reason."
  },
  {
   "property": "C12",
   "status": "proved",
   "theorems": [
    "Verif.WinSharedMutex.history_conforms",
    "Verif.WinSharedMutex.call_returns",
    "Verif.WinSharedMutex.exclusion",
    "Verif.WinSharedMutex.grants",
    "Verif.WinSharedMutex.fields_exact",
    "Verif.WinSharedMutex.error_exhausted",
    "Verif.WinSharedMutex.free_wakes",
    "Verif.WinSharedMutex.conversion_wakes",
    "Verif.WinSharedMutex.lost_wakeup",
    "Verif.WinSharedMutex.stolen_wakeup",
    "Verif.WinSharedMutex.error_with_three_threads"
   ],
   "note": "Exclusion, exactness of the counters and errors only at their limits, for every interleaving of loads and compare-and-swaps. Beyond the property: a free mutex is never slept on (free_wakes), a conversion always goes on (conversion_wakes); but readers can sleep on although only readers or an upgrade owner are there (lost_wakeup, stolen_wakeup), and three threads can exhaust the 11-bit counter of waits (error_with_three_threads)."
  },
  {
   "property": "C51",
   "status": "partial",
   "theorems": [
    "Verif.Scheduler.history_conforms",
    "Verif.Scheduler.history_conforms_any_clock_partial",
    "Verif.Scheduler.never_early",
    "Verif.Scheduler.starts_at_most_once",
    "Verif.Scheduler.due_work_starts",
    "Verif.Scheduler.destructor_returns",
    "Verif.Scheduler.handed_only_if_submitted",
    "Verif.Scheduler.no_worker_no_start",
    "Verif.Scheduler.drops_what_is_not_due",
    "Verif.Scheduler.drops_what_is_due",
    "Verif.Scheduler.closed_executor_terminates",
    "Verif.Scheduler.worker_lost"
   ],
   "note": "Composed with the model of sync_timed_queue, for any number of workers, clients, closures and clock readings. Proved: order, timeliness, at most once, prompt start by a free worker, termination of the destructor, and the reasons for refusals, leaving and ending the program. False of the code: accepted closures are run before the destructor returns (drops_what_is_not_due, drops_what_is_due)."
  },
  {
   "property": "C52",
   "status": "proved",
   "theorems": [
    "Verif.WinOnce.history_conforms",
    "Verif.WinOnce.completes_at_most_once",
    "Verif.WinOnce.caller_gets_in",
    "Verif.WinOnce.caller_returns"
   ],
   "note": "Any number of threads, any schedule at the grain of single interlocked operations and system calls. System calls are assumed not to fail; the function must not call call_once with its own flag."
  },
  {
   "property": "C53",
   "status": "partial",
   "theorems": [
    "Verif.WinCondVar.history_conforms",
    "Verif.WinCondVar.history_meant",
    "Verif.WinCondVar.notify_one_wakes_partial",
    "Verif.WinCondVar.notify_all_wakes",
    "Verif.WinCondVar.unposted_all_wake_partial",
    "Verif.WinCondVar.wakes_le_notifies",
    "Verif.WinCondVar.stolen_wakeup",
    "Verif.WinCondVar.notify_all_misses",
    "Verif.WinCondVar.one_notify_wakes_two",
    "Verif.WinCondVar.timeouts_overflow"
   ],
   "note": "Any number of threads, any schedule, time-outs and interruptions at any moment, as long as fewer than LONG_MAX/2 waits are begun (timeouts_overflow shows that a limit is needed). Proved: mutex held on return, no wake-up without a notify function called during the wait, a notification that finds somebody lets somebody wake, notify_all that finds somebody lets everybody waiting wake, at most one wake-up per notify_one. False of the code: notify_one wakes one of the threads waiting at the call (stolen_wakeup), notify_all wakes all of them (notify_all_misses)."
  },
  {
   "property": "C54",
   "status": "partial",
   "theorems": [
    "Verif.Sleep.sleeps_conform_partial",
    "Verif.Sleep.sleeps_conform_without_signals",
    "Verif.Sleep.quiet_sleep_ends",
    "Verif.Sleep.signal_cuts_sleep",
    "Verif.Sleep.signal_cuts_sleep_until",
    "Verif.Sleep.sleep_for_max_overflows"
   ],
   "note": "Built on the model of the timed waits (C17). For every course of the clocks, spurious wake-ups included. False of the code: a signal handler ends no_interruption_point::sleep_for and sleep_until(steady_clock) early (signal_cuts_sleep), and durations near the end of the range overflow."
  },
  {
   "property": "C55",
   "status": "partial",
   "theorems": [
    "Verif.Unwrap.get_delivers_meaning",
    "Verif.Unwrap.ready_has_meaning",
    "Verif.Unwrap.meaning_unique",
    "Verif.Unwrap.waiter_returns",
    "Verif.Unwrap.unwrapped_delivers_partial",
    "Verif.Unwrap.launching_ends",
    "Verif.Unwrap.is_ready_exact",
    "Verif.Unwrap.deferred_inner_never_runs",
    "Verif.Unwrap.deferred_outer_never_runs",
    "Verif.Unwrap.own_future_unresolved"
   ],
   "note": "Any number of threads, states and levels of nesting. The meaning of a future is an inductive definition over the history (Unwrap/Spec.lean). Proved: only the right outcome is delivered, it is unique, and every waiter for a future that has an outcome can return after the calls in progress have run to their end. False of the code for deferred futures: neither a deferred inner nor a deferred outer future is ever run (deferred_inner_never_runs, deferred_outer_never_runs)."
  },
  {
   "property": "C56",
   "status": "partial",
   "theorems": [
    "Verif.Async.async_contract",
    "Verif.Async.get_returns_result",
    "Verif.Async.function_called_once",
    "Verif.Async.get_returns",
    "Verif.Async.state_destroyed",
    "Verif.Async.release_returns_alone",
    "Verif.Async.no_race",
    "Verif.Async.wait_joins_blocking",
    "Verif.Async.failed_start_throws",
    "Verif.Async.failed_start_hangs",
    "Verif.Async.last_release_does_not_wait",
    "Verif.Async.get_does_not_join",
    "Verif.Async.wait_does_not_join",
    "Verif.Async.concurrent_waits_race",
    "Verif.Async.race_iff_two_waits",
    "Verif.Async.discarded_task_never_ready"
   ],
   "note": "Any number of threads, calls and futures; the three configurations of the destructor (plain, BOOST_THREAD_ASYNC_FUTURE_WAITS, BOOST_THREAD_FUTURE_BLOCKING). Proved for all: once at most, right result, life time of the state, get returns once the function has ended. False of the code: the last release waits for the function (last_release_does_not_wait, in every configuration, because the thread has a reference of its own), get joins the thread (get_does_not_join), wait joins it (only with BLOCKING: wait_joins_blocking), async throws when no thread can be started (failed_start_hangs with ASYNC_FUTURE_WAITS, the default up to version 4), copies do not race (concurrent_waits_race with BLOCKING)."
  },
  {
   "property": "C57",
   "status": "partial",
   "theorems": [
    "Verif.SerialCont.serial_order",
    "Verif.SerialCont.terminate_is_last",
    "Verif.SerialCont.history_conforms_partial",
    "Verif.SerialCont.accepted_closures_complete",
    "Verif.SerialCont.destructor_does_not_wait",
    "Verif.SerialCont.use_after_destructor",
    "Verif.SerialCont.nothing_starts_after_failure",
    "Verif.SerialCont.accepted_closure_lost",
    "Verif.SerialCont.failed_submit_poisons",
    "Verif.SerialCont.inline_call_deadlocks"
   ],
   "note": "Any number of clients and closures, any underlying executor. Order, exclusion and at-most-once hold in every run (serial_order), the rest of the contract when the client destroys the executor only after all closures have ended (history_conforms_partial), progress when the underlying executor keeps closures and never throws (accepted_closures_complete). False of the code: the destructor waits (destructor_does_not_wait; use_after_destructor), submit can be used again after the underlying executor has thrown (failed_submit_poisons; nothing_starts_after_failure, accepted_closure_lost), a closure may use the executor when the underlying one runs inline (inline_call_deadlocks)."
  },
  {
   "property": "C58",
   "status": "partial",
   "theorems": [
    "Verif.AtExit.effects_in_order",
    "Verif.AtExit.effects_after_finish",
    "Verif.AtExit.carried_out_partial",
    "Verif.AtExit.reference_withholds_effects",
    "Verif.AtExit.external_never",
    "Verif.AtExit.destructor_completes",
    "Verif.AtExit.detached_thread_completes",
    "Verif.AtExit.mutex_stays_locked_partial",
    "Verif.AtExit.promise_result_partial",
    "Verif.AtExit.object_delays_effects",
    "Verif.AtExit.unlocked_by_another_thread",
    "Verif.AtExit.reference_delays_effects",
    "Verif.AtExit.external_mutex_lost",
    "Verif.AtExit.external_mutex_never_free",
    "Verif.AtExit.external_unlocked_at_once",
    "Verif.AtExit.external_result_lost",
    "Verif.AtExit.second_result_replaces_first",
    "Verif.AtExit.set_value_overrides",
    "Verif.AtExit.ready_result_changes",
    "Verif.AtExit.value_ignored"
   ],
   "note": "Any number of threads, mutexes, promises and references. In every run: effects in order, at most once, never before the end of the thread; all of them once the thread is gone and nobody refers to it (carried_out_partial, detached_thread_completes); mutexes stay locked meanwhile; a promise given one result shows it from then on. False of the code: effects wait for the last reference to the thread, not for its end (object_delays_effects, reference_delays_effects), are carried out by another thread (unlocked_by_another_thread), never for threads not created by the library (external_*); a promise takes several results (second_result_replaces_first, set_value_overrides, ready_result_changes, value_ignored)."
  },
  {
   "property": "C59",
   "status": "partial",
   "theorems": [
    "Verif.WinThread.conforms",
    "Verif.WinThread.interruption_delivered",
    "Verif.WinThread.join_returns",
    "Verif.WinThread.timed_call_ends_partial",
    "Verif.WinThread.external_never_interrupted",
    "Verif.WinThread.sleep_forever",
    "Verif.WinThread.nested_restore",
    "Verif.WinThread.restore_keeps_on",
    "Verif.WinThread.past_sleep_is_no_point",
    "Verif.WinThread.past_steady_sleep_is_point"
   ],
   "note": "Any number of threads, any times and nesting. Proved in every run: no early return, interruption only when allowed, once per request and never missed, scopes nest, joins return when the thread has ended, interruption reaches a blocked call. Missing: timed calls end provided a timer can be had for waits over 4294967294 ms; without one a wait of 4294967295 ms (as a DWORD: INFINITE) never ends (sleep_forever). Restorers directly inside a restorer break the nesting (nested_restore, restore_keeps_on; the specification leaves this open); sleep_until a past time of a clock other than the steady one is no interruption point (past_sleep_is_no_point)."
  },
  {
   "property": "C60",
   "status": "partial",
   "theorems": [
    "Verif.TaskRegion.conforms_partial",
    "Verif.TaskRegion.closed_exactly",
    "Verif.TaskRegion.regions_end",
    "Verif.TaskRegion.regions_end_pool",
    "Verif.TaskRegion.nested_starvation",
    "Verif.TaskRegion.reported_thrice",
    "Verif.TaskRegion.left_behind",
    "Verif.TaskRegion.left_behind_memory",
    "Verif.TaskRegion.cancellation_is_silent"
   ],
   "note": "Any number of threads, tasks, regions and nesting. Proved in every run without interruption of the last wait and lack of memory in run: all of the statement, except that exceptions that wait has thrown may be reported repeatedly (reported_thrice). Regions end with a thread for every task, and with a pool if no task opens a region (regions_end, regions_end_pool). Missing because false: nested regions on a pool of any size can come to a standstill (nested_starvation); interruption of the last wait or lack of memory leaves tasks behind that use the region after its end (left_behind, left_behind_memory)."
  },
  {
   "property": "C61",
   "status": "partial",
   "theorems": [
    "Verif.ThreadExec.conforms_partial",
    "Verif.ThreadExec.destructor_ends",
    "Verif.ThreadExec.begins_at_once",
    "Verif.ThreadExec.throwing_is_the_end",
    "Verif.ThreadExec.submit_during_destruction",
    "Verif.ThreadExec.destroyed_while_locked",
    "Verif.InlineExec.conforms",
    "Verif.InlineExec.call_returns"
   ],
   "note": "Any number of threads and closures. inline_executor: proved in full. thread_executor: proved in every run in which no closure uses the executor once the destructor has come to its members. Missing because false: mtx_ is declared after threads_ and so destroyed before the threads are joined; a closure that calls submit or closed at that time uses a destroyed mutex instead of getting sync_queue_is_closed (submit_during_destruction, destroyed_while_locked)."
  },
  {
   "property": "C62",
   "status": "partial",
   "theorems": [
    "Verif.DevQueue.conforms_partial",
    "Verif.DevQueue.no_undefined_behaviour",
    "Verif.DevQueue.broken_by_underlying_queue",
    "Verif.DevQueue.elements_are_lost",
    "Verif.DevQueue.storage_grows",
    "Verif.LoopExecutor.run_queued_closures_breaks_the_executor",
    "Verif.LoopExecutor.closures_are_lost"
   ],
   "note": "Any element type, number of threads and history. Proved as long as underlying_queue is called only when no element has been pulled since the queue was last empty. Missing because false: the moved-from devector keeps its front index, so that after any other call of underlying_queue the queue claims not to be empty and the next pull reads out of range (broken_by_underlying_queue, in every such state), or elements pushed afterwards are lost (elements_are_lost); the storage is not bounded by the contents (storage_grows)."
  },
  {
   "property": "C63",
   "status": "partial",
   "theorems": [
    "Verif.Guards.conforms_partial",
    "Verif.Guards.mutual_exclusion",
    "Verif.Guards.exclusive_access",
    "Verif.Guards.scopes_end",
    "Verif.Guards.waits_only_for_holders",
    "Verif.Guards.reverse_lock_of_shared_lock",
    "Verif.Guards.shared_lock_gives_access",
    "Verif.Guards.unchecked_access",
    "Verif.Guards.left_locked"
   ],
   "note": "Any number of threads, mutexes, scopes and lock objects. All of the statement is proved for locks other than shared_lock in reverse_lock, and access is exclusive if one of the two strict locks is exclusive. Missing because false: reverse_lock of a shared_lock locks exclusively and makes the later unlock undefined (reverse_lock_of_shared_lock); nested_strict_lock of shared_lock gives two threads access (shared_lock_gives_access); with checks of preconditions off get accepts any lock (unchecked_access); a lock that was not locked is left locked (left_locked)."
  },
  {
   "property": "C64",
   "status": "partial",
   "theorems": [
    "Verif.WaitCallback.conforms_partial",
    "Verif.WaitCallback.callback_runs_unlocked",
    "Verif.WaitCallback.one_holder",
    "Verif.WaitCallback.ready_call_returns",
    "Verif.WaitCallback.promise_can_be_set",
    "Verif.WaitCallback.lazy_get",
    "Verif.WaitCallback.moved_promise",
    "Verif.WaitCallback.destroyed_promise",
    "Verif.WaitCallback.second_waiter"
   ],
   "note": "Any number of promises, futures and threads; callbacks do anything. All of the statement is proved for clients that do not move a promise with a callback and do not destroy it while a call may use it. Missing because false: the callback is bound to the address of the promise, so that it is called with a moved-from (moved_promise) or destroyed (destroyed_promise) promise; two threads that wait both call the callback, and the second one makes get throw although the value is there (second_waiter)."
  },
  {
   "property": "C65",
   "status": "partial",
   "theorems": [
    "Verif.Testable.conforms_partial",
    "Verif.Testable.lock_returns",
    "Verif.Testable.unlock_returns",
    "Verif.Testable.recursive_forgets",
    "Verif.Testable.recursive_aborts",
    "Verif.Testable.is_locked_lags"
   ],
   "note": "Any number of threads. All of the statement is proved except for recursive locking. Missing because false: over a recursive mutex the first unlock forgets the owner (recursive_forgets), and with assertions the second lock ends the program (recursive_aborts)."
  },
  {
   "property": "C66",
   "status": "partial",
   "theorems": [
    "Verif.TickCount.conforms_partial",
    "Verif.TickCount.monotone_partial",
    "Verif.TickCount.call_returns",
    "Verif.TickCount.first_calls_race",
    "Verif.TickCount.missed_wrap"
   ],
   "note": "Any number of threads, any number of wrap-arounds. Proved if a call takes at most D ms, refreshes begin at most P ms apart with P+3D < 2^32, and there is no wrap-around while the first calls are in progress or before the registration. Missing because false: a wrap-around during the first, racing calls makes the clock go back by 49 days (first_calls_race); after a failed registration a wrap-around is missed if nobody calls for 49.7 days (missed_wrap)."
  },
  {
   "property": "C67",
   "status": "partial",
   "theorems": [
    "Verif.SharedFair.conforms_partial",
    "Verif.SharedFair.starved_by_timeout",
    "Verif.SharedFair.starved_by_downgrade"
   ],
   "note": "Any number of threads, any schedule, on the model of C07-C09. Proved: a waiting writer holds off new shared and upgrade owners until the mutex was free, a writer downgrades, some timed lock gives up, or an upgrade owner becomes a shared owner. Missing because false: the last two open the gate although another writer still waits, and readers that take turns then keep it waiting for ever (starved_by_timeout, starved_by_downgrade, for every number of turns)."
  },
  {
   "property": "C68",
   "status": "partial",
   "theorems": [
    "Verif.V2Fair.conforms_partial",
    "Verif.V2Fair.starved_by_timeout",
    "Verif.V2Fair.passed_behind_upgrader"
   ],
   "note": "Any number of threads, any schedule, on the model of C10. Proved: a request that has only readers in its way holds off every new shared or upgrade owner until it is granted, times out or is interrupted. Missing because false: a request that comes while there is an upgrade owner, or second in line, does not: readers pass it (passed_behind_upgrader), and after the first in line has given up nobody wakes it and readers that take turns keep it waiting for ever (starved_by_timeout, for every number of turns)."
  },
  {
   "property": "C69",
   "status": "partial",
   "theorems": [
    "Verif.FutureHandle.conforms_partial",
    "Verif.FutureHandle.returns_when_ready",
    "Verif.FutureHandle.get_or_throws",
    "Verif.FutureHandle.shared_after_get",
    "Verif.FutureHandle.taken_from_copies",
    "Verif.FutureHandle.interrupted_get",
    "Verif.FutureHandle.null_exception",
    "Verif.FutureHandle.make_ready",
    "Verif.FutureHandle.make_exceptional",
    "Verif.FutureHandle.make_shared",
    "Verif.FutureHandle.make_shared_future_void"
   ],
   "note": "Any number of threads, handles and results, any schedule. Missing because false, each shown by a run: shared_future::get_or throws the stored exception; share() of a future that was asked gives a shared_future of a moved-from object; a future made of a shared_future takes the value away from its copies; an interrupted get makes the future invalid; a null exception_ptr makes get dereference null; make_shared_future() of void is never ready with success, it is a broken promise."
  },
  {
   "property": "C70",
   "status": "partial",
   "theorems": [
    "Verif.TimedLock.timed_locks_conform_partial",
    "Verif.TimedLock.timed_locks_conform_if_no_failure",
    "Verif.TimedLock.woken_while_free_locks",
    "Verif.TimedLock.returns_when_time_has_come",
    "Verif.TimedLock.sleeps_until_the_time",
    "Verif.TimedLock.clock_is_polled",
    "Verif.TimedLock.windows_clock_is_polled",
    "Verif.TimedLock.windows_sleeps_until_the_time",
    "Verif.TimedLock.free_mutex_is_locked",
    "Verif.TimedLock.windows_never_aborts",
    "Verif.TimedLock.past_time_hangs",
    "Verif.TimedLock.hang_is_for_ever",
    "Verif.TimedLock.past_time_aborts",
    "Verif.TimedLock.windows_past_time_returns",
    "Verif.TimedLock.lock_for_max_overflows",
    "Verif.TimedLock.windows_waits_for_ever",
    "Verif.TimedLock.many_threads_conform_partial",
    "Verif.TimedLock.many_threads_conform_if_no_failure",
    "Verif.TimedLock.returns_among_others",
    "Verif.TimedLock.woken_among_others",
    "Verif.TimedLock.stuck_for_everybody",
    "Verif.TimedLock.past_time_stops_everybody"
   ],
   "note": "Any schedule, any clocks, any times. Missing because false, each shown by a run: on POSIX an attempt until a time before the machine was booted, while another thread has the mutex, hangs for ever and blocks the owner too (with assertions it aborts); the largest duration overflows; on Windows exactly 4294967295 ms are taken for an infinite time. Proved for one thread among any others, and for any number of threads that all make timed calls (many_threads_conform_partial); there the hang stops everybody (past_time_stops_everybody)."
  },
  {
   "property": "C71",
   "status": "partial",
   "theorems": [
    "Verif.Lifetime.lives_rightly",
    "Verif.Lifetime.never_stale",
    "Verif.Lifetime.destroyed_once",
    "Verif.Lifetime.destroyed_unused",
    "Verif.Lifetime.called_once",
    "Verif.Lifetime.destroyed_when_unused",
    "Verif.Lifetime.gone_finished",
    "Verif.Lifetime.nothing_left",
    "Verif.Lifetime.windows_loses_nothing",
    "Verif.Lifetime.lost_after_rounds",
    "Verif.Lifetime.lost_for_ever",
    "Verif.Lifetime.data_may_be_lost"
   ],
   "note": "Any number of data, threads and references, any interleaving, three platforms. Missing because false, shown by a run: on POSIX a thread whose cleanup functions need new data each time ends, after the system has called the destructor of the key PTHREAD_DESTRUCTOR_ITERATIONS times, with data that are never destroyed."
  },
  {
   "property": "C72",
   "status": "partial",
   "theorems": [
    "Verif.StateLife.lives_rightly",
    "Verif.StateLife.never_stale",
    "Verif.StateLife.destroyed_once",
    "Verif.StateLife.destroyed_unneeded",
    "Verif.StateLife.called_once",
    "Verif.StateLife.called_even_if_dropped",
    "Verif.StateLife.nothing_left_partial",
    "Verif.StateLife.nothing_left",
    "Verif.StateLife.leak_is_for_ever",
    "Verif.StateLife.deferred_chain_leaks",
    "Verif.StateLife.discarded_chain_leaks",
    "Verif.StateLife.nothing_left_fails"
   ],
   "note": "Any number of results and futures, any interleaving. Missing because false, shown by runs: a result that will never be ready (deferred and never waited for, or given up by an executor) and a result of then on it refer to each other and are never destroyed. nothing_left proves the last sentence when there is no such result, nothing_left_partial says that there is no other exception."
  },
  {
   "property": "C73",
   "status": "partial",
   "theorems": [
    "Verif.CondLife.plain_documented",
    "Verif.CondLife.any_strict_partial",
    "Verif.CondLife.posix_strict_partial",
    "Verif.CondLife.win_strict_partial",
    "Verif.CondLife.any_documented_fails",
    "Verif.CondLife.posix_documented_fails",
    "Verif.CondLife.posix_interrupt_fails",
    "Verif.CondLife.win_documented_fails"
   ],
   "note": "Proved in full for condition_variable on POSIX without interruption. Missing because false, shown by runs: elsewhere a woken thread locks the internal mutex of the condition variable before it returns, and so does a thread that interrupts it. The partial theorems prove the claim for clients that wait until every woken thread has its mutex back."
  },
  {
   "property": "C74",
   "status": "partial",
   "theorems": [
    "Verif.WinMutexLife.conforms",
    "Verif.WinMutexLife.destroy_partial",
    "Verif.WinMutexLife.no_leak",
    "Verif.WinMutexLife.one_event",
    "Verif.WinMutexLife.same_event",
    "Verif.WinMutexLife.lax_fails"
   ],
   "note": "All but the last sentence is proved in full. The last is false, shown by a run: unlock sets a flag in the mutex, and may signal its event, after it has given up the mutex; meanwhile other threads can lock and unlock it, and the last of them destroy it. destroy_partial proves it for clients that wait until every call of unlock has returned."
  },
  {
   "property": "C75",
   "status": "partial",
   "theorems": [
    "Verif.Deferred.conforms",
    "Verif.Deferred.value_prompt",
    "Verif.Deferred.asked_prompt_partial",
    "Verif.Deferred.timed_prompt_partial",
    "Verif.Deferred.get_returns",
    "Verif.Deferred.reference_blocks",
    "Verif.Deferred.reference_deadlock"
   ],
   "note": "Proved in full for values and void (value_prompt, timed_prompt_partial with ref = false) and, apart from not waiting, for references. False for references while f runs: f is called with the mutex of the shared state locked (future.hpp 1081-1090), so that queries wait for it (reference_blocks), and a query by f itself never returns, nor any other call after it (reference_deadlock)."
  },
  {
   "property": "C76",
   "status": "partial",
   "theorems": [
    "Verif.WinSharedFair.conforms_partial",
    "Verif.WinSharedFair.passed_by_downgrade",
    "Verif.WinSharedFair.starved_by_timeout"
   ],
   "note": "Proved except that the gate also opens when a writer gives up that had begun to wait before the mutex was last free, and when an upgrade owner becomes a shared owner. In the first case the property is false for good: starved_by_timeout gives, for every n, a history in which n rounds of readers pass a writer that cannot be woken. In the second case a reader passes before the writer, which has been woken, closes the gate again (passed_by_downgrade)."
  },
  {
   "property": "C77",
   "status": "partial",
   "theorems": [
    "Verif.TimedJoin.timed_joins_conform_partial",
    "Verif.TimedJoin.timed_joins_conform_if_no_failure",
    "Verif.TimedJoin.ended_is_joined",
    "Verif.TimedJoin.woken_after_end",
    "Verif.TimedJoin.returns_when_time_has_come",
    "Verif.TimedJoin.sleeps_until_the_time",
    "Verif.TimedJoin.clock_is_polled",
    "Verif.TimedJoin.past_time_throws",
    "Verif.TimedJoin.windows_past_time_returns",
    "Verif.TimedJoin.windows_never_throws",
    "Verif.TimedJoin.join_for_max_overflows",
    "Verif.TimedJoin.held_up",
    "Verif.TimedJoin.timed_join_is_held_up"
   ],
   "note": "Any schedule, clocks and times. Missing because false: on POSIX a time before the machine was booted makes the call throw condition_error; the largest duration overflows; on POSIX the time counts only until the function of the thread has returned: after that the call waits for the end of the thread (destructors of thread_local variables) without limit and without interruption (held_up)."
  },
  {
   "property": "C78",
   "status": "partial",
   "theorems": [
    "Verif.Xtime.converts_to_nearest",
    "Verif.Xtime.conversion_is_monotone",
    "Verif.Xtime.from_system_time_is_exact",
    "Verif.Xtime.roundtrip_partial",
    "Verif.Xtime.roundtrip_xtime",
    "Verif.Xtime.before_1970_not_normalised",
    "Verif.Xtime.before_1970",
    "Verif.Xtime.wraps_in_2038",
    "Verif.Xtime.wraps_after_2038",
    "Verif.Xtime.cmp_orders",
    "Verif.Xtime.get_reads_clock",
    "Verif.Xtime.milliseconds_cover_partial",
    "Verif.Xtime.milliseconds_wrap"
   ],
   "note": "All values. Missing because false: times before 1970 give a negative nsec and are a microsecond off after the round trip; with a 32-bit long (Windows) times from 2038 on convert to times before 1970."
  },
  {
   "property": "C79",
   "status": "proved",
   "theorems": [
    "Verif.Stream.conforms",
    "Verif.Stream.not_interleaved",
    "Verif.Stream.text_is_whole",
    "Verif.Stream.finishes",
    "Verif.Stream.nests",
    "Verif.Stream.needs_recursive"
   ],
   "note": "Any number of threads, nested guards, texts and exceptions. Guards moved by the user are not modelled; with a mutex that is not recursive nested expressions deadlock (needs_recursive)."
  },
  {
   "property": "C80",
   "status": "proved",
   "theorems": [
    "Verif.MutexLife.conforms",
    "Verif.MutexLife.destruction_is_safe",
    "Verif.MutexLife.owner_is_alone",
    "Verif.MutexLife.must_be_seen",
    "Verif.MutexLife.readers_do_not_tell"
   ],
   "note": "Any number of threads. When a lock is granted is left to the schedule within the limits of exclusion, so every real schedule is covered. Conversions of ownership, interruption and exceptions are not modelled; unlocking the member mutex is one operation, which POSIX guarantees. The Windows mutex does not have this property: see C74."
  },
  {
   "property": "C81",
   "status": "partial",
   "theorems": [
    "Verif.Work.conforms_smart",
    "Verif.Work.conforms_partial",
    "Verif.Work.destroyed_once",
    "Verif.Work.lives_exactly",
    "Verif.Work.self_move_loses",
    "Verif.Work.keep_during_call"
   ],
   "note": "Proved in full with the smart pointers of C++11. Without them (BOOST_NO_CXX11_SMART_PTR) a work moved onto itself loses its function (self_move_loses); conforms_partial proves the rest. Lack of memory and exceptions while the function is copied into the work are not modelled."
  },
  {
   "property": "C82",
   "status": "partial",
   "theorems": [
    "Verif.ThreadId.conforms",
    "Verif.ThreadId.conforms_partial",
    "Verif.ThreadId.id_reused",
    "Verif.ThreadId.self_join_refused",
    "Verif.ThreadId.join_other",
    "Verif.ThreadId.order_stable",
    "Verif.ThreadId.order_total"
   ],
   "note": "Proved in full for ids that keep the data of the thread. With BOOST_THREAD_PROVIDES_BASIC_THREAD_ID, the default, an id kept after its thread has ended and been joined or detached can equal that of a new thread (id_reused); conforms_partial proves the rest. Output and hashing of ids and calls after the library has destroyed the data of the thread are not modelled."
  },
  {
   "property": "C83",
   "status": "partial",
   "theorems": [
    "Verif.ForeignExit.conforms_partial",
    "Verif.ForeignExit.callbacks_run",
    "Verif.ForeignExit.values_cleaned",
    "Verif.ForeignExit.rounds_bounded",
    "Verif.ForeignExit.last_round_lost",
    "Verif.ForeignExit.hidden_values"
   ],
   "note": "Every history conforms, as long as no cleanup function called by reset or by the destructor of a slot changes that slot (as in C40). A callback registered in the last round the system allows never runs (last_round_lost, for every number of rounds), and during a round slots read as null although their values have not been cleaned up (hidden_values); threads started by the library behave differently in both respects (C40)."
  },
  {
   "property": "C84",
   "status": "partial",
   "theorems": [
    "Verif.Helping.conforms",
    "Verif.Helping.conforms_partial",
    "Verif.Helping.true_means_pred",
    "Verif.Helping.false_means_empty",
    "Verif.Helping.each_once",
    "Verif.Helping.throwing_closure_ends_the_program",
    "Verif.Helping.drains",
    "Verif.Helping.stops",
    "Verif.Helping.empty_queue_false",
    "Verif.Helping.user_scheduler_false_early"
   ],
   "note": "loop_executor, basic_thread_pool and the references to them: in full (conforms, true_means_pred, false_means_empty, each_once, drains, stops). user_scheduler: a closure that throws makes the call return false although closures are queued (user_scheduler_false_early). With an empty queue the predicate is not asked (empty_queue_false)."
  }
 ]
}