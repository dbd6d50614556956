import Verif.Core.Run
import Verif.Core.Last
import Verif.Core.Threads
import Verif.TimedMutex.Props
import Verif.RecursiveMutex.Props
import Verif.SharedMutex.Props
import Verif.WinMutex.Props
import Verif.WinRecursiveMutex.Props
import Verif.SyncQueue.Props
import Verif.BoundedQueue.Props
import Verif.TimedQueue.Props
import Verif.Once.Props
import Verif.OnceEpoch.Props
import Verif.Barrier.Props
import Verif.Latch.Props
import Verif.CompletionLatch.Props
import Verif.LockAlg.Props
import Verif.LockObj.Props
import Verif.CondVar.Props
import Verif.TimedWait.Props
import Verif.Future.Props
import Verif.PlatformTime.Props
import Verif.CpuInfo.Props
import Verif.StackSize.Props
import Verif.Thread.Props
import Verif.ScopedThread.Props
import Verif.ScopedThread.Last
import Verif.ThreadGroup.Props
import Verif.ThreadExit.Props
import Verif.SyncValue.Props
import Verif.ThreadPool.Props
import Verif.ThreadPool.Last
import Verif.SerialExecutor.Props
import Verif.SerialExecutor.Last
import Verif.LoopExecutor.Props
import Verif.LoopExecutor.Last
import Verif.PackagedTask.Props
import Verif.Continuation.Props
import Verif.WaitAny.Props
import Verif.WhenAll.NonBlocking
import Verif.V2Mutex.Props
import Verif.WinSharedMutex.Props
import Verif.Scheduler.Props
import Verif.WinOnce.Props
import Verif.WinCondVar.Props
import Verif.Sleep.Props
import Verif.Unwrap.Props
import Verif.Async.Races
import Verif.SerialCont.Props
import Verif.SerialCont.Last
import Verif.AtExit.Props
import Verif.WinThread.Props
import Verif.TaskRegion.Props
import Verif.ThreadExec.Props
import Verif.InlineExec.Props
import Verif.DevQueue.Props
import Verif.Guards.Props
import Verif.WaitCallback.Props
import Verif.Testable.Props
import Verif.TickCount.Props
import Verif.SharedFair.Props
import Verif.V2Fair.Props
import Verif.FutureHandle.Props
import Verif.TimedLock.Props
import Verif.TimedLock.ManyProps
import Verif.Lifetime.Props
import Verif.StateLife.Props
import Verif.CondLife.Props
import Verif.WinMutexLife.Props
import Verif.Deferred.Props
import Verif.WinSharedFair.Props
import Verif.TimedJoin.Props
import Verif.Xtime.Props
import Verif.Stream.Props
import Verif.MutexLife.Props
import Verif.Work.Props
import Verif.ThreadId.Props
import Verif.ForeignExit.Props
import Verif.Helping.Props
/-! Prints the axioms every property theorem of MANIFEST.json depends on. Expected: only `propext`,
`Classical.choice` and `Quot.sound`. -/

#print axioms Verif.TimedMutex.mutual_exclusion
#print axioms Verif.TimedMutex.call_returns
#print axioms Verif.TimedMutex.no_lost_wakeup
#print axioms Verif.RecursiveMutex.ownership_and_depth_partial
#print axioms Verif.RecursiveMutex.depth_overflow
#print axioms Verif.RecursiveMutex.no_lost_wakeup
#print axioms Verif.RecursiveMutex.call_returns
#print axioms Verif.TimedMutex.timed_lock_true_holds_partial
#print axioms Verif.TimedMutex.timed_lock_special_not_held
#print axioms Verif.TimedMutex.timed_lock_neg_infinity_not_held
#print axioms Verif.RecursiveMutex.timed_lock_true_holds_partial
#print axioms Verif.RecursiveMutex.timed_lock_special_not_held
#print axioms Verif.SharedMutex.exclusion_partial
#print axioms Verif.SharedMutex.accepted_exclusive
#print axioms Verif.SharedMutex.counter_exact_partial
#print axioms Verif.SharedMutex.two_writers
#print axioms Verif.SharedMutex.call_returns
#print axioms Verif.SharedMutex.upgrade_owner_not_overtaken_partial
#print axioms Verif.SharedMutex.upgrade_overtaken
#print axioms Verif.SharedMutex.no_lost_wakeup_partial
#print axioms Verif.SharedMutex.shared_wait_reason_partial
#print axioms Verif.SharedMutex.lost_wakeup_upgrade
#print axioms Verif.SharedMutex.lost_wakeup_shared_to_exclusive
#print axioms Verif.SharedMutex.lost_wakeup_shared_to_upgrade
#print axioms Verif.WinMutex.mutual_exclusion
#print axioms Verif.WinMutex.handover
#print axioms Verif.WinMutex.call_returns
#print axioms Verif.WinMutex.markExpr_pack
#print axioms Verif.WinMutex.guessExpr_pack
#print axioms Verif.WinMutex.clearExpr_pack
#print axioms Verif.WinMutex.unlockExpr_pack
#print axioms Verif.WinMutex.mustSignal_pack
#print axioms Verif.WinMutex.giveUp_pack
#print axioms Verif.WinMutex.pack_inj
#print axioms Verif.WinRecursiveMutex.ownership_and_depth_partial
#print axioms Verif.WinRecursiveMutex.relock_succeeds
#print axioms Verif.WinRecursiveMutex.call_returns
#print axioms Verif.SyncQueue.sync_queue_is_fifo
#print axioms Verif.DevQueue.conforms_partial
#print axioms Verif.DevQueue.elements_are_lost
#print axioms Verif.SyncQueue.push_after_close
#print axioms Verif.SyncQueue.call_returns
#print axioms Verif.SyncQueue.close_releases_everybody
#print axioms Verif.SyncQueue.elements_survive_close
#print axioms Verif.DevQueue.push_iff_open
#print axioms Verif.DevQueue.close_releases_everybody
#print axioms Verif.DevQueue.elements_survive_close
#print axioms Verif.SyncQueue.no_sleeper_when_nonempty
#print axioms Verif.SyncQueue.priority_no_sleeper_when_nonempty
#print axioms Verif.SyncQueue.blocked_consumer_gets_element
#print axioms Verif.DevQueue.no_sleeper_when_nonempty
#print axioms Verif.DevQueue.blocked_consumer_gets_element
#print axioms Verif.BoundedQueue.bounded_fifo_partial
#print axioms Verif.BoundedQueue.never_over_capacity
#print axioms Verif.BoundedQueue.size_is_wrong
#print axioms Verif.BoundedQueue.wait_push_back_throws
#print axioms Verif.BoundedQueue.consumer_served_partial
#print axioms Verif.BoundedQueue.producer_served_partial
#print axioms Verif.BoundedQueue.close_releases_everybody
#print axioms Verif.BoundedQueue.lost_wakeup_interrupt
#print axioms Verif.SyncQueue.sync_priority_queue_is_ordered
#print axioms Verif.TimedQueue.never_early
#print axioms Verif.TimedQueue.never_early_any_clock_partial
#print axioms Verif.TimedQueue.due_is_delivered
#print axioms Verif.TimedQueue.sleeper_wakes_in_time
#print axioms Verif.TimedQueue.close_wakes_everybody
#print axioms Verif.TimedQueue.backward_clock
#print axioms Verif.Once.call_once_exactly_once
#print axioms Verif.Once.call_once_completes_at_most_once
#print axioms Verif.Once.call_once_caller_gets_in
#print axioms Verif.Once.recursive_call_never_returns
#print axioms Verif.OnceEpoch.epoch_call_once_exactly_once
#print axioms Verif.OnceEpoch.epoch_call_once_completes_at_most_once
#print axioms Verif.OnceEpoch.epoch_call_once_caller_gets_in
#print axioms Verif.OnceEpoch.epoch_runs_out_hangs
#print axioms Verif.OnceEpoch.epoch_runs_out_runs_twice
#print axioms Verif.Barrier.barrier_generations
#print axioms Verif.Barrier.one_true_per_generation
#print axioms Verif.Barrier.complete_generation_is_released_partial
#print axioms Verif.Barrier.zero_count_rejected
#print axioms Verif.Barrier.straggler_misses_generation
#print axioms Verif.Barrier.size_is_kept
#print axioms Verif.Barrier.size_from_function
#print axioms Verif.Barrier.throwing_completion_strands_waiters
#print axioms Verif.Barrier.stuck_after_throw
#print axioms Verif.Latch.latch_correct_partial
#print axioms Verif.Latch.call_returns
#print axioms Verif.Latch.count_down_and_wait_returns
#print axioms Verif.Latch.passes_only_after_count
#print axioms Verif.Latch.released_passes_partial
#print axioms Verif.Latch.wait_at_zero_passes
#print axioms Verif.Latch.reset_to_zero_strands_waiter
#print axioms Verif.Latch.reset_to_zero_times_out
#print axioms Verif.CompletionLatch.completion_latch_partial
#print axioms Verif.CompletionLatch.completion_once_per_cycle_partial
#print axioms Verif.CompletionLatch.registered_waiter_released_partial
#print axioms Verif.CompletionLatch.completion_runs_partial
#print axioms Verif.CompletionLatch.no_wait_ever_fails
#print axioms Verif.CompletionLatch.try_wait_blocks
#print axioms Verif.CompletionLatch.late_waiter_blocks
#print axioms Verif.CompletionLatch.no_waiter_no_completion
#print axioms Verif.CompletionLatch.count_down_and_wait_alone_blocks
#print axioms Verif.CompletionLatch.interrupted_waiter_blocks_arrival
#print axioms Verif.LockAlg.lock_all_or_nothing
#print axioms Verif.LockAlg.range_lock_all_or_nothing
#print axioms Verif.LockAlg.never_holds_while_blocking
#print axioms Verif.LockAlg.no_deadlock
#print axioms Verif.LockAlg.histories_are_faithful
#print axioms Verif.LockAlg.retry_starts_with_failed
#print axioms Verif.LockAlg.unique_locks
#print axioms Verif.LockAlg.unique_lock_of
#print axioms Verif.LockAlg.try_lock_reports_first_failure
#print axioms Verif.LockAlg.range_try_lock_reports_first_failure
#print axioms Verif.LockObj.no_double_release
#print axioms Verif.LockObj.conversions_exist
#print axioms Verif.LockObj.owns_lock_is_exact
#print axioms Verif.LockObj.nothing_left_locked
#print axioms Verif.LockObj.misuse_raises_lock_error
#print axioms Verif.LockObj.lock_and_unlock
#print axioms Verif.LockObj.move_transfers
#print axioms Verif.LockObj.assign_transfers
#print axioms Verif.LockObj.swap_exchanges
#print axioms Verif.LockObj.release_hands_out
#print axioms Verif.LockObj.destroy_releases
#print axioms Verif.LockObj.failed_conversion_keeps_source
#print axioms Verif.LockObj.conversion_transfers
#print axioms Verif.LockObj.upgrade_to_unique_round_trip
#print axioms Verif.CondVar.history_conforms
#print axioms Verif.CondVar.history_state
#print axioms Verif.CondVar.notify_all_wakes
#print axioms Verif.CondVar.notify_one_wakes
#print axioms Verif.CondVar.woken_returns
#print axioms Verif.CondVar.no_internal_deadlock
#print axioms Verif.CondVar.notification_consumed_by_interrupted_thread
#print axioms Verif.TimedWait.timed_waits_conform_partial
#print axioms Verif.TimedWait.timed_waits_conform_if_no_failure
#print axioms Verif.TimedWait.woken_with_true_returns
#print axioms Verif.TimedWait.expired_returns
#print axioms Verif.TimedWait.user_clock_is_polled
#print axioms Verif.TimedWait.wait_until_in_the_past_throws
#print axioms Verif.TimedWait.wait_for_max_overflows
#print axioms Verif.TimedWait.timed_wait_neg_infinity_reports_no_timeout
#print axioms Verif.TimedWait.windows_never_throws
#print axioms Verif.TimedWait.windows_past_times_out
#print axioms Verif.CondVar.interrupted_only_if_due
#print axioms Verif.CondVar.not_passed_if_due
#print axioms Verif.CondVar.at_most_one_per_request
#print axioms Verif.CondVar.interrupt_wakes
#print axioms Verif.Future.plain_history_partial
#print axioms Verif.Future.every_history_partial
#print axioms Verif.Future.spec_outcome_stable
#print axioms Verif.Future.deferred_twice_fails
#print axioms Verif.Future.exception_changes_fails
#print axioms Verif.Future.value_after_deferred_exception_fails
#print axioms Verif.Future.notify_without_outcome
#print axioms Verif.Future.at_thread_exit_lazy_fails
#print axioms Verif.Future.moved_from_set_value
#print axioms Verif.Future.shared_get_or_fails
#print axioms Verif.Future.interrupted_get_fails
#print axioms Verif.Future.unshared_get_moves
#print axioms Verif.Future.ready_waiter_returns
#print axioms Verif.Future.ended_thread_publishes
#print axioms Verif.Future.nobody_waits_for_a_dead_promise_partial
#print axioms Verif.Future.assigned_promise_fails
#print axioms Verif.Future.deferred_then_destroyed_fails
#print axioms Verif.Future.at_thread_exit_needs_release_fails
#print axioms Verif.Future.at_thread_exit_foreign_thread_fails
#print axioms Verif.PlatformTime.roundtrip
#print axioms Verif.PlatformTime.roundtrip_timespec
#print axioms Verif.PlatformTime.roundtrip32_partial
#print axioms Verif.PlatformTime.roundtrip32_fails
#print axioms Verif.PlatformTime.normalised_iff
#print axioms Verif.PlatformTime.normalised_partial
#print axioms Verif.PlatformTime.negative_not_normalised
#print axioms Verif.PlatformTime.ofPosixTime_exact
#print axioms Verif.PlatformTime.ceilNs_least
#print axioms Verif.PlatformTime.ofChrono_least
#print axioms Verif.PlatformTime.getMs_partial
#print axioms Verif.PlatformTime.getMs_overflow
#print axioms Verif.PlatformTime.platformMilliseconds_exact
#print axioms Verif.PlatformTime.platformMilliseconds_overflow
#print axioms Verif.PlatformTime.platformMilliseconds_32
#print axioms Verif.PlatformTime.plus_exact
#print axioms Verif.PlatformTime.minus_exact
#print axioms Verif.PlatformTime.plus_comm
#print axioms Verif.PlatformTime.plus_minus
#print axioms Verif.PlatformTime.lt_exact
#print axioms Verif.PlatformTime.plus_mono
#print axioms Verif.PlatformTime.convert_mono
#print axioms Verif.PlatformTime.getMax_overflow
#print axioms Verif.CpuInfo.trim_exact
#print axioms Verif.CpuInfo.toUnsigned_partial
#print axioms Verif.CpuInfo.toUnsigned_le
#print axioms Verif.CpuInfo.nul_accepted
#print axioms Verif.CpuInfo.nul_alone_accepted
#print axioms Verif.CpuInfo.counts_listing
#print axioms Verif.CpuInfo.counts_pairs
#print axioms Verif.CpuInfo.malformed_falls_back
#print axioms Verif.CpuInfo.nothing_listed
#print axioms Verif.CpuInfo.lines_exact
#print axioms Verif.CpuInfo.order_matters_fails
#print axioms Verif.StackSize.smallest_multiple_partial
#print axioms Verif.StackSize.zero_ignored
#print axioms Verif.StackSize.overflow_fails
#print axioms Verif.Thread.history_conforms
#print axioms Verif.Thread.terminates_exactly
#print axioms Verif.Thread.terminate_is_last
#print axioms Verif.Thread.join_after_completion
#print axioms Verif.Thread.released_once
#print axioms Verif.Thread.completion_seen_once_partial
#print axioms Verif.Thread.join_ends
#print axioms Verif.Thread.both_see_completion
#print axioms Verif.Thread.self_move_detaches
#print axioms Verif.ScopedThread.history_conforms
#print axioms Verif.ScopedThread.terminate_is_last
#print axioms Verif.ScopedThread.released_at_most_once
#print axioms Verif.ScopedThread.never_lost
#print axioms Verif.ScopedThread.action_exactly_once
#print axioms Verif.ScopedThread.self_assignment_applies_action
#print axioms Verif.ScopedThread.self_join_terminates
#print axioms Verif.ThreadGroup.history_conforms_partial
#print axioms Verif.ThreadGroup.membership_of_empty_objects
#print axioms Verif.ThreadGroup.double_delete_unchecked
#print axioms Verif.ThreadGroup.double_delete_race
#print axioms Verif.ThreadGroup.checked_add_keeps_members_distinct
#print axioms Verif.ThreadGroup.join_all_deadlocks_with_a_member
#print axioms Verif.ThreadExit.history_conforms_partial
#print axioms Verif.ThreadExit.tear_down_terminates
#print axioms Verif.ThreadExit.own_slot_reset_cleans_twice
#print axioms Verif.ThreadExit.own_slot_release_undefined
#print axioms Verif.SyncValue.history_conforms
#print axioms Verif.SyncValue.operations_can_return_partial
#print axioms Verif.SyncValue.self_compare_never_returns
#print axioms Verif.SyncValue.legacy_synchronize3_not_exclusive
#print axioms Verif.ThreadPool.history_conforms_partial
#print axioms Verif.ThreadPool.terminate_is_last
#print axioms Verif.ThreadPool.calls_return
#print axioms Verif.ThreadPool.single_worker_keeps_order
#print axioms Verif.ThreadPool.two_workers_change_order
#print axioms Verif.ThreadPool.accepted_closures_complete
#print axioms Verif.ThreadPool.join_can_return
#print axioms Verif.ThreadPool.destructor_drops_closures
#print axioms Verif.ThreadPool.destructor_drops_closures_behind_an_interrupted_one
#print axioms Verif.ThreadPool.constructor_failure_terminates
#print axioms Verif.SerialExecutor.history_conforms
#print axioms Verif.SerialExecutor.terminate_is_last
#print axioms Verif.SerialExecutor.serial_and_in_order
#print axioms Verif.SerialExecutor.accepted_closures_complete
#print axioms Verif.SerialExecutor.destructor_can_return
#print axioms Verif.SerialExecutor.helping_overlaps_and_reorders
#print axioms Verif.SerialExecutor.rescheduling_on_one_thread_deadlocks
#print axioms Verif.SerialExecutor.closed_underlying_executor_terminates
#print axioms Verif.LoopExecutor.history_conforms_partial
#print axioms Verif.LoopExecutor.terminate_is_last
#print axioms Verif.LoopExecutor.each_closure_at_most_once
#print axioms Verif.LoopExecutor.run_queued_closures_runs_exactly_the_queue
#print axioms Verif.LoopExecutor.loop_runs_everything_in_order
#print axioms Verif.LoopExecutor.loop_gets_through_the_queue
#print axioms Verif.LoopExecutor.destructor_drops_closures
#print axioms Verif.LoopExecutor.throwing_closure_loses_the_rest
#print axioms Verif.LoopExecutor.user_scheduler_run_queued_drops_closures
#print axioms Verif.LoopExecutor.user_scheduler_run_queued_undefined
#print axioms Verif.LoopExecutor.user_scheduler_hides_exceptions
#print axioms Verif.LoopExecutor.user_scheduler_loop_leaves_closures
#print axioms Verif.LoopExecutor.two_loops_change_the_order
#print axioms Verif.LoopExecutor.run_queued_closures_breaks_the_executor
#print axioms Verif.LoopExecutor.closures_are_lost
#print axioms Verif.PackagedTask.history_conforms_partial
#print axioms Verif.PackagedTask.invoked_at_most_once
#print axioms Verif.PackagedTask.get_delivers_the_outcome_of_the_run
#print axioms Verif.PackagedTask.get_returns
#print axioms Verif.PackagedTask.destroyed_task_breaks_the_promise
#print axioms Verif.PackagedTask.outcomes_are_published_after_the_end_of_the_thread
#print axioms Verif.PackagedTask.reset_leaves_the_state_ready
#print axioms Verif.PackagedTask.reset_keeps_the_exception
#print axioms Verif.PackagedTask.reset_does_not_separate_futures
#print axioms Verif.PackagedTask.destruction_after_reset_breaks_a_kept_promise
#print axioms Verif.PackagedTask.reset_does_not_allow_at_thread_exit
#print axioms Verif.PackagedTask.foreign_thread_never_publishes
#print axioms Verif.Continuation.history_conforms
#print axioms Verif.Continuation.history_conforms_strict
#print axioms Verif.Continuation.called_at_most_once
#print axioms Verif.Continuation.called_after_readiness
#print axioms Verif.Continuation.called_exactly_once
#print axioms Verif.Continuation.launching_goes_on
#print axioms Verif.Continuation.waits_agree
#print axioms Verif.Continuation.wait_returns_the_result
#print axioms Verif.Continuation.resolve_explicit
#print axioms Verif.Continuation.resolve_inherit
#print axioms Verif.Continuation.resolve_default
#print axioms Verif.Continuation.not_then_on_deferred
#print axioms Verif.Continuation.not_all_called
#print axioms Verif.Continuation.not_one_outcome
#print axioms Verif.Continuation.deferred_called_in_a_wait
#print axioms Verif.Continuation.deferred_called_at_most_once
#print axioms Verif.Continuation.wait_returns_after_readiness
#print axioms Verif.Continuation.wait_on_ready_returns
#print axioms Verif.Continuation.wait_calls_the_deferred_function
#print axioms Verif.Continuation.is_ready_blocks
#print axioms Verif.WaitAny.history_conforms
#print axioms Verif.WaitAny.history_conforms_partial
#print axioms Verif.WaitAny.returns_position_of_ready
#print axioms Verif.WaitAny.own_steps_bounded
#print axioms Verif.WaitAny.returns_if_ready_partial
#print axioms Verif.WaitAny.interruption_ends_call_partial
#print axioms Verif.WaitAny.nothing_left_behind
#print axioms Verif.WaitAny.not_position_in_range
#print axioms Verif.WaitAny.not_opposite_orders
#print axioms Verif.WaitAny.not_duplicates
#print axioms Verif.WaitAny.only_invalid_never_returns
#print axioms Verif.WhenAll.history_conforms
#print axioms Verif.WhenAll.all_ready
#print axioms Verif.WhenAll.any_ready
#print axioms Verif.WhenAll.exception_only_if_invalid
#print axioms Verif.WhenAll.crash_only_if_invalid
#print axioms Verif.WhenAll.ready_at_most_once
#print axioms Verif.WhenAll.executed_at_most_once
#print axioms Verif.WhenAll.not_executed_after_readiness
#print axioms Verif.WhenAll.goes_on_or_waits
#print axioms Verif.WhenAll.steps_bounded
#print axioms Verif.WhenAll.ready_when_all_inputs_are
#print axioms Verif.WhenAll.any_ready_when_one_is_partial
#print axioms Verif.WhenAll.empty_is_ready
#print axioms Verif.WhenAll.calls_do_not_wait
#print axioms Verif.WhenAll.any_blocks_in_a_deferred_input
#print axioms Verif.WhenAll.invalid_input_crashes
#print axioms Verif.WhenAll.invalid_input_excepts
#print axioms Verif.WhenAll.call_may_throw
#print axioms Verif.V2Mutex.history_conforms
#print axioms Verif.V2Mutex.call_returns
#print axioms Verif.V2Mutex.exclusion
#print axioms Verif.V2Mutex.counters_exact_partial
#print axioms Verif.V2Mutex.counter_bounds
#print axioms Verif.V2Mutex.undisturbed
#print axioms Verif.V2Mutex.no_abort_partial
#print axioms Verif.V2Mutex.try_exact_partial
#print axioms Verif.V2Mutex.phantom_readers
#print axioms Verif.V2Mutex.interrupted_writer_stays
#print axioms Verif.V2Mutex.interrupted_conversion_aborts
#print axioms Verif.V2Mutex.Word.ready_word
#print axioms Verif.V2Mutex.Word.pass1_word
#print axioms Verif.V2Mutex.Word.fail2_word
#print axioms Verif.V2Mutex.Word.tryReady_word
#print axioms Verif.V2Mutex.Word.try_word
#print axioms Verif.V2Mutex.Word.down_word
#print axioms Verif.V2Mutex.no_lost_wakeup_partial
#print axioms Verif.V2Mutex.quiescent_partial
#print axioms Verif.V2Mutex.lost_wakeup
#print axioms Verif.V2Mutex.lost_wakeup_forever
#print axioms Verif.V2Mutex.full_lost_wakeup
#print axioms Verif.WinSharedMutex.history_conforms
#print axioms Verif.WinSharedMutex.call_returns
#print axioms Verif.WinSharedMutex.exclusion
#print axioms Verif.WinSharedMutex.grants
#print axioms Verif.WinSharedMutex.fields_exact
#print axioms Verif.WinSharedMutex.error_exhausted
#print axioms Verif.WinSharedMutex.free_wakes
#print axioms Verif.WinSharedMutex.conversion_wakes
#print axioms Verif.WinSharedMutex.lost_wakeup
#print axioms Verif.WinSharedMutex.stolen_wakeup
#print axioms Verif.WinSharedMutex.error_with_three_threads
#print axioms Verif.Scheduler.history_conforms
#print axioms Verif.Scheduler.history_conforms_any_clock_partial
#print axioms Verif.Scheduler.never_early
#print axioms Verif.Scheduler.starts_at_most_once
#print axioms Verif.Scheduler.due_work_starts
#print axioms Verif.Scheduler.destructor_returns
#print axioms Verif.Scheduler.handed_only_if_submitted
#print axioms Verif.Scheduler.no_worker_no_start
#print axioms Verif.Scheduler.drops_what_is_not_due
#print axioms Verif.Scheduler.drops_what_is_due
#print axioms Verif.Scheduler.closed_executor_terminates
#print axioms Verif.Scheduler.worker_lost
#print axioms Verif.WinOnce.history_conforms
#print axioms Verif.WinOnce.completes_at_most_once
#print axioms Verif.WinOnce.caller_gets_in
#print axioms Verif.WinOnce.caller_returns
#print axioms Verif.WinCondVar.history_conforms
#print axioms Verif.WinCondVar.history_meant
#print axioms Verif.WinCondVar.notify_one_wakes_partial
#print axioms Verif.WinCondVar.notify_all_wakes
#print axioms Verif.WinCondVar.unposted_all_wake_partial
#print axioms Verif.WinCondVar.wakes_le_notifies
#print axioms Verif.WinCondVar.stolen_wakeup
#print axioms Verif.WinCondVar.notify_all_misses
#print axioms Verif.WinCondVar.one_notify_wakes_two
#print axioms Verif.WinCondVar.timeouts_overflow
#print axioms Verif.Sleep.sleeps_conform_partial
#print axioms Verif.Sleep.sleeps_conform_without_signals
#print axioms Verif.Sleep.quiet_sleep_ends
#print axioms Verif.Sleep.signal_cuts_sleep
#print axioms Verif.Sleep.signal_cuts_sleep_until
#print axioms Verif.Sleep.sleep_for_max_overflows
#print axioms Verif.Unwrap.get_delivers_meaning
#print axioms Verif.Unwrap.ready_has_meaning
#print axioms Verif.Unwrap.meaning_unique
#print axioms Verif.Unwrap.waiter_returns
#print axioms Verif.Unwrap.unwrapped_delivers_partial
#print axioms Verif.Unwrap.launching_ends
#print axioms Verif.Unwrap.is_ready_exact
#print axioms Verif.Unwrap.deferred_inner_never_runs
#print axioms Verif.Unwrap.deferred_outer_never_runs
#print axioms Verif.Unwrap.own_future_unresolved
#print axioms Verif.Async.async_contract
#print axioms Verif.Async.get_returns_result
#print axioms Verif.Async.function_called_once
#print axioms Verif.Async.get_returns
#print axioms Verif.Async.state_destroyed
#print axioms Verif.Async.release_returns_alone
#print axioms Verif.Async.no_race
#print axioms Verif.Async.wait_joins_blocking
#print axioms Verif.Async.failed_start_throws
#print axioms Verif.Async.failed_start_hangs
#print axioms Verif.Async.last_release_does_not_wait
#print axioms Verif.Async.get_does_not_join
#print axioms Verif.Async.wait_does_not_join
#print axioms Verif.Async.concurrent_waits_race
#print axioms Verif.Async.race_iff_two_waits
#print axioms Verif.Async.discarded_task_never_ready
#print axioms Verif.SerialCont.serial_order
#print axioms Verif.SerialCont.terminate_is_last
#print axioms Verif.SerialCont.history_conforms_partial
#print axioms Verif.SerialCont.accepted_closures_complete
#print axioms Verif.SerialCont.destructor_does_not_wait
#print axioms Verif.SerialCont.use_after_destructor
#print axioms Verif.SerialCont.nothing_starts_after_failure
#print axioms Verif.SerialCont.accepted_closure_lost
#print axioms Verif.SerialCont.failed_submit_poisons
#print axioms Verif.SerialCont.inline_call_deadlocks
#print axioms Verif.AtExit.effects_in_order
#print axioms Verif.AtExit.effects_after_finish
#print axioms Verif.AtExit.carried_out_partial
#print axioms Verif.AtExit.reference_withholds_effects
#print axioms Verif.AtExit.external_never
#print axioms Verif.AtExit.destructor_completes
#print axioms Verif.AtExit.detached_thread_completes
#print axioms Verif.AtExit.mutex_stays_locked_partial
#print axioms Verif.AtExit.promise_result_partial
#print axioms Verif.AtExit.object_delays_effects
#print axioms Verif.AtExit.unlocked_by_another_thread
#print axioms Verif.AtExit.reference_delays_effects
#print axioms Verif.AtExit.external_mutex_lost
#print axioms Verif.AtExit.external_mutex_never_free
#print axioms Verif.AtExit.external_unlocked_at_once
#print axioms Verif.AtExit.external_result_lost
#print axioms Verif.AtExit.second_result_replaces_first
#print axioms Verif.AtExit.set_value_overrides
#print axioms Verif.AtExit.ready_result_changes
#print axioms Verif.AtExit.value_ignored
#print axioms Verif.WinThread.conforms
#print axioms Verif.WinThread.interruption_delivered
#print axioms Verif.WinThread.join_returns
#print axioms Verif.WinThread.timed_call_ends_partial
#print axioms Verif.WinThread.external_never_interrupted
#print axioms Verif.WinThread.sleep_forever
#print axioms Verif.WinThread.nested_restore
#print axioms Verif.WinThread.restore_keeps_on
#print axioms Verif.WinThread.past_sleep_is_no_point
#print axioms Verif.WinThread.past_steady_sleep_is_point
#print axioms Verif.TaskRegion.conforms_partial
#print axioms Verif.TaskRegion.closed_exactly
#print axioms Verif.TaskRegion.regions_end
#print axioms Verif.TaskRegion.regions_end_pool
#print axioms Verif.TaskRegion.nested_starvation
#print axioms Verif.TaskRegion.reported_thrice
#print axioms Verif.TaskRegion.left_behind
#print axioms Verif.TaskRegion.left_behind_memory
#print axioms Verif.TaskRegion.cancellation_is_silent
#print axioms Verif.ThreadExec.conforms_partial
#print axioms Verif.ThreadExec.destructor_ends
#print axioms Verif.ThreadExec.begins_at_once
#print axioms Verif.ThreadExec.throwing_is_the_end
#print axioms Verif.ThreadExec.submit_during_destruction
#print axioms Verif.ThreadExec.destroyed_while_locked
#print axioms Verif.InlineExec.conforms
#print axioms Verif.InlineExec.call_returns
#print axioms Verif.DevQueue.no_undefined_behaviour
#print axioms Verif.DevQueue.broken_by_underlying_queue
#print axioms Verif.DevQueue.storage_grows
#print axioms Verif.Guards.conforms_partial
#print axioms Verif.Guards.mutual_exclusion
#print axioms Verif.Guards.exclusive_access
#print axioms Verif.Guards.scopes_end
#print axioms Verif.Guards.waits_only_for_holders
#print axioms Verif.Guards.reverse_lock_of_shared_lock
#print axioms Verif.Guards.shared_lock_gives_access
#print axioms Verif.Guards.unchecked_access
#print axioms Verif.Guards.left_locked
#print axioms Verif.WaitCallback.conforms_partial
#print axioms Verif.WaitCallback.callback_runs_unlocked
#print axioms Verif.WaitCallback.one_holder
#print axioms Verif.WaitCallback.ready_call_returns
#print axioms Verif.WaitCallback.promise_can_be_set
#print axioms Verif.WaitCallback.lazy_get
#print axioms Verif.WaitCallback.moved_promise
#print axioms Verif.WaitCallback.destroyed_promise
#print axioms Verif.WaitCallback.second_waiter
#print axioms Verif.Testable.conforms_partial
#print axioms Verif.Testable.lock_returns
#print axioms Verif.Testable.unlock_returns
#print axioms Verif.Testable.recursive_forgets
#print axioms Verif.Testable.recursive_aborts
#print axioms Verif.Testable.is_locked_lags
#print axioms Verif.TickCount.conforms_partial
#print axioms Verif.TickCount.monotone_partial
#print axioms Verif.TickCount.call_returns
#print axioms Verif.TickCount.first_calls_race
#print axioms Verif.TickCount.missed_wrap
#print axioms Verif.SharedFair.conforms_partial
#print axioms Verif.SharedFair.starved_by_timeout
#print axioms Verif.SharedFair.starved_by_downgrade
#print axioms Verif.V2Fair.conforms_partial
#print axioms Verif.V2Fair.starved_by_timeout
#print axioms Verif.V2Fair.passed_behind_upgrader
#print axioms Verif.FutureHandle.conforms_partial
#print axioms Verif.FutureHandle.returns_when_ready
#print axioms Verif.FutureHandle.get_or_throws
#print axioms Verif.FutureHandle.shared_after_get
#print axioms Verif.FutureHandle.taken_from_copies
#print axioms Verif.FutureHandle.interrupted_get
#print axioms Verif.FutureHandle.null_exception
#print axioms Verif.FutureHandle.make_ready
#print axioms Verif.FutureHandle.make_exceptional
#print axioms Verif.FutureHandle.make_shared
#print axioms Verif.FutureHandle.make_shared_future_void
#print axioms Verif.TimedLock.timed_locks_conform_partial
#print axioms Verif.TimedLock.timed_locks_conform_if_no_failure
#print axioms Verif.TimedLock.woken_while_free_locks
#print axioms Verif.TimedLock.returns_when_time_has_come
#print axioms Verif.TimedLock.sleeps_until_the_time
#print axioms Verif.TimedLock.clock_is_polled
#print axioms Verif.TimedLock.windows_clock_is_polled
#print axioms Verif.TimedLock.windows_sleeps_until_the_time
#print axioms Verif.TimedLock.free_mutex_is_locked
#print axioms Verif.TimedLock.windows_never_aborts
#print axioms Verif.TimedLock.past_time_hangs
#print axioms Verif.TimedLock.hang_is_for_ever
#print axioms Verif.TimedLock.past_time_aborts
#print axioms Verif.TimedLock.windows_past_time_returns
#print axioms Verif.TimedLock.lock_for_max_overflows
#print axioms Verif.TimedLock.windows_waits_for_ever
#print axioms Verif.TimedLock.many_threads_conform_partial
#print axioms Verif.TimedLock.many_threads_conform_if_no_failure
#print axioms Verif.TimedLock.returns_among_others
#print axioms Verif.TimedLock.woken_among_others
#print axioms Verif.TimedLock.stuck_for_everybody
#print axioms Verif.TimedLock.past_time_stops_everybody
#print axioms Verif.Lifetime.lives_rightly
#print axioms Verif.Lifetime.never_stale
#print axioms Verif.Lifetime.destroyed_once
#print axioms Verif.Lifetime.destroyed_unused
#print axioms Verif.Lifetime.called_once
#print axioms Verif.Lifetime.destroyed_when_unused
#print axioms Verif.Lifetime.gone_finished
#print axioms Verif.Lifetime.nothing_left
#print axioms Verif.Lifetime.windows_loses_nothing
#print axioms Verif.Lifetime.lost_after_rounds
#print axioms Verif.Lifetime.lost_for_ever
#print axioms Verif.Lifetime.data_may_be_lost
#print axioms Verif.StateLife.lives_rightly
#print axioms Verif.StateLife.never_stale
#print axioms Verif.StateLife.destroyed_once
#print axioms Verif.StateLife.destroyed_unneeded
#print axioms Verif.StateLife.called_once
#print axioms Verif.StateLife.called_even_if_dropped
#print axioms Verif.StateLife.nothing_left_partial
#print axioms Verif.StateLife.nothing_left
#print axioms Verif.StateLife.leak_is_for_ever
#print axioms Verif.StateLife.deferred_chain_leaks
#print axioms Verif.StateLife.discarded_chain_leaks
#print axioms Verif.StateLife.nothing_left_fails
#print axioms Verif.CondLife.plain_documented
#print axioms Verif.CondLife.any_strict_partial
#print axioms Verif.CondLife.posix_strict_partial
#print axioms Verif.CondLife.win_strict_partial
#print axioms Verif.CondLife.any_documented_fails
#print axioms Verif.CondLife.posix_documented_fails
#print axioms Verif.CondLife.posix_interrupt_fails
#print axioms Verif.CondLife.win_documented_fails
#print axioms Verif.WinMutexLife.conforms
#print axioms Verif.WinMutexLife.destroy_partial
#print axioms Verif.WinMutexLife.no_leak
#print axioms Verif.WinMutexLife.one_event
#print axioms Verif.WinMutexLife.same_event
#print axioms Verif.WinMutexLife.lax_fails
#print axioms Verif.Deferred.conforms
#print axioms Verif.Deferred.value_prompt
#print axioms Verif.Deferred.asked_prompt_partial
#print axioms Verif.Deferred.timed_prompt_partial
#print axioms Verif.Deferred.get_returns
#print axioms Verif.Deferred.reference_blocks
#print axioms Verif.Deferred.reference_deadlock
#print axioms Verif.WinSharedFair.conforms_partial
#print axioms Verif.WinSharedFair.passed_by_downgrade
#print axioms Verif.WinSharedFair.starved_by_timeout
#print axioms Verif.TimedJoin.timed_joins_conform_partial
#print axioms Verif.TimedJoin.timed_joins_conform_if_no_failure
#print axioms Verif.TimedJoin.ended_is_joined
#print axioms Verif.TimedJoin.woken_after_end
#print axioms Verif.TimedJoin.returns_when_time_has_come
#print axioms Verif.TimedJoin.sleeps_until_the_time
#print axioms Verif.TimedJoin.clock_is_polled
#print axioms Verif.TimedJoin.past_time_throws
#print axioms Verif.TimedJoin.windows_past_time_returns
#print axioms Verif.TimedJoin.windows_never_throws
#print axioms Verif.TimedJoin.join_for_max_overflows
#print axioms Verif.TimedJoin.held_up
#print axioms Verif.TimedJoin.timed_join_is_held_up
#print axioms Verif.Xtime.converts_to_nearest
#print axioms Verif.Xtime.conversion_is_monotone
#print axioms Verif.Xtime.from_system_time_is_exact
#print axioms Verif.Xtime.roundtrip_partial
#print axioms Verif.Xtime.roundtrip_xtime
#print axioms Verif.Xtime.before_1970_not_normalised
#print axioms Verif.Xtime.before_1970
#print axioms Verif.Xtime.wraps_in_2038
#print axioms Verif.Xtime.wraps_after_2038
#print axioms Verif.Xtime.cmp_orders
#print axioms Verif.Xtime.get_reads_clock
#print axioms Verif.Xtime.milliseconds_cover_partial
#print axioms Verif.Xtime.milliseconds_wrap
#print axioms Verif.Stream.conforms
#print axioms Verif.Stream.not_interleaved
#print axioms Verif.Stream.text_is_whole
#print axioms Verif.Stream.finishes
#print axioms Verif.Stream.nests
#print axioms Verif.Stream.needs_recursive
#print axioms Verif.MutexLife.conforms
#print axioms Verif.MutexLife.destruction_is_safe
#print axioms Verif.MutexLife.owner_is_alone
#print axioms Verif.MutexLife.must_be_seen
#print axioms Verif.MutexLife.readers_do_not_tell
#print axioms Verif.Work.conforms_smart
#print axioms Verif.Work.conforms_partial
#print axioms Verif.Work.destroyed_once
#print axioms Verif.Work.lives_exactly
#print axioms Verif.Work.self_move_loses
#print axioms Verif.Work.keep_during_call
#print axioms Verif.ThreadId.conforms
#print axioms Verif.ThreadId.conforms_partial
#print axioms Verif.ThreadId.id_reused
#print axioms Verif.ThreadId.self_join_refused
#print axioms Verif.ThreadId.join_other
#print axioms Verif.ThreadId.order_stable
#print axioms Verif.ThreadId.order_total
#print axioms Verif.ForeignExit.conforms_partial
#print axioms Verif.ForeignExit.callbacks_run
#print axioms Verif.ForeignExit.values_cleaned
#print axioms Verif.ForeignExit.rounds_bounded
#print axioms Verif.ForeignExit.last_round_lost
#print axioms Verif.ForeignExit.hidden_values
#print axioms Verif.Helping.conforms
#print axioms Verif.Helping.conforms_partial
#print axioms Verif.Helping.true_means_pred
#print axioms Verif.Helping.false_means_empty
#print axioms Verif.Helping.each_once
#print axioms Verif.Helping.throwing_closure_ends_the_program
#print axioms Verif.Helping.drains
#print axioms Verif.Helping.stops
#print axioms Verif.Helping.empty_queue_false
#print axioms Verif.Helping.user_scheduler_false_early
