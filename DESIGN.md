# A Lean 4 model of Boost.Thread

This directory holds a formal model of boostorg/thread (source in `/repo`), a list of
properties users rely on (`properties.jsonl`) and machine-checked proofs of them.
Nothing in `/repo` was built or run: the model was written by reading the code.

## How the model is built

Every concurrent component is an executable labelled transition system

    step : State → Label → Option State

`none` means "this label is not enabled here". A label names the thread that moves and resolves
every choice that the code leaves to the environment: which waiter `notify_one` wakes, a spurious
wake-up, a time-out, whether a user function throws, what the clock shows. A schedule is a list of
labels, and `run step s ls : Option State` executes it. A property "for every schedule" is
a theorem about every `ls` with `run step (init n) ls = some s`, where `n` is the (arbitrary) number
of threads. It is proved by an invariant and induction over the list. Because `step` is
computable, non-vacuity examples and counterexamples are concrete schedules that the kernel
evaluates (`by decide` / `rfl` on a closed term).

Sequential components (parsers, time arithmetic, lock objects, ring buffers, containers) are plain functions
or `step : State → Op → State × Out` machines.

Atomicity. A critical section on a `boost::mutex`/`pthread_mutex_t` that guards all accesses to its data is
one step. The unlock-and-sleep of a condition variable wait is one step. Re-acquiring the mutex after a
wake-up is a separate step, so that other threads can barge in between. Where the code uses bare
atomics (Windows mutexes, `once_flag`) each atomic operation is a step. `condition_variable` itself is
modelled at the finer grain (internal mutex, user lock, pthread condition), because its own
property is about the window between these.

Undefined behaviour. A call that breaks a documented precondition (unlocking a mutex one does not
own, dereferencing a null state, `front()` of an empty container) moves the model to a distinct
outcome: a `misuse` flag or a `ub` result. It is never silently excluded.

Wrong code. Where a property is false of the code, the model keeps the code's behaviour. The negation is
proved with a concrete schedule, and the part that does hold is proved with the
suffix `_partial` (or under an explicit hypothesis). See "Disagreements" below.

Layout: `lean/Verif/<Component>/Model.lean` (definitions with citations), `Lemmas.lean` (invariants and
helper lemmas), `Props.lean` (property theorems and the examples beside them). A small specification
vocabulary independent of the model is in `Spec.lean` or at the head of `Props.lean`.

## Trusted base

* Lean 4.33.0's kernel.
* Axioms: only `propext`, `Classical.choice` and `Quot.sound`. `lean/Verif/Audit.lean` prints them for
  each property theorem.
* The reading of the code: each definition cites the file and lines it models.
* POSIX/Win32 primitives behave as specified: `pthread_mutex_*`, `pthread_cond_*` (with spurious wake-ups and an arbitrary
  choice of the woken thread), Win32 events, semaphores and interlocked operations, C++ atomics (taken as sequentially consistent),
  `std::deque`/`priority_queue` containers.

Not modelled: memory allocation failure (except where named), the weak memory model, signals, fork,
the actual OS scheduler (a liveness property is stated as the absence of a stuck state, not with fairness),
templates' type-level machinery, exception-safety of user types beyond "throws / does not throw".

## Per-property plan

* **C01** timed_mutex mutual exclusion: LTS of the default (condition-variable) variant; invariant `is_locked ⇔ exactly one holder`.
* **C02** timed_mutex has no lost wake-up: Same LTS; invariant: free and someone asleep → someone awake.
* **C03** recursive_timed_mutex ownership and depth: LTS with owner and count; invariant ties count to the depth of the owner.
* **C04** A successful timed_lock means the mutex is held: Sequential decision function over special durations; expected false (special values return true without locking): negation + partial.
* **C05** Windows mutex: exclusion and hand-over: LTS at the grain of single atomic operations on the count word and the event.
* **C06** Windows recursive mutex: ownership and depth: Same with owner and depth.
* **C07** shared_mutex exclusion: LTS of every operation; counting invariant over the list of threads. Expected false with the timed shared→exclusive conversion: negation + theorem without it.
* **C08** shared_mutex: upgrading never lets another writer in: Same LTS; two-state property over any schedule segment.
* **C09** shared_mutex has no lost wake-up: Same LTS; invariants on sleeping/awake threads. Expected false for some timed conversions.
* **C10** v2 shared_mutex and upgrade_mutex exclusion: LTS of v2 mutexes. Expected false for failed timed conversions (stale reader count).
* **C11** v2 shared_mutex has no lost wake-up: Same LTS; expected false: negation + partial.
* **C12** Windows shared_mutex exclusion: LTS whose step is one compare-and-swap on the packed word.
* **C13** lock(a, b, ...) is all-or-nothing and never holds while blocking: The algorithms as interpreters against an arbitrary environment (oracle of outcomes); trace property.
* **C14** try_lock(a, b, ...) reports the first failure and holds nothing: Same.
* **C15** Lock objects track ownership exactly: Sequential machine over lock objects and mutexes with an acquisition ledger.
* **C16** condition_variable: no notification is missed: Fine-grained LTS of the wait/notify protocol.
* **C17** Timed predicate waits report the predicate and never time out early: The loop as a function of the environment's clock/wake-up/predicate stream.
* **C18** Interruption is delivered exactly once and only where allowed: LTS with flag, enabled state and blocked position.
* **C19** call_once runs the function to completion exactly once: LTS at atomic grain.
* **C20** call_once (epoch variant) runs the function exactly once: LTS with epoch counter and per-thread epoch.
* **C21** barrier: nobody passes before everybody arrived, exactly one is elected: LTS; ghost arrival counts per generation.
* **C22** barrier completion function runs once per generation: Same; expected false when the function throws: negation + partial.
* **C23** latch: waiters pass exactly when the count has reached zero: LTS.
* **C24** completion_latch: waiters, arrivals and the completion function: LTS; expected partly false.
* **C25** sync_queue is a linearizable FIFO queue: LTS with history; refinement to an abstract FIFO.
* **C26** Closing a sync_queue: Same LTS.
* **C27** sync_queue has no lost wake-up: Same LTS; counting invariant.
* **C28** sync_bounded_queue is a linearizable bounded FIFO queue: Ring buffer refinement; `size()` expected false after wrap-around.
* **C29** sync_bounded_queue: blocking, closing and wake-ups: LTS; counting invariants; wait_push status expected false.
* **C30** sync_priority_queue returns the greatest element: Sequential multiset/heap-order refinement (std::priority_queue by its contract).
* **C31** sync_timed_queue never delivers early: Sequential machine with clock readings.
* **C32** A promise is satisfied at most once and the outcome never changes: State machine of the shared state; expected false for the deferred variants.
* **C33** An abandoned promise breaks its futures: Machine with several promises and shared states; expected false for move assignment.
* **C34** packaged_task runs at most once and delivers that run's outcome: Machine; expected false around reset().
* **C35** Continuations run exactly once, after readiness: LTS of attach/complete.
* **C36** wait_for_any identifies a ready future: Index functions + LTS of lock acquisition; expected false for invalid futures and for opposite orders.
* **C37** when_all and when_any readiness: Machine over the input readiness vector.
* **C38** Deferred futures run their function exactly once in a waiter: LTS of waiters.
* **C39** thread: join returns after completion, exactly one of join and detach: LTS of thread and joiners.
* **C40** at_thread_exit callbacks and thread-specific data are cleaned up exactly once: Fuelled/relational teardown loop; trace properties.
* **C41** basic_thread_pool executes every accepted task exactly once: LTS of queue + workers; expected false with interruptible tasks in the destructor.
* **C42** serial_executor keeps submission order and never overlaps tasks: LTS of the executor's worker.
* **C43** loop_executor and user_scheduler run all queued closures: Sequential functions; user_scheduler expected false.
* **C44** synchronized_value operations are atomic and deadlock-free: Corollary of 13 + self-comparison; expected false.
* **C45** Time conversions are exact: Arithmetic on Int.
* **C46** Decimal parsing of processor information: Functions on List Char.
* **C47** physical_concurrency counts distinct cores: Function on List String.
* **C48** Thread stack size is rounded up to whole pages: Arithmetic on Nat.
* **C49** thread_group membership: Sequential machine.
* **C50** scoped_thread never loses a running thread: Sequential machine.
* **C51** Scheduled work: the model of `sync_timed_queue` (C31) is run inside a model of the worker loops, submissions, wrappers and destructors; simulation against a book of pending closures; progress by explicit schedules.
* **C52** `call_once` on Windows: LTS at the grain of one interlocked operation or system call, same specification as C19; progress by explicit schedules.
* **C53** Condition variables on Windows: LTS with the list of generations, the semaphores of the entries and every `wake_sem` ever made; counting invariants over threads, entries and tokens; progress by explicit schedules; counterexamples by `decide`.
* **C54** Sleeping: the model of the timed waits (C17) with a predicate that is always false, and the loops around `nanosleep`; simulation on top of that of C17.
* **C55** `unwrap`: any number of states and threads, nesting of any depth, each critical section one step; what a future stands for is an inductive relation over the history; invariant with the one place where each waiting state is, a decreasing measure for the calls in progress.
* **C56** `async`: any number of calls, threads and futures, the use count of each shared state explicit, one step per critical section; the places where references are form a counting invariant that determines the use count; contract as an automaton, waiting and joining as statements about the history; three configurations of the destructor.
* **C57** `serial_executor_cont`: the chain of futures as numbered states with their continuation lists, the underlying executor as an arbitrary environment (keeps, runs at once, throws), `mtx_` explicit; the invariant says that the chain is a queue with one front; order as a statement about the history, contract as an automaton, progress by an explicit schedule.
* **C58** The end of a thread: the data of each thread with its references (own, object, others) and lists of requests, the destructor executed action by action by whoever drops the last reference; invariant: effects done ++ effects left = effects asked for; two small automata for mutexes and promises by simulation; explicit schedules for completion.
* **C59** Windows joins, sleeps and interruption: every thread runs through the functions (look at the user's clock, add to the steady clock, make the timer or not, wait, reset the event); refinement to an automaton over calls, clock readings and scopes; explicit schedules for the ends of calls.
* **C60** task regions: every thread has a stack of calls of `task_region` and of tasks' functions; the executor is a queue with a limited or unlimited number of threads; refinement to an automaton over regions and tasks; completion by a measure that some step decreases as long as anything is unfinished (the youngest unfinished task can go on); starvation by an invariant.
* **C61** `thread_executor`: the mutex with its owner, a program counter per thread (clients and closures), the vector of threads and the destructor's steps (body, mutex, joins); refinement to an automaton over calls and closures; the destructor ends by draining the calls in progress and then the vector. `inline_executor`: a stack of closures per thread; refinement to an automaton with a stack of calls per thread; a call returns by its own steps and those of the owner of the mutex.
* **C62** the default container: `csbl::devector` function by function (a vector and the index of its front), with out-of-range reads as undefined behaviour; the monitor of C25 over it; refinement to a first-in first-out queue that also remembers whether an element has been pulled since it was last empty.
* **C63** scoped locks: every thread has a stack of scoped locks and some lock objects, mutexes are exclusive, recursive or shared; the specification does not count calls of `lock` and `unlock` but defines who holds what by the open scopes and the lock objects; the refinement relation says that the mutexes' owners are these; exclusion and exclusive access follow.
* **C64** wait callbacks: every thread has a stack of calls of `get` or timed waits, because callbacks may wait; the mutex of the shared state is modelled; the specification knows for each call which callbacks it may call and whether it has; the refinement relation ties the places of the code to that; the invariant who holds a mutex gives that it is always given back, hence the progress theorems.
* **C65** testable_mutex: the accesses to the mutex and to the identifier are separate steps; the specification knows the holder and who is in which call; the refinement relation says what the place of the mutex's owner means for the identifier.
* **C66** emulated GetTickCount64: load, GetTickCount(), store, compare_exchange and registration are separate steps of any number of threads and the refresh; ghost times say when each value was read and stored, and the invariant bounds the age of the stored value by P+2D.
* **C67** waiting writers: on top of the specification of C07 a list of the writers waiting since the mutex was last free; simulation on the SharedMutex model; starvation shown by a cycle of states.
* **C68** waiting writers, v2: on top of the specification of C10 a list of the requests that hold off others; simulation on the V2Mutex model, all of them are at the second gate; starvation shown by a cycle of states.
* **C69** futures as handles: specification with references, results and calls in progress; one simulation for `future` and `shared_future`, for objects, references and void; each disagreement shown by a run that the contract (`full = true`) rejects.
* **C70** timed locks: one thread that makes timed attempts, clocks and other threads as environment; then any number of such threads on one mutex (`Many`), each of them seeing the others as environment; specification with both clocks and the extreme values of the user's clock during the call; simulation for POSIX and Windows, recursive and not; progress of sleeping threads.
* **C71** life of thread data: specification with a list of references, the use the thread makes of the data and whether they are destroyed; model with counts, `self`, and the steps of constructor and thread; simulation by an invariant that says what the count is at each stage.
* **C72** life of the results of futures: specification with the futures, promises, phases of functions and which results are destroyed; model with the `shared_ptr`s in and to shared states; simulation by an invariant; what is left in a state in which nothing happens by itself is found by induction over the order of creation.
* **C73** destruction of condition variables: specification with two rules, the documented one and a stricter one; the models of C18 and of the Windows condition variable with destruction added, and a model without interruption; simulation.
* **C74** event and destruction of the Windows mutex: the model of C05 with `get_event` in two steps, numbered handles and the destructor; specification with owners, calls and open handles; simulation, and a refinement to the model of C05, which has one event from the start.
* **C75** queries of deferred futures: the sections of `wait_internal`, the queries and the timed waits on one shared state, the function as any number of calls on the same future followed by its end; specification with the phase of the function; simulation, and answers by own steps.
* **C76** waiting writers on Windows: the reading of C67 on top of the specification of the Windows shared mutex (C12), which the model refines; starvation shown by an invariant of states that a round of readers keeps.
* **C77** timed joins: one thread that joins, the thread that is joined, other joining threads, interruption and the clocks as environment; specification with both clocks, the end of the function and the end of the thread; simulation for POSIX and Windows; progress of sleeping joins.
* **C78** xtime: conversions as arithmetic on integers with the widths of the C++ types; nearest tick, monotonicity, exactness, round trips and order by linear arithmetic over all values.
* **C79** guarded streams: any number of threads, each with a stack of guards (temporaries of expressions and variables), characters as steps, exceptions; specification with the thread that has the stream and what is left of each argument; simulation, then the statement about histories by induction on them; progress by induction on the stack.
* **C80** destruction of the POSIX mutexes: the functions as sequences of operations on members, any number of threads, destruction at any time, an event for the use of a member after it; specification with what each call of `unlock` is known to have done; simulation. The rule is shown to be needed by two runs (`must_be_seen`, `readers_do_not_tell`).
* **C81** works: variables with a pointer each, function objects with a count of references, calls in progress; specification without counts (a function object must go exactly when no variable stands for it); simulation with the invariant that each count is the number of variables; life times from the histories by induction on them.
* **C82** thread ids: threads, objects and id variables, the system choosing any number that is free under its rules; specification in which an id is the thread it stands for; simulation with the invariant that numbers in use are different; the stability of the order from the invariant that the number of a thread never changes.
* **C83** the end of foreign threads: the model of C40 for the data the key refers to, and beside it the data `tls_destructor` is destroying; rounds counted; specification with what is in use now (rules of C40) and what is left from before the round; simulation that lifts that of C40; what is lost in the last round by induction on the number of rounds.
* **C84** `reschedule_until`: stacks of calls per thread, nested in closures and predicates, over an atomic queue; specification of the calls in progress; simulation; what the result says from the history; each closure once by an invariant; progress by induction on the queue.

## Disagreements between the properties and the code

Each of these is a theorem about the model, named in brackets, with a concrete schedule the kernel evaluates (or an inductive construction of one). "Property" is the English statement in `properties.jsonl`.

* **C03, C06** The recursion depth is a 32-bit counter; relocking more often wraps it [`RecursiveMutex.depth_overflow`].
* **C04** `timed_lock` with not-a-date-time or minus infinity returns true without locking [`TimedMutex.timed_lock_special_not_held`, `..._neg_infinity_not_held`, `RecursiveMutex.timed_lock_special_not_held`].
* **C07, C08** `try_unlock_shared_and_lock_until` together with `unlock_upgrade_and_lock` gives two writers [`SharedMutex.two_writers`, `upgrade_overtaken`].
* **C09** Timed upward conversions lose wake-ups [`SharedMutex.lost_wakeup_*`].
* **C10** (v2) A timed conversion that fails counts readers again that have left [`V2Mutex.phantom_readers`]; an interrupted `lock` keeps everybody out [`interrupted_writer_stays`]; after an interrupted conversion assertions fail [`interrupted_conversion_aborts`].
* **C11** (v2) A timed exclusive request that gives up wakes nobody [`V2Mutex.lost_wakeup`, `lost_wakeup_forever`, `full_lost_wakeup`].
* **C12** (Windows; the property holds) but readers can sleep while only readers own the mutex [`WinSharedMutex.lost_wakeup`, `stolen_wakeup`], and three threads can exhaust the counter of waits [`error_with_three_threads`].
* **C16** (holds) A `notify_one` can be consumed by a thread that is then interrupted [`CondVar.notification_consumed_by_interrupted_thread`].
* **C17** `wait_until` far in the past throws; `wait_for(max)` overflows; `timed_wait(neg_infin)` reports no time-out [`TimedWait.wait_until_in_the_past_throws`, `wait_for_max_overflows`, `timed_wait_neg_infinity_reports_no_timeout`].
* **C20** (holds within its bound) After 2^32-3 calls the epoch runs out [`OnceEpoch.epoch_runs_out_hangs`, `epoch_runs_out_runs_twice`].
* **C21** A thread delayed for 2^32 generations misses its own [`Barrier.straggler_misses_generation`].
* **C22** A throwing completion function strands the waiting threads [`Barrier.throwing_completion_strands_waiters`].
* **C23** `reset(0)` does not release present waiters [`Latch.reset_to_zero_strands_waiter`, `reset_to_zero_times_out`].
* **C24** `try_wait` blocks; late waiters block; nothing happens without a registered waiter; an interrupted waiter blocks the arrival [`CompletionLatch.try_wait_blocks`, `late_waiter_blocks`, `no_waiter_no_completion`, `count_down_and_wait_alone_blocks`, `interrupted_waiter_blocks_arrival`].
* **C28** `size()` is one too small after wrap-around; `wait_push_back` throws when the queue is closed under it [`BoundedQueue.size_is_wrong`, `wait_push_back_throws`].
* **C29** An interruption after the end of a wait loses a wake-up [`BoundedQueue.lost_wakeup_interrupt`].
* **C31** With a clock that is set back, `pull_until` calls `top()` on an empty queue [`TimedQueue.backward_clock`].
* **C32** A second deferred (or at-thread-exit) attempt overwrites the first; and more [`Future.deferred_twice_fails`, `exception_changes_fails`, `value_after_deferred_exception_fails`, `notify_without_outcome`, `at_thread_exit_lazy_fails`, `moved_from_set_value`, `shared_get_or_fails`, `interrupted_get_fails`, `unshared_get_moves`]. Not modelled, seen by reading: `promise<R&>::set_value_deferred` without a shared state throws `promise_already_satisfied` (future.hpp 2663-2666) where the others throw `promise_moved`.
* **C33** Move assignment drops a promise without breaking it; deferred setters; foreign threads [`Future.assigned_promise_fails`, `deferred_then_destroyed_fails`, `at_thread_exit_needs_release_fails`, `at_thread_exit_foreign_thread_fails`].
* **C34** `reset()` keeps outcome and exception and does not separate futures [`PackagedTask.reset_*`, `destruction_after_reset_breaks_a_kept_promise`]; `make_ready_at_thread_exit` in a thread not started by the library never publishes [`foreign_thread_never_publishes`].
* **C35** `then` on a deferred future does not run by itself; a failing launch loses continuations and can replace a value by an exception [`Continuation.not_then_on_deferred`, `not_all_called`, `not_one_outcome`]; `is_ready` blocks [`is_ready_blocks`].
* **C36** The position in a range counts only valid futures; opposite orders deadlock; duplicates deadlock; only invalid futures wait for ever [`WaitAny.not_position_in_range`, `not_opposite_orders`, `not_duplicates`, `only_invalid_never_returns`].
* **C37** `when_any` executes a deferred input and blocks in it although another is ready; invalid inputs crash or give an exception; the call may throw [`WhenAll.any_blocks_in_a_deferred_input`, `invalid_input_crashes`, `invalid_input_excepts`, `call_may_throw`].
* **C39** Two concurrent joins of one object both succeed; self-move-assignment detaches [`Thread.both_see_completion`, `self_move_detaches`].
* **C40** A cleanup function that changes its own slot is called twice, or the behaviour is undefined [`ThreadExit.own_slot_reset_cleans_twice`, `own_slot_release_undefined`].
* **C41** The destructor interrupts workers and drops accepted closures; two workers change the order; a failing constructor terminates [`ThreadPool.destructor_drops_closures`, `destructor_drops_closures_behind_an_interrupted_one`, `two_workers_change_order`, `constructor_failure_terminates`].
* **C42** Helping overlaps and reorders; rescheduling on one thread deadlocks; a closed underlying executor terminates [`SerialExecutor.helping_overlaps_and_reorders`, `rescheduling_on_one_thread_deadlocks`, `closed_underlying_executor_terminates`].
* **C43** The destructor drops the queue; a throwing closure loses the rest; `user_scheduler::run_queued_closures` has an inverted condition and hides exceptions [`LoopExecutor.destructor_drops_closures`, `throwing_closure_loses_the_rest`, `user_scheduler_*`, `two_loops_change_the_order`].
* **C44** Comparing an object with itself never returns; the three-object `synchronize` of the C++03 variant locks only two [`SyncValue.self_compare_never_returns`, `legacy_synchronize3_not_exclusive`].
* **C45** Negative times are not normalised; a 32-bit `long` cuts the seconds; `getMs`/`getMax` overflow [`PlatformTime.negative_not_normalised`, `roundtrip32_fails`, `getMs_overflow`, `getMax_overflow`].
* **C46** Strings with an embedded NUL are accepted as numbers [`CpuInfo.nul_accepted`, `nul_alone_accepted`].
* **C47** The order of the two ids in the listing matters [`CpuInfo.order_matters_fails`].
* **C48** Size 0 is ignored; sizes near the end of the range wrap to 0 [`StackSize.zero_ignored`, `overflow_fails`].
* **C49** Objects without a thread are confused with joined members; duplicate adds delete twice; `join_all` deadlocks with a member using the group [`ThreadGroup.membership_of_empty_objects`, `double_delete_unchecked`, `double_delete_race`, `join_all_deadlocks_with_a_member`].
* **C50** Self-assignment applies the action; a destructor that joins its own thread terminates [`ScopedThread.self_assignment_applies_action`, `self_join_terminates`].
* **C51** The destructor drops accepted closures, due or not, without running them; an executor closed before the due time ends the program; a closure that lets `thread_interrupted` escape silently ends its worker; `scheduling_adaptor` never uses its executor [`Scheduler.drops_what_is_not_due`, `drops_what_is_due`, `closed_executor_terminates`, `worker_lost`, `handed_only_if_submitted`].
* **C53** `notify_one` may wake only threads that began to wait after it was called, and `notify_all` may miss a waiting thread: tokens of `wake_sem` are not tied to generations; one `notify_one` can wake two threads; `total_count` is not decremented by time-outs, so that enough of them overflow it [`WinCondVar.stolen_wakeup`, `notify_all_misses`, `one_notify_wakes_two`, `timeouts_overflow`].
* **C54** `no_interruption_point::sleep_for`, and `sleep_until` with the steady clock, ignore the result of `nanosleep`: a signal ends them early; the largest durations overflow [`Sleep.signal_cuts_sleep`, `signal_cuts_sleep_until`, `sleep_for_max_overflows`].
* **C55** Waiting for an unwrapped future does not run a deferred inner or outer future, so it waits for ever [`Unwrap.deferred_inner_never_runs`, `deferred_outer_never_runs`].
* **C56** The destructor of the last future from `async(launch::async, f)` never waits for `f` (the thread has a reference of its own, so that the destructor of the state runs only after `f` has ended) [`Async.last_release_does_not_wait`, `release_returns_alone`]; `get` does not join the thread [`get_does_not_join`], `wait` only with `BOOST_THREAD_FUTURE_BLOCKING`, where two threads that wait on their own copies race [`concurrent_waits_race`]; with `BOOST_THREAD_ASYNC_FUTURE_WAITS` (default up to version 4) `async` hangs when the thread cannot be started [`failed_start_hangs`]; a task destroyed by its executor leaves the future without result for ever [`discarded_task_never_ready`].
* **C57** The destructor of `serial_executor_cont` does not wait for the closures, contrary to its comment (96), and a waiting closure is then launched through a reference to the destroyed member `ex_` [`SerialCont.destructor_does_not_wait`, `use_after_destructor`]. If the underlying executor throws in `submit`, `fut_` stays moved-from and every later `submit` dereferences a null pointer [`failed_submit_poisons`]; if it throws when the next closure is handed over, that closure and all later ones are silently lost although `submit` goes on accepting [`nothing_starts_after_failure`, `accepted_closure_lost`]. `submit` holds `mtx_` while it calls the underlying executor: a closure run inline that uses the executor deadlocks [`inline_call_deadlocks`].
* **C58** The effects of `notify_all_at_thread_exit`, `set_value_at_thread_exit`, … are carried out by the destructor of the thread data, when the last reference is dropped: as long as a `boost::thread` object refers to a thread that has ended, its mutex stays locked and its promise not ready, so waiting before joining hangs, and the mutex is unlocked by the joining thread [`AtExit.object_delays_effects`, `unlocked_by_another_thread`]. A thread not created by the library loses its requests: its mutex stays locked for ever (or is unlocked at once without notification), its result never becomes visible [`external_mutex_never_free`, `external_unlocked_at_once`, `external_result_lost`]. The check for `promise_already_satisfied` in the deferred setters is `done && !exception`: a second result replaces the first, `set_value` overtakes it, and the exception of a ready `shared_future` can change [`second_result_replaces_first`, `set_value_overrides`, `ready_result_changes`, `value_ignored`]. `make_ready_at_thread_exit` is declared but not defined for Windows.
* **C59** When `SetWaitableTimer` or `CreateWaitableTimer` fails, `interruptible_wait` and `non_interruptible_wait` pass `static_cast<DWORD>(time_left_msec)` as time-out: 4294967295 ms is `INFINITE`, the call never returns [`WinThread.sleep_forever`]. A `restore_interruption` made directly inside another one switches interruption off when it is destroyed [`nested_restore`], and one for a disabler made while interruption was off leaves it on [`restore_keeps_on`] (same code on POSIX). `sleep_until` with a time that has passed is an interruption point for the steady clock but not for other clocks [`past_sleep_is_no_point`, `past_steady_sleep_is_point`].
* **C60** When the wait at the end of `task_region` is interrupted, `thread_interrupted` leaves `task_region` and the handle is destroyed while tasks that refer to it are still to be run [`TaskRegion.left_behind`]; likewise when `group.push_back` throws in `run` [`left_behind_memory`]. `wait` does not clear the group and `task_region` adds what its function lets through, so that an exception can be reported three times [`reported_thrice`]. With a thread pool, tasks that open regions on the same pool, as in the documentation's Fibonacci example, can block all threads for ever [`nested_starvation`].
* **C61** In `thread_executor` the member `mtx_` is declared after `threads_`, so that it is destroyed before the scoped threads are joined: a closure that calls `submit` or `closed` while the destructor waits for it locks a destroyed mutex, where the documentation promises `sync_queue_is_closed` [`ThreadExec.submit_during_destruction`, `destroyed_while_locked`].
* **C62** The move constructor and move assignment of `csbl::devector` leave `front_index_` of the source as it is while its vector becomes empty. After `underlying_queue()` on a queue from which an element has been pulled since it was last empty, `empty()` is false, `size()` is about 2^64, `try_pull` reads out of range, or elements pushed afterwards vanish [`DevQueue.broken_by_underlying_queue`, `elements_are_lost`]. `run_queued_closures` of `loop_executor` and `user_scheduler` does this [`LoopExecutor.run_queued_closures_breaks_the_executor`, `closures_are_lost`]. Pulled elements keep their place in the vector until the queue is empty, so a queue that is never empty grows without limit [`DevQueue.storage_grows`].
* **C63** `reverse_lock`'s destructor calls `mtx->lock()` also for a `shared_lock` and lets the `shared_lock` adopt it: it waits for all readers, locks out the others, and the unlock of the `shared_lock` is undefined behaviour [`Guards.reverse_lock_of_shared_lock`]. `nested_strict_lock<shared_lock>` counts as strict lock, so `externally_locked::get` gives mutable access to several threads at once [`shared_lock_gives_access`]. `reverse_lock` and `nested_strict_lock` leave a lock locked that was not [`left_locked`]. The adopting constructors of `unique_lock`, `shared_lock` and `upgrade_lock` pass a pointer to `is_locked_by_this_thread`, so the assertion is always true (lock_types.hpp 126-130, 522-526, 785-789).
* **C64** `set_wait_callback` binds the callback to `this`, the address of the promise: after a move the callback gets the moved-from promise [`WaitCallback.moved_promise`]. `do_callback` unlocks before it calls the callback, and `~promise` does not wait: the callback gets a destroyed promise [`destroyed_promise`]. Every waiter calls the callback: with two waiters the second set fails with `promise_already_satisfied`, which leaves `get` although the value is there [`second_waiter`].
* **C65** `testable_mutex` over a recursive mutex: `unlock` resets the identifier at every level, so after two `lock` and one `unlock` the holder is told that it does not hold the mutex, and the last `unlock` fails its assertion [`Testable.recursive_forgets`]; with assertions the second `lock` aborts [`recursive_aborts`].
* **C66** `get_tick_count64`: the initial `ticks` is 0 rather than the current time, and the store is a plain store: a thread that has loaded the initial 0 before a wrap-around of `GetTickCount()` and stores after it puts the clock back by 2^32 ms [`TickCount.first_calls_race`]; a failed registration is silent [`missed_wrap`].
* **C67** shared_mutex: a timed `lock` that gives up (shared_mutex.hpp 286-291, 303-308, 326-331) and `unlock_upgrade_and_lock_shared` (590-591) reset `exclusive_waiting_blocked` although another writer may still be waiting: that writer no longer holds off readers and can be starved [`SharedFair.starved_by_timeout`, `starved_by_downgrade`].
* **C68** v2 shared_mutex: a timed request that gives up at the second gate (v2/shared_mutex.hpp 687, 708) clears `write_entered_` and notifies nobody: a writer waiting at the first gate goes on sleeping while readers are let in, and can be starved; a writer that waits for an upgrade owner does not hold off readers at all [`V2Fair.starved_by_timeout`, `passed_behind_upgrader`].
* **C69** futures: `shared_future::get_or` rethrows the stored exception (future.hpp 2236, 405); `share()` and the conversion to `shared_future` do not test `valid` after `get` (2217-2224); `future(shared_future&&)` (1749-1751) takes the value from the copies; `get` invalidates the future before it waits, so an interrupted `get` loses the result (1787-1794); a null `exception_ptr` counts as a value and `get` dereferences null (188-197, 4430-4435); `make_shared_future()` of void never sets the value (4466-4469) [`FutureHandle.get_or_throws`, `shared_after_get`, `taken_from_copies`, `interrupted_get`, `null_exception`, `make_shared_future_void`].
* **C70** timed locks: on POSIX `try_lock_until`/`timed_lock` with a time before boot on a locked mutex: `ns_to_timespec` makes negative nanoseconds, `pthread_cond_timedwait` returns `EINVAL`, the loop of `do_try_lock_until` (pthread/mutex.hpp 236-244) tries again for ever with the internal mutex locked, so that the owner cannot unlock; with assertions the program aborts (243) [`TimedLock.past_time_hangs`, `hang_is_for_ever`, `past_time_aborts`]; `try_lock_for(max)` overflows [`lock_for_max_overflows`]; on Windows a remaining time of exactly 4294967295 ms is `INFINITE` (win32/basic_timed_mutex.hpp 185) [`windows_waits_for_ever`].
* **C71** life of thread data: on POSIX data made by code that runs in `tls_destructor` are cleaned up in the next round of destructors; the system may stop after `PTHREAD_DESTRUCTOR_ITERATIONS` rounds, and then the data, with thread-specific values in them, are never destroyed [`Lifetime.data_may_be_lost`, `lost_after_rounds`].
* **C72** life of the results of futures: `then` stores the parent in the new state and the new state in `continuations` of the parent; the cycle is broken only when the parent becomes ready. `async(launch::deferred, f).then(g)` whose future is dropped without a wait, and `async(ex, f).then(g)` whose executor is destroyed before it has called `f`, are never destroyed [`StateLife.deferred_chain_leaks`, `discarded_chain_leaks`, `leak_is_for_ever`].
* **C73** destruction of condition variables: the documented precondition (condition_variables.qbk 163-175, 507-519) is not enough for `condition_variable_any`, for both classes with interruption, and on Windows: a woken thread locks `internal_mutex` once more before it returns (thread_data.hpp 228, 235; condition_variable.hpp 199, 474; win32/condition_variable.hpp 220), and `thread::interrupt` uses `cond_mutex` and `current_cond` of a thread that has been notified but has not cleared them (thread.cpp 595-599) [`CondLife.any_documented_fails`, `posix_documented_fails`, `posix_interrupt_fails`, `win_documented_fails`].
* **C74** destruction of the Windows mutex: `unlock` uses `active_count` and `event` after it has given up the mutex (basic_timed_mutex.hpp 244-251). The usual rule, that the thread which is the last to lock a mutex may destroy it after its own `unlock`, is not enough [`WinMutexLife.lax_fails`]. The POSIX `mutex` does nothing after `pthread_mutex_unlock`.
* **C75** deferred futures for references: `future_deferred_shared_state<Rp&,Fp>::execute` (future.hpp 1081-1090) calls the function with the mutex locked, unlike the other two specialisations (1055-1068, 1104-1117, `relocker`). While it runs, `is_ready` and timed waits of other threads wait for it [`Deferred.reference_blocks`], and if it asks about its own future nothing ever returns [`Deferred.reference_deadlock`].
* **C76** Windows shared_mutex: releasing the mutex takes one writer off `exclusive_waiting` and sends it a token, but if that writer's time-out comes first it takes itself off again (win32/shared_mutex.hpp 533-541), that is, another writer, and resets `exclusive_waiting_blocked`: the other writer no longer holds off readers, and can be starved [`WinSharedFair.starved_by_timeout`].
* **C77** timed joins on POSIX: `do_try_join_until_noexcept` (src/pthread/thread.cpp 363-416) honours its time only while `done` is not set. `done` is set at the end of `thread_proxy` (197-199), before the thread-local destructors of the language run; a timed join that finds it set calls `pthread_join`, and others wait for that one to come back, without limit and, in `pthread_join`, without interruption [`TimedJoin.held_up`]. A time before boot makes the join throw `condition_error` instead of returning false [`TimedJoin.past_time_throws`].
* **C78** `xtime::operator system_time` casts the seconds to `long` (xtime.hpp 50): on Windows, where it has 32 bits, a time in 2038 or later becomes one before 1970 and a wait for it ends at once [`Xtime.wraps_after_2038`]. `get_xtime` of a time before 1970 gives a negative `nsec`, against the comment at 43, and the way back rounds it towards zero after adding 500 [`Xtime.before_1970`, `Xtime.before_1970_not_normalised`].
* **C81** `nullary_function`'s move assignment without C++11 smart pointers copies and then resets the source (nullary_function.hpp 120-121, 223-224): a work moved onto itself loses its function.
* **C82** The documentation says that two ids compare equal only if they refer to the same thread of execution or none (thread_ref.qbk). By default an id is a `pthread_t`, which the system may use again once a thread has ended and been joined or detached, so an id kept that long can equal that of another thread.
* **C83** In a thread not started by the library (POSIX) the key is null while `tls_destructor` runs: slots read as null before their values are cleaned up, and callbacks registered or values stored in the last of the `PTHREAD_DESTRUCTOR_ITERATIONS` rounds are lost. The documentation of `at_thread_exit` and `thread_specific_ptr` makes no such difference between threads.
* **C84** `reschedule_until(pred)` does not ask `pred` first: with an empty queue it returns false even if `pred` holds, and otherwise it runs a closure before asking. In `user_scheduler` it also returns false when a closure has thrown.

## What is modelled, component by component

`lean/Verif/<Component>` and the code it models (line numbers are in the definitions' comments). "Not" lists what is left out of that component.

| Component | Code | Not |
|---|---|---|
| TimedMutex | `pthread/mutex.hpp` (condition-variable variant) | `pthread_mutex_timedlock` variant |
| RecursiveMutex | `pthread/recursive_mutex.hpp` | native recursive variant |
| SharedMutex | `pthread/shared_mutex.hpp` | (its waits cannot be interrupted: `disable_interruption`) |
| V2Mutex | `v2/shared_mutex.hpp` (`shared_mutex`, `upgrade_mutex`), incl. the packed word | |
| WinMutex, WinRecursiveMutex | `win32/basic_timed_mutex.hpp`, `basic_recursive_mutex.hpp` | failing system calls |
| WinSharedMutex | `win32/shared_mutex.hpp` | `UNDER_CE`, failing system calls, semaphore limits |
| LockAlg, LockObj | `lock_algorithms.hpp`, `lock_factories.hpp`, `lock_types.hpp` | throwing `unlock()` |
| CondVar, TimedWait | `pthread/condition_variable.hpp`, `condition_variable_fwd.hpp`, the timed waits of `win32/condition_variable.hpp` 334-717, interruption in `pthread/thread.cpp` | throwing `lock()`/`unlock()` of the user's lock, errors of `pthread_cond_wait` |
| Once, OnceEpoch | `src/pthread/once_atomic.cpp`, `once_atomic.hpp`; `pthread/once.hpp` | |
| Barrier, Latch, CompletionLatch | `barrier.hpp`, `latch.hpp`, `completion_latch.hpp` | |
| SyncQueue, BoundedQueue, TimedQueue | `concurrent_queues/sync_queue.hpp`, `sync_priority_queue.hpp`, `sync_bounded_queue.hpp`, `sync_timed_queue.hpp` | `deque_views.hpp`, `queue_views.hpp` |
| Future, PackagedTask, Continuation, WaitAny, WhenAll | `future.hpp` | reference and void specialisations (for `packaged_task` they take the same steps and are covered), allocators, blocking futures' destructors |
| Thread, ScopedThread, ThreadGroup, ThreadExit | `detail/thread.hpp`, `src/pthread/thread.cpp`, `scoped_thread.hpp`, `thread_functors.hpp`, `detail/thread_group.hpp`, `tss.hpp` | Windows threads |
| SyncValue | `synchronized_value.hpp` | |
| ThreadPool, SerialExecutor, LoopExecutor | `executors/basic_thread_pool.hpp`, `serial_executor.hpp`, `loop_executor.hpp`, `user_scheduler.hpp` | |
| Scheduler | `executors/detail/priority_executor_base.hpp`, `detail/scheduled_executor_base.hpp`, `scheduled_thread_pool.hpp`, `scheduler.hpp`, `scheduling_adaptor.hpp` | destruction from inside a worker, failing thread creation |
| WinOnce | `win32/once.hpp` | failing system calls, overflow of the call counter, event names (133-149: assumed unique per flag) |
| WinCondVar | `win32/condition_variable.hpp` 45-319 | failing system calls; the overloads of wait (320 to the end) that compute the timeout; reference counts of entries |
| Sleep | `pthread/thread_data.hpp` 253-364, `src/pthread/thread.cpp` 440-464 | interruption; `pthread_delay_np`; platforms without `nanosleep` |
| Unwrap | `future.hpp`: `future<future<R>>::unwrap`, `future_unwrap_shared_state`, `set_continuation_ptr`, `do_continuation`, `mark_finished_internal`, deferred states | continuations by `then`, timed waits, destruction of states, `BOOST_THREAD_FUTURE_BLOCKING` |
| Async | `future.hpp`: `async` with `launch::async` and executors, `future_async_shared_state(_base)`, `future_executor_shared_state`, `wait_internal`; start, end and `join` of its thread | `launch::deferred`, continuations, timed waits, interruption, C++03 variant |
| PlatformTime, StackSize, CpuInfo | `detail/platform_time.hpp`, `pthread/thread_data.hpp`, `src/pthread/thread.cpp` | |
| SerialCont | `executors/serial_executor_cont.hpp`; `then(Ex&, F&&)`, `future_executor_continuation_shared_state`, `do_continuation` of `future.hpp` | `bad_alloc`, `underlying_executor`, `try_executing_one` |
| AtExit | `src/pthread/thread.cpp` (`~thread_data_base`, `thread_proxy`, `externally_launched_thread`, `notify_all_at_thread_exit`, `make_ready_at_thread_exit`), the `…_at_thread_exit` and `…_deferred` functions of `future.hpp`; the same structure in `src/win32/thread.cpp` | `packaged_task::make_ready_at_thread_exit`, `bad_alloc` |
| WinThread | `src/win32/thread.cpp` 433-501, 621-816, 836-893, `win32/thread_data.hpp` 221-318, `detail/thread.hpp` 470-537, 759-785 | any number of threads; both waits with and without timer, interruption handle, `disable_interruption` and `restore_interruption`, `DWORD` wrap-around; the scheduling of the waits by the system is arbitrary. Not modelled: moving and destroying thread objects, exit functions, failing waits |
| TaskRegion | `experimental/parallel/v2/task_region.hpp` 54-150, 190-304, `v1/exception_list.hpp` | any number of threads, regions and tasks; canceled flag, group, nested regions, executors with and without a limit, failing `submit` and `push_back`, interruption. Not modelled: the version without shared canceled flag, `run` called by other threads than the region's, executors that are closed |
| ThreadExec, InlineExec | `executors/thread_executor.hpp` 33-142, `executors/inline_executor.hpp` 30-158 | any number of threads and closures, closures that use the executor, failing thread creation, destructor with its members, throwing closures. Not modelled: `try_executing_one` and `reschedule_until`, which return false |
| Devector, DevQueue | `csbl/devector.hpp`, `concurrent_queues/detail/sync_queue_base.hpp` 35-204, `sync_queue.hpp` 32-316, `sync_deque.hpp` 32-316 | the default container of the queues; moved-from and copied containers, out-of-range reads. Not modelled: exceptions from copying elements, `emplace_back` |
| Guards | `lock_guard.hpp` 25-69, `shared_lock_guard.hpp` 17-37, `with_lock_guard.hpp`, `strict_lock.hpp` 27-212, `reverse_lock.hpp` 17-42, `externally_locked.hpp` 36-352, `externally_locked_stream.hpp` 27-137 | any number of threads, mutexes, lock objects and nested scopes. Not modelled: assignment and `swap` of `externally_locked`, locks that throw, `upgrade_lock` as argument |
| WaitCallback | `future.hpp` 126-147, 335-345, 352-360, 386-455, 540-545, 2315-2334, 2376-2460, 2538-2543 | any number of promises, futures and threads, nested waits in callbacks. Not modelled: continuations, deferred functions, interruption, the callbacks of `packaged_task` |
| Testable | `testable_mutex.hpp` 36-124, `is_locked_by_this_thread.hpp` 25-29 | any number of threads, exclusive or recursive mutex, assertions on or off |
| TickCount | `src/win32/thread_primitives.cpp` 55-73, 91-146 (emulation) | any number of threads and wrap-arounds; native `GetTickCount64` and cleanup at exit not modelled |
| SharedFair | the same code as SharedMutex | writer priority, stated on the same model |
| V2Fair | the same code as V2Mutex | writer priority, stated on the same model |
| FutureHandle | future.hpp: `basic_future`, `future`, `shared_future`, the observers, `get`, `get_or`, `share`, moves, copies, swaps, `make_..._future` | result delivery is one step (C32 and C33 model it); continuations are in C35, callbacks in C64 |
| TimedLock | pthread/mutex.hpp 134-161, 232-301; pthread/recursive_mutex.hpp 240-267, 340-416; win32/basic_timed_mutex.hpp 140-241 | one thread's timed calls with the others as environment (Model), any number of threads (Many); waking and ownership among threads are in TimedMutex, RecursiveMutex, WinMutex; `BOOST_THREAD_USES_PTHREAD_TIMEDLOCK` variants are not modelled |
| Lifetime | src/pthread/thread.cpp 89-124, 152-202, 235-310; pthread/thread_data.hpp 119; src/win32/thread.cpp 258-404; win32/thread_data.hpp 99-160 | reference counting of `shared_ptr`/`intrusive_ptr` is one atomic count; client code may take any step at any time; what `join` waits for is in Thread and WinThread |
| StateLife | future.hpp 157-170, 285-345, 384-395, 911-1118, 2217-2384, 3990-4160, 4475-4965, 4974-5260 | a step takes, moves or drops `shared_ptr`s as one piece of code does; objects in a call of a member function are kept by the caller; not modelled: `BOOST_THREAD_FUTURE_BLOCKING`, `unwrap`, `when_all`, `when_any`, exceptions of `submit` and of thread creation |
| CondLife | pthread/condition_variable.hpp 64-158, 181-210, 438-490, condition_variable_fwd.hpp 77-85, pthread/thread_data.hpp 186-245, src/pthread/thread.cpp 589-602, win32/condition_variable.hpp 45-319 | built on `CondVar` and `WinCondVar`; destruction at any time; the `pthread_cond_t` itself may be destroyed when nobody is blocked on it, as POSIX says |
| WinMutexLife | win32/basic_timed_mutex.hpp 33-288 with `get_event` and `destroy` | creating an event does not fail; otherwise as WinMutex |
| Deferred | future.hpp 121-149, 335-345, 362-373, 387-450, 487-531, 1044-1118 | no wait callbacks, continuations and interruption |
| WinSharedFair | the WinSharedMutex model | as there |
| TimedJoin | detail/thread.hpp 472-537, 758-784; src/pthread/thread.cpp 195-201, 315-416; src/win32/thread.cpp 440-475, 621-720 | one joining thread; no disabled interruption; Windows with waitable timers, rounding of times not modelled (C45) |
| Xtime | xtime.hpp 34-87, thread_time.hpp 17-47 | Boost.DateTime's times as counts of ticks; no special values but positive infinity; no limits of the calendar |
| Stream | externally_locked_stream.hpp 37-74, 92-164 | guards moved by the user; `bypass` (does not compile when used: it needs a non-const stream); locking that throws (`hold` is `noexcept`) |
| MutexLife | pthread/mutex.hpp 204-253, pthread/recursive_mutex.hpp 130-175, 298-365, pthread/shared_mutex.hpp 160-566, v2/shared_mutex.hpp (locking and unlocking) | conversions of ownership, interruption, exceptions; the exact conditions for granting a lock (a superset of schedules is allowed); `pthread_mutex_unlock` is one operation; the inside of the condition variables (C73) |
| Work | detail/nullary_function.hpp 27-234, executors/work.hpp 14-24 | lack of memory; exceptions while the function is copied into the object; `shared_ptr` is a count of references |
| ThreadId | detail/thread.hpp 602-685, 735-775 (ids, `get_id`, the test for self-join), src/pthread/thread.cpp 619-632 | output, hashing, moved objects, `get_id` after the data of the thread are destroyed; joining is one step (C39) |
| ForeignExit | src/pthread/thread.cpp 91-122, 146-150, 235-252 for threads not started by the library, with the functions of ThreadExit | exceptions thrown by callbacks and cleanup functions; the order in which the system calls the destructors of different keys is arbitrary |
| Helping | executors/loop_executor.hpp 60-81, 178-188, executors/basic_thread_pool.hpp 51-66, 331-341, user_scheduler.hpp 39-58, 173-183, executors/executor.hpp 129-139, executors/generic_executor_ref.hpp 193-203 | the queue is atomic and its operations throw nothing; `run_queued_closures`, destructors and interruption; `serial_executor`, whose `try_executing_one` is that of SerialExecutor |

Nothing else of the library is modelled. In particular the classes that only forward each call are not: `queue_adaptor.hpp`, `deque_adaptor.hpp`, `queue_views.hpp`, `deque_views.hpp`,
`executor_adaptor.hpp`, `generic_executor_ref.hpp` (except `reschedule_until`), `lockable_adapter.hpp`, `poly_lockable_adapter.hpp`, `poly_shared_lockable_adapter.hpp`; nor those that do nothing
(`null_mutex.hpp`), the helpers for calling functions (`detail/invoke.hpp`, `detail/invoker.hpp`), and the wrappers of the heap (`thread_heap_alloc.hpp`).

## Wrong programs

`seeded/LOG.jsonl` lists the edits of the model that were tried. Besides those chosen by hand, edits were generated at random over all components (a flag, constant, comparison or connective changed); of
these only the ones that led to a tightened theorem are in the log. The survivors that were left were looked at one by one; they change nothing the API shows: initial values that are overwritten before
they are read, what happens after undefined behaviour, branches that no reachable state takes, spurious wake-ups of threads that test again, and choices of the environment that are made
more liberal. That nothing is seen after `std::terminate` was among them; it is now a theorem (`terminate_is_last` for Thread, ThreadPool, SerialExecutor, SerialCont, LoopExecutor, ScopedThread;
`throwing_closure_ends_the_program` for Helping; `throwing_is_the_end` for ThreadExec) or part of the specification (Scheduler, InlineExec).
