{"id": "C01", "title": "timed_mutex mutual exclusion", "statement": "At every instant at most one thread holds a timed_mutex: lock() returning, try_lock() returning true and try_lock_until/for returning true all hand the mutex to exactly that caller, and nobody else holds it until that caller unlocks. A false return leaves the caller without it. try_lock() succeeds exactly when nobody holds the mutex.", "quantifier": "every number of threads, every sequence of lock/try_lock/timed lock/unlock calls, every schedule, spurious wake-up and time-out", "why_tests_cant": "the outcome depends on the interleaving; a test exercises a handful of schedules of a handful of threads", "anchors": ["include/boost/thread/pthread/mutex.hpp: timed_mutex::lock, unlock, try_lock, do_try_lock_until"]}
{"id": "C02", "title": "timed_mutex has no lost wake-up", "statement": "If the mutex is free, a thread blocked in lock() or a timed lock is never left asleep with nobody on the way to take the mutex: some caller is already awake and will take it. Hence with any fair scheduler a blocked locker is not stranded by an unlock whose notification was consumed by somebody else (for example by a locker that then times out).", "quantifier": "every number of threads, every schedule, every choice of the thread woken by a notification, spurious wake-ups and time-outs", "why_tests_cant": "a lost wake-up needs one precise race between a time-out, a notification and a third thread", "anchors": ["include/boost/thread/pthread/mutex.hpp: timed_mutex::unlock, lock, do_try_lock_until"]}
{"id": "C03", "title": "recursive_timed_mutex ownership and depth", "statement": "A recursive mutex is held by at most one thread; the holder may lock it again any number of times without blocking; it becomes free exactly when it has been unlocked as many times as it was locked; try_lock succeeds exactly when it is free or already held by the caller.", "quantifier": "every number of threads, every recursion depth, every sequence of operations and schedule", "why_tests_cant": "recursion depth and interleavings are unbounded", "anchors": ["include/boost/thread/pthread/recursive_mutex.hpp: recursive_timed_mutex::lock, unlock, try_lock, do_try_lock_until"]}
{"id": "C04", "title": "A successful timed_lock means the mutex is held", "statement": "Whenever timed_lock(duration) returns true the caller owns the mutex.", "quantifier": "every relative duration, including the special values of Boost.Date_Time (not-a-date-time, infinities), every mutex state", "why_tests_cant": "the failing inputs are special values a test author has to think of", "anchors": ["include/boost/thread/pthread/mutex.hpp: timed_mutex::timed_lock", "include/boost/thread/pthread/recursive_mutex.hpp: recursive_timed_mutex::timed_lock"]}
{"id": "C05", "title": "Windows mutex: exclusion and hand-over", "statement": "The Windows mutex (lock count word plus auto-reset event) is held by at most one thread at a time; lock attempts that time out leave it as they found it; and when it is free with threads still waiting, a hand-over event is pending so that a waiter will take it.", "quantifier": "every number of threads up to the waiter-count limit, every interleaving of the individual atomic operations, every time-out", "why_tests_cant": "lock-free code: the bad interleavings lie between single atomic instructions", "anchors": ["include/boost/thread/win32/basic_timed_mutex.hpp: try_lock, lock, do_lock_until, unlock, mark_waiting_and_try_lock, clear_waiting_and_try_lock"]}
{"id": "C06", "title": "Windows recursive mutex: ownership and depth", "statement": "The Windows recursive mutex is held by at most one thread, re-locking by the holder succeeds at once, and it is released exactly when unlocks match locks.", "quantifier": "every number of threads, every depth, every interleaving", "why_tests_cant": "unbounded depth and interleavings", "anchors": ["include/boost/thread/win32/basic_recursive_mutex.hpp: try_lock, lock, unlock, try_recursive_lock, try_basic_lock"]}
{"id": "C07", "title": "shared_mutex exclusion", "statement": "For a shared_mutex (upgrade_mutex): while a thread has exclusive ownership no other thread has any ownership, at most one thread has upgrade ownership, and shared and upgrade owners coexist only with each other. The internal counters never under-run.", "quantifier": "every number of threads and every history of shared/upgrade/exclusive lock, try, timed and conversion operations under every schedule, with spurious wake-ups and time-outs", "why_tests_cant": "the outcome depends on the interleaving; a test exercises a handful of schedules of a handful of threads", "anchors": ["include/boost/thread/pthread/shared_mutex.hpp: shared_mutex"]}
{"id": "C08", "title": "shared_mutex: upgrading never lets another writer in", "statement": "When a thread holding upgrade ownership converts it to exclusive ownership, no other thread obtains exclusive or upgrade ownership between the start of the conversion and its completion: what it read stays true until it writes.", "quantifier": "every history and schedule, whatever other threads request meanwhile", "why_tests_cant": "the interleavings between the two halves of the conversion are unbounded", "anchors": ["include/boost/thread/pthread/shared_mutex.hpp: unlock_upgrade_and_lock, unlock_shared, try_unlock_upgrade_and_lock"]}
{"id": "C09", "title": "shared_mutex has no lost wake-up", "statement": "A thread blocked on a shared_mutex is never left asleep when the mutex is in a state in which its request could be granted: some thread that was woken (or that still owns the mutex and will release it) is on the way.", "quantifier": "every number of threads, every history and schedule, spurious wake-ups and time-outs", "why_tests_cant": "needs one precise race between a release, a time-out and a waiter", "anchors": ["include/boost/thread/pthread/shared_mutex.hpp: release_waiters, unlock, unlock_shared, unlock_upgrade, timed_lock"]}
{"id": "C10", "title": "v2 shared_mutex and upgrade_mutex exclusion", "statement": "The alternative (v2) shared_mutex and upgrade_mutex give the same guarantee: a writer excludes everybody, there is at most one upgrade owner, and the reader count equals the number of shared owners; a failed timed conversion leaves the caller with exactly the ownership it had and the mutex consistent.", "quantifier": "every number of threads below the reader-count limit, every history, schedule, spurious wake-up and time-out", "why_tests_cant": "the outcome depends on the interleaving; a test exercises a handful of schedules of a handful of threads", "anchors": ["include/boost/thread/v2/shared_mutex.hpp: thread_v2::shared_mutex, thread_v2::upgrade_mutex"]}
{"id": "C11", "title": "v2 shared_mutex has no lost wake-up", "statement": "If a timed exclusive request gives up, the readers and writers that were blocked only because of that request are woken.", "quantifier": "every number of threads, every history, schedule and time-out", "why_tests_cant": "needs a time-out racing with blocked readers", "anchors": ["include/boost/thread/v2/shared_mutex.hpp: try_lock_until"]}
{"id": "C12", "title": "Windows shared_mutex exclusion", "statement": "The Windows shared_mutex (one packed word updated by compare-and-swap) never lets a writer coexist with any other owner nor two upgrade owners coexist; when a counter field is exhausted the request fails with an error instead of corrupting its neighbours.", "quantifier": "every number of threads, every interleaving of compare-and-swap attempts, every history of lock/unlock/conversion calls and time-outs", "why_tests_cant": "lock-free code with 11-bit and 7-bit fields: overflow and the bad interleavings are out of reach of tests", "anchors": ["include/boost/thread/win32/shared_mutex.hpp: shared_mutex"]}
{"id": "C13", "title": "lock(a, b, ...) is all-or-nothing and never holds while blocking", "statement": "boost::lock on any collection of distinct lockables returns only with every one of them locked; while it is blocked waiting for one of them it holds none of the others (so any number of threads calling it in any argument order cannot deadlock); if a lock operation throws, every lockable taken by the call is released. make_unique_locks returns locks that own exactly the lockables given, each of which is unlocked once when they are destroyed, in any order.", "quantifier": "every number and order of lockables, every behaviour of the try_lock/lock calls of the lockables (success, failure, exception at any point)", "why_tests_cant": "deadlock is a property of all schedules and all argument orders", "anchors": ["include/boost/thread/lock_algorithms.hpp: lock, lock_impl, lock_helper, try_lock_internal, range_lock_guard", "include/boost/thread/lock_factories.hpp: make_unique_lock, make_unique_locks"]}
{"id": "C14", "title": "try_lock(a, b, ...) reports the first failure and holds nothing", "statement": "boost::try_lock returns -1 (or end) exactly when it has locked all; otherwise it returns the index of the first lockable whose try_lock failed and holds none.", "quantifier": "every number of lockables, every pattern of success and failure", "why_tests_cant": "every subset of lockables at every size", "anchors": ["include/boost/thread/lock_algorithms.hpp: try_lock, try_lock_impl, try_lock_internal"]}
{"id": "C15", "title": "Lock objects track ownership exactly", "statement": "unique_lock, shared_lock and upgrade_lock: owns_lock() is true exactly when the object currently accounts for one acquisition of its mutex; destruction, assignment and swap release each acquisition exactly once; locking an owned object or unlocking a non-owning one raises lock_error and changes nothing; release() hands the acquisition to the caller.", "quantifier": "every history of construction, lock, try_lock, unlock, move, swap, release and destruction over any number of lock objects and mutexes, including failing and throwing mutexes", "why_tests_cant": "histories are unbounded; a double release shows up only in some of them", "anchors": ["include/boost/thread/lock_types.hpp: unique_lock, shared_lock, upgrade_lock, upgrade_to_unique_lock"]}
{"id": "C16", "title": "condition_variable: no notification is missed", "statement": "If a waiter evaluated its predicate as false while holding the lock and then called wait, any notify_one/notify_all issued after another thread changed the predicate under that lock wakes it (or wakes another waiter, for notify_one): there is no window between releasing the lock and going to sleep in which the notification is lost. wait returns holding the lock.", "quantifier": "every number of waiters and notifiers, every interleaving of the individual mutex and condition operations", "why_tests_cant": "the window is a few instructions wide", "anchors": ["include/boost/thread/pthread/condition_variable.hpp: condition_variable::wait, do_wait_until, condition_variable_any::wait", "include/boost/thread/pthread/condition_variable_fwd.hpp: notify_one, notify_all", "include/boost/thread/pthread/thread_data.hpp: interruption_checker"]}
{"id": "C17", "title": "Timed predicate waits report the predicate and never time out early", "statement": "wait_for/wait_until with a predicate return the value of the predicate at the moment of return with the lock held; they return false only if the deadline has passed; without a predicate, timeout is reported only if the deadline has passed.", "quantifier": "every clock behaviour (including clocks that are adjusted), every sequence of spurious wake-ups and notifications", "why_tests_cant": "clock jumps and spurious wake-ups at arbitrary points", "anchors": ["include/boost/thread/pthread/condition_variable_fwd.hpp: wait_until, wait_for, do_wait_until", "include/boost/thread/detail/platform_time.hpp: thread_detail::internal_timespec"]}
{"id": "C18", "title": "Interruption is delivered exactly once and only where allowed", "statement": "A thread for which interrupt() was called gets thread_interrupted at its next interruption point executed with interruption enabled, exactly once per request; while interruption is disabled no interruption point throws and the request stays pending; a thread blocked at an interruption point is woken by interrupt().", "quantifier": "every history of interrupt, disable/restore (nested), interruption points and blocking waits, every interleaving of interrupter and target", "why_tests_cant": "the race between going to sleep and being interrupted", "anchors": ["include/boost/thread/pthread/thread_data.hpp: interruption_checker", "src/pthread/thread.cpp: thread::interrupt, interruption_point, disable_interruption, restore_interruption"]}
{"id": "C19", "title": "call_once runs the function to completion exactly once", "statement": "For one once_flag: at most one call of the function completes normally, calls never overlap, call_once returns normally only after a call has completed, and if a call throws the exception goes to that caller only and another waiting or later caller runs the function.", "quantifier": "every number of threads, every schedule, every pattern of throwing attempts", "why_tests_cant": "the outcome depends on the interleaving; a test exercises a handful of schedules of a handful of threads", "anchors": ["include/boost/thread/pthread/once_atomic.hpp: call_once", "src/pthread/once_atomic.cpp: enter_once_region, commit_once_region, rollback_once_region"]}
{"id": "C20", "title": "call_once (epoch variant) runs the function exactly once", "statement": "The non-atomic call_once variant gives the same guarantee, using a global epoch counter and a per-thread cache of the epoch, for any number of once_flags.", "quantifier": "every number of flags and threads, every schedule, until the epoch counter is exhausted", "why_tests_cant": "the counter counts down from 2^32-1 over the life of the process", "anchors": ["include/boost/thread/pthread/once.hpp: call_once", "src/pthread/once.cpp: get_once_per_thread_epoch"]}
{"id": "C21", "title": "barrier: nobody passes before everybody arrived, exactly one is elected", "statement": "wait() on a barrier of size n returns in generation g only after n calls of that generation have arrived; exactly one of the n calls of each generation reports true; the barrier is then ready for the next generation, whose calls are not mixed up with stragglers of the previous one.", "quantifier": "every barrier size, number of generations, schedule and spurious wake-up", "why_tests_cant": "stragglers and early arrivals interleave in unboundedly many ways", "anchors": ["include/boost/thread/barrier.hpp: barrier::wait, count_down_and_wait"]}
{"id": "C22", "title": "barrier completion function runs once per generation", "statement": "The completion function of a barrier runs exactly once in each generation, after all arrived and before any of them returns, and the size it returns is the size of the next generation; whatever it does, the threads already waiting are released.", "quantifier": "every completion function (including one that throws), every size and schedule", "why_tests_cant": "needs a throwing completion function and waiting threads", "anchors": ["include/boost/thread/barrier.hpp: barrier::wait, void_completion_function, size_completion_function"]}
{"id": "C23", "title": "latch: waiters pass exactly when the count has reached zero", "statement": "wait() returns only after count_down has been called count times; try_wait returns true exactly then; the count never under-runs; once zero every present and future waiter passes.", "quantifier": "every initial count, number of threads and schedule", "why_tests_cant": "the outcome depends on the interleaving; a test exercises a handful of schedules of a handful of threads", "anchors": ["include/boost/thread/latch.hpp: latch"]}
{"id": "C24", "title": "completion_latch: waiters, arrivals and the completion function", "statement": "For a completion_latch: the completion function runs once per cycle when the count reaches zero; waiters are released then; try_wait does not block.", "quantifier": "every count, number of threads and schedule", "why_tests_cant": "the outcome depends on the interleaving; a test exercises a handful of schedules of a handful of threads", "anchors": ["include/boost/thread/completion_latch.hpp: completion_latch", "include/boost/thread/detail/counter.hpp: counter"]}
{"id": "C25", "title": "sync_queue is a linearizable FIFO queue", "statement": "Every history of a sync_queue is that of a sequential FIFO queue: each pushed element is pulled at most once, in push order, none is invented or lost; try_pull returns empty exactly when it is empty; size/empty report the exact state.", "quantifier": "every number of producers and consumers, every history and schedule", "why_tests_cant": "the outcome depends on the interleaving; a test exercises a handful of schedules of a handful of threads", "anchors": ["include/boost/thread/concurrent_queues/sync_queue.hpp: sync_queue", "include/boost/thread/concurrent_queues/detail/sync_queue_base.hpp: sync_queue_base"]}
{"id": "C26", "title": "Closing a sync_queue", "statement": "After close(): every push fails with closed (or throws) and leaves the queue unchanged; elements already queued can all still be pulled; pulls on an empty closed queue report closed; no thread stays blocked in a pull.", "quantifier": "every history and schedule, any number of blocked consumers", "why_tests_cant": "close racing with blocked consumers", "anchors": ["include/boost/thread/concurrent_queues/detail/sync_queue_base.hpp: close, wait_until_not_empty_or_closed", "include/boost/thread/concurrent_queues/sync_queue.hpp: wait_pull, pull, push"]}
{"id": "C27", "title": "sync_queue has no lost wake-up", "statement": "If the queue is non-empty, no consumer is left asleep in pull while nobody is on the way to take the element; precisely, the number of woken consumers is at least the smaller of the numbers of elements and blocked consumers.", "quantifier": "every number of producers and consumers, every schedule, spurious wake-ups", "why_tests_cant": "the outcome depends on the interleaving; a test exercises a handful of schedules of a handful of threads", "anchors": ["include/boost/thread/concurrent_queues/detail/sync_queue_base.hpp: notify_elem_added, wait_until_not_empty", "include/boost/thread/concurrent_queues/sync_queue.hpp: push, pull, wait_pull"]}
{"id": "C28", "title": "sync_bounded_queue is a linearizable bounded FIFO queue", "statement": "The ring buffer behind sync_bounded_queue behaves as a FIFO queue of at most capacity elements: push succeeds exactly when not full, pull exactly when not empty, order is kept across wrap-around, no element is overwritten, and size() is the number of elements.", "quantifier": "every capacity, every history and schedule", "why_tests_cant": "wrap-around happens at every offset for every capacity", "anchors": ["include/boost/thread/concurrent_queues/sync_bounded_queue.hpp: sync_bounded_queue, inc, full, empty, size, set_in, pull"]}
{"id": "C29", "title": "sync_bounded_queue: blocking, closing and wake-ups", "statement": "A producer blocked on a full queue is not left asleep when there is room, a consumer blocked on an empty one is not left asleep when there is an element; after close() every blocked producer and consumer returns, producers and wait_push with the status closed.", "quantifier": "every capacity, number of producers and consumers, history and schedule", "why_tests_cant": "the outcome depends on the interleaving; a test exercises a handful of schedules of a handful of threads", "anchors": ["include/boost/thread/concurrent_queues/sync_bounded_queue.hpp: notify_not_empty_if_needed, notify_not_full_if_needed, wait_push_back, wait_until_not_full, close"]}
{"id": "C30", "title": "sync_priority_queue returns the greatest element", "statement": "Each pull returns an element no other queued element exceeds and removes exactly that occurrence; pushes and pulls preserve the multiset.", "quantifier": "every history, every strict weak order of priorities", "why_tests_cant": "every history of every length over every ordering", "anchors": ["include/boost/thread/concurrent_queues/sync_priority_queue.hpp: sync_priority_queue"]}
{"id": "C31", "title": "sync_timed_queue never delivers early", "statement": "An element pushed with a due time is delivered by pull only when the clock has reached that time, elements are delivered in due-time order, and every element whose time has come can be pulled; waiting pulls return not_ready/timeout/closed exactly in those situations.", "quantifier": "every history of pushes, clock readings, pulls and close", "why_tests_cant": "every arrangement of due times and clock readings, including clocks that go backwards", "anchors": ["include/boost/thread/concurrent_queues/sync_timed_queue.hpp: sync_timed_queue, pull, pull_until, wait_pull, try_pull, not_ready, time_not_reached"]}
{"id": "C32", "title": "A promise is satisfied at most once and the outcome never changes", "statement": "For a promise and its futures: the first set_value/set_exception decides the outcome, every later attempt throws promise_already_satisfied and changes nothing, and every get() by any future sharing the state, at any time after, yields exactly that outcome; a future is ready only when an outcome is available.", "quantifier": "every history of the promise/future operations, including the at_thread_exit/deferred variants, any number of shared_futures, every schedule", "why_tests_cant": "histories mixing the variants are unbounded", "anchors": ["include/boost/thread/future.hpp: promise, shared_state, shared_state_base, future, shared_future"]}
{"id": "C33", "title": "An abandoned promise breaks its futures", "statement": "When a promise that gave out a future is destroyed or overwritten without an outcome, the future becomes ready with broken_promise; a satisfied promise's destruction changes nothing; get_future succeeds exactly once per promise; nothing is left waiting for ever.", "quantifier": "every history of moves, swaps, assignments and destruction", "why_tests_cant": "every move/assign history", "anchors": ["include/boost/thread/future.hpp: promise::~promise, promise::operator=, promise::get_future, lazy_init"]}
{"id": "C34", "title": "packaged_task runs at most once and delivers that run's outcome", "statement": "A packaged_task's function is invoked at most once per shared state; a second invocation throws task_already_started; the future obtains the value or exception of that very invocation; destruction of an un-run task breaks the promise; reset() starts afresh with a state that is not ready.", "quantifier": "every history of run, make_ready_at_thread_exit, get_future, reset, move, destroy", "why_tests_cant": "every history, in particular around reset", "anchors": ["include/boost/thread/future.hpp: packaged_task, task_base_shared_state, task_shared_state"]}
{"id": "C35", "title": "Continuations run exactly once, after readiness", "statement": "Every continuation attached with then() is launched exactly once, only after its antecedent is ready, whether it was attached before or after readiness and whatever the interleaving of attaching with set_value.", "quantifier": "any number of continuations attached at any time, every schedule", "why_tests_cant": "attach racing with set_value", "anchors": ["include/boost/thread/future.hpp: shared_state_base::set_continuation_ptr, do_continuation, mark_finished_internal, then"]}
{"id": "C36", "title": "wait_for_any identifies a ready future", "statement": "wait_for_any returns the position (iterator) of a future that is ready, in the caller's own numbering; it returns as soon as one is ready; it never blocks for ever when one is or becomes ready, whatever other threads wait on. A request for interruption ends the wait. When the call has ended, by returning or by the exception, no future refers to it any more.", "quantifier": "every sequence of futures (including invalid and duplicate ones), every schedule, several concurrent callers", "why_tests_cant": "index arithmetic over arbitrary mixtures, lock-order deadlock between callers", "anchors": ["include/boost/thread/future.hpp: detail::future_waiter", "include/boost/thread/futures/wait_for_any.hpp: wait_for_any, waiter_for_any_in_seq"]}
{"id": "C37", "title": "when_all and when_any readiness", "statement": "The future returned by when_all becomes ready exactly when all inputs are ready; that of when_any when at least one is; both deliver all input futures in order.", "quantifier": "every number of inputs, every completion order", "why_tests_cant": "every completion order at every size", "anchors": ["include/boost/thread/future.hpp: future_when_all_vector_shared_state, future_when_any_vector_shared_state, when_all, when_any"]}
{"id": "C38", "title": "Deferred futures run their function exactly once in a waiter", "statement": "The function of async(launch::deferred, f) is not run until somebody waits on the future, is run at most once however many threads wait, and each waiter returns only after it has finished.", "quantifier": "any number of waiting threads, every schedule", "why_tests_cant": "the outcome depends on the interleaving; a test exercises a handful of schedules of a handful of threads", "anchors": ["include/boost/thread/future.hpp: future_deferred_shared_state, run_if_is_deferred, wait_internal"]}
{"id": "C39", "title": "thread: join returns after completion, exactly one of join and detach", "statement": "join() returns only after the thread's function has returned; a thread object is joinable from construction until the first successful join or detach, afterwards not; concurrent try-joins see completion at most once; self-join throws.", "quantifier": "every schedule and every history of join, timed join, detach, move", "why_tests_cant": "the outcome depends on the interleaving; a test exercises a handful of schedules of a handful of threads", "anchors": ["src/pthread/thread.cpp: thread::join_noexcept, do_try_join_until_noexcept, detach, thread_proxy", "include/boost/thread/detail/thread.hpp: thread::join, operator="]}
{"id": "C40", "title": "at_thread_exit callbacks and thread-specific data are cleaned up exactly once", "statement": "When a thread ends every at_thread_exit callback registered by it runs exactly once, in reverse order of registration, including callbacks registered by callbacks; every non-null thread_specific_ptr value is passed to its cleanup function exactly once; reset and release call it or not as documented.", "quantifier": "any number of callbacks and slots, callbacks and cleanups that register more", "why_tests_cant": "arbitrary nesting of registrations during tear-down", "anchors": ["src/pthread/thread.cpp: tls_destructor, add_thread_exit_function, set_tss_data, find_tss_data, add_new_tss_node, erase_tss_node", "include/boost/thread/tss.hpp: thread_specific_ptr"]}
{"id": "C41", "title": "basic_thread_pool executes every accepted task exactly once", "statement": "Each closure accepted by submit() starts at most once, closures start in submission order, submit() throws exactly when the pool is closed, and after close() and join() (or the destructor) every accepted closure has been executed.", "quantifier": "any number of workers and tasks, every schedule, tasks that reach interruption points", "why_tests_cant": "the outcome depends on the interleaving; a test exercises a handful of schedules of a handful of threads", "anchors": ["include/boost/thread/executors/basic_thread_pool.hpp: basic_thread_pool"]}
{"id": "C42", "title": "serial_executor keeps submission order and never overlaps tasks", "statement": "Tasks submitted to a serial_executor run one at a time, in submission order, each exactly once, even if the underlying executor has many threads and tasks throw.", "quantifier": "any number of tasks, every schedule of the underlying executor", "why_tests_cant": "the outcome depends on the interleaving; a test exercises a handful of schedules of a handful of threads", "anchors": ["include/boost/thread/executors/serial_executor.hpp: serial_executor", "include/boost/thread/executors/serial_executor_cont.hpp: serial_executor_cont"]}
{"id": "C43", "title": "loop_executor and user_scheduler run all queued closures", "statement": "run_queued_closures() runs exactly the closures queued at the time of the call, in order, each once; loop() runs every accepted closure and returns only after close().", "quantifier": "every queue content and history", "why_tests_cant": "every queue content", "anchors": ["include/boost/thread/executors/loop_executor.hpp: loop_executor", "include/boost/thread/user_scheduler.hpp: user_scheduler"]}
{"id": "C44", "title": "synchronized_value operations are atomic and deadlock-free", "statement": "Every access through a synchronized_value happens with its mutex held; assignment, swap and comparison of two synchronized_values hold both; every one of these operations terminates for every pair of objects, including an object with itself.", "quantifier": "every history, every pair of objects, every schedule", "why_tests_cant": "the outcome depends on the interleaving; a test exercises a handful of schedules of a handful of threads", "anchors": ["include/boost/thread/synchronized_value.hpp: synchronized_value"]}
{"id": "C45", "title": "Time conversions are exact", "statement": "Converting a nanosecond count to a timespec and back gives the same count; the timespec handed to the OS is normalised (0 <= tv_nsec < 10^9); conversion to milliseconds never rounds a wait down; addition and subtraction of durations and time points obey the usual laws and order is preserved.", "quantifier": "every representable time value, negative ones included", "why_tests_cant": "2^64 inputs; rounding and sign boundaries", "anchors": ["include/boost/thread/detail/platform_time.hpp: ns_to_timespec, timespec_to_ns, platform_duration, mono_platform_timepoint"]}
{"id": "C46", "title": "Decimal parsing of processor information", "statement": "string_to_unsigned accepts exactly the non-empty decimal digit strings whose value fits in unsigned, and yields that value; string_trim removes exactly the leading and trailing blanks.", "quantifier": "every string", "why_tests_cant": "overflow boundaries at every length", "anchors": ["include/boost/thread/detail/string_to_unsigned.hpp: string_to_unsigned", "include/boost/thread/detail/string_trim.hpp: string_trim"]}
{"id": "C47", "title": "physical_concurrency counts distinct cores", "statement": "physical_concurrency() returns the number of distinct (physical id, core id) pairs listed, and falls back to hardware_concurrency when the listing is malformed.", "quantifier": "every content of the processor listing", "why_tests_cant": "every listing", "anchors": ["src/pthread/thread.cpp: thread::physical_concurrency"]}
{"id": "C48", "title": "Thread stack size is rounded up to whole pages", "statement": "attributes::set_stack_size(n) requests the smallest multiple of the page size that is at least max(n, minimum).", "quantifier": "every size and page size", "why_tests_cant": "boundary arithmetic for every value", "anchors": ["include/boost/thread/pthread/thread_data.hpp: thread_attributes::set_stack_size"]}
{"id": "C49", "title": "thread_group membership", "statement": "A thread_group owns each added thread until it is removed: remove_thread removes exactly that thread, is_thread_in reports exactly membership, join_all joins every member, and the destructor deletes every remaining member exactly once.", "quantifier": "every history of create/add/remove", "why_tests_cant": "every history", "anchors": ["include/boost/thread/detail/thread_group.hpp: thread_group"]}
{"id": "C50", "title": "scoped_thread never loses a running thread", "statement": "A scoped_thread applies its action (join, detach, interrupt-and-join ...) to the thread it holds exactly once, on destruction or when another thread is assigned over it; a moved-from object applies it to nothing.", "quantifier": "every history of construct, move, assign, swap, destroy", "why_tests_cant": "every move history", "anchors": ["include/boost/thread/scoped_thread.hpp: scoped_thread, strict_scoped_thread", "include/boost/thread/thread_functors.hpp"]}
{"id": "C51", "title": "Scheduled work starts on time, once and in order", "statement": "A closure given to scheduler, scheduled_thread_pool or scheduling_adaptor for a time T is started at most once and never before the clock reads T; among waiting closures the earliest starts first; a worker with nothing to do starts a due closure at once; a closure submitted through on(ex) is handed to ex; workers leave only after close or interruption by the destructor, the destructor returns only when all workers have left, and every accepted closure has been started by then.", "quantifier": "every number of workers and clients, every set of due times, every clock speed, every schedule", "why_tests_cant": "the outcome depends on the interleaving; a test exercises a handful of schedules of a handful of threads", "anchors": ["include/boost/thread/executors/detail/priority_executor_base.hpp: priority_executor_base", "include/boost/thread/executors/detail/scheduled_executor_base.hpp: scheduled_executor_base", "include/boost/thread/executors/scheduled_thread_pool.hpp: scheduled_thread_pool", "include/boost/thread/executors/scheduler.hpp: scheduler, at_executor, resubmit_at_executor, resubmitter", "include/boost/thread/executors/scheduling_adaptor.hpp: scheduling_adaptor"]}
{"id": "C52", "title": "call_once runs its function once on Windows too", "statement": "With the event-based call_once of Windows: calls of the function for one flag never overlap, exactly one completes, nobody returns normally before it has, an exception leaves the call whose own function threw and a waiting caller takes over; no caller sleeps while nobody is executing the function, and after a completion every caller returns.", "quantifier": "every number of threads, every pattern of throwing functions, every interleaving of the interlocked operations and system calls", "why_tests_cant": "the outcome depends on the interleaving; a test exercises a handful of schedules of a handful of threads", "anchors": ["include/boost/thread/win32/once.hpp: call_once, enter_once_region, commit_once_region, rollback_once_region, open_once_event, create_once_event"]}
{"id": "C53", "title": "Condition variables on Windows", "statement": "With the semaphore-based condition_variable and condition_variable_any of Windows: a wait unlocks the user's mutex and returns with it locked; no thread is woken without a call of a notify function during its wait; a wait without limit does not time out; notify_one wakes at least one of the threads waiting when it is called, notify_all all of them; without notify_all no more threads are woken than notify_one was called.", "quantifier": "every number of threads and calls, every moment of time-out and interruption, every interleaving", "why_tests_cant": "the outcome depends on the interleaving; a test exercises a handful of schedules of a handful of threads", "anchors": ["include/boost/thread/win32/condition_variable.hpp: basic_condition_variable, basic_cv_list_entry"]}
{"id": "C54", "title": "Sleeping never ends early", "statement": "sleep, sleep_for and sleep_until, interruptible or not, return only when the time asked for has passed on the steady clock, or the given time point has been reached on the given clock; a sleep whose time is over returns.", "quantifier": "every duration and time point, every course and adjustment of the clocks, spurious wake-ups and signals at every moment", "why_tests_cant": "adjusted clocks, spurious wake-ups and signals at every moment cannot be produced by tests", "anchors": ["include/boost/thread/pthread/thread_data.hpp: this_thread::sleep, sleep_for, sleep_until, no_interruption_point::sleep, sleep_for, sleep_until", "src/pthread/thread.cpp: sleep_for_internal"]}
{"id": "C55", "title": "An unwrapped future comes to exactly what the inner future comes to", "statement": "For a future of a future f, the future made by f.unwrap() (or by constructing a future<R> from a future<future<R>>) becomes ready if and only if f and then the future inside it have become ready, and get() on it delivers the value or exception of the inner future, the exception of f if f failed, and future_uninitialized if the inner future is not valid; no future ever has two outcomes; a thread that waits for it is released once the outcome is there, without any further call; this holds for futures nested to any depth, unwrapped before or after anything is ready, and also if the inner or outer future is deferred (waiting then runs the function).", "quantifier": "every number of futures and promises, every nesting and order of unwrapping and fulfilling, the outcome depends on the interleaving; a test exercises a handful of schedules of a handful of threads", "why_tests_cant": "the two stages of the continuation race with the completion of the outer and the inner future, and the nesting is unbounded", "anchors": ["include/boost/thread/future.hpp: BOOST_THREAD_FUTURE<BOOST_THREAD_FUTURE<R> >::unwrap, detail::future_unwrap_shared_state, detail::make_future_unwrap_shared_state, shared_state_base::set_continuation_ptr, do_continuation"]}
{"id": "C56", "title": "async runs its function once, hands over its result, and waits when it says so", "statement": "For every call of async(launch::async, f) or async(ex, f): f is called at most once, and not at all if async throws; get() returns what f has returned or thrown, and wait() returns, only after f has ended, and they do return then; the stored result lives as long as there is a future and is destroyed when the last future and the thread are gone; if the thread cannot be started async throws; a call of get() or wait() for a function run by launch::async returns only when the thread has completed as if joined, or else the last function that releases the shared state waits for it; threads that use their own copies of a future do not race.", "quantifier": "every number of calls, threads, futures and copies, every configuration of the future destructor, start failures at every point, the outcome depends on the interleaving; a test exercises a handful of schedules of a handful of threads", "why_tests_cant": "the release of the last reference races with the end of the function, and failures to start a thread cannot be provoked at will", "anchors": ["include/boost/thread/future.hpp: async, detail::make_future_async_shared_state, detail::make_future_executor_shared_state, detail::future_async_shared_state_base, detail::future_async_shared_state, detail::future_executor_shared_state, shared_state::wait_internal", "src/pthread/thread.cpp: thread_proxy, thread::start_thread_noexcept, thread::join_noexcept"]}
{"id": "C57", "title": "serial_executor_cont: one closure at a time, in order, each accepted closure run", "statement": "For every underlying executor, closures submitted to a serial_executor_cont are called one after the other, each at most once, in the order in which submit took them in, and never two at a time, also when closures submit further closures; submit throws exactly when the executor has been closed; as long as the underlying executor accepts closures and closures return, every accepted closure can run to its end; an exception from the underlying executor in submit leaves the executor usable; the destructor returns only after all accepted closures have ended, and a closure may use the executor it runs in.", "quantifier": "every number of threads, closures and submissions, every behaviour of the underlying executor (keeping, running at once, throwing), calls from within closures, the outcome depends on the interleaving; a test exercises a handful of schedules of a handful of threads", "why_tests_cant": "the hand-over of the next closure races with submit, and an underlying executor that throws or runs inline at the wrong moment is not available to a test", "anchors": ["include/boost/thread/executors/serial_executor_cont.hpp: serial_executor_cont::submit, close, closed, ~serial_executor_cont", "include/boost/thread/future.hpp: basic_future::then(Ex&, F&&), detail::future_executor_continuation_shared_state, shared_state_base::do_continuation, set_continuation_ptr"]}
{"id": "C58", "title": "What is asked for at thread exit happens once, at the exit, and not before", "statement": "notify_all_at_thread_exit keeps the mutex locked until the calling thread has ended, thread-specific pointers and exit functions included, and then unlocks it and notifies the condition variable; set_value_at_thread_exit and set_exception_at_thread_exit make the result visible at that moment and not before; each request is carried out exactly once, in order, whoever refers to the thread and whatever kind of thread called; a promise takes one result, a second one throws promise_already_satisfied, and every get gives that result.", "quantifier": "every number of threads, mutexes, condition variables and promises, every set of references to the threads, requests from exit functions, the outcome depends on the interleaving; a test exercises a handful of schedules of a handful of threads", "why_tests_cant": "the moment of the effects depends on which of several references to the thread is dropped last; a missing effect shows as a hang of another thread", "anchors": ["src/pthread/thread.cpp: thread_data_base::~thread_data_base, thread_proxy, tls_destructor, externally_launched_thread, notify_all_at_thread_exit, make_ready_at_thread_exit, thread::join_noexcept, detach", "include/boost/thread/pthread/thread_data.hpp: thread_data_base", "include/boost/thread/future.hpp: promise::set_value_at_thread_exit, set_exception_at_thread_exit, shared_state_base::notify_deferred, set_exception_deferred, set_value_deferred, has_value"]}
{"id": "C59", "title": "Joins, sleeps and interruption on Windows: nothing returns early, no request is lost or delivered twice", "statement": "On Windows, for any number of threads: join and the timed joins return true only when the thread has ended, and do return when it has; a timed join returns false and a sleep returns only when its time has come on the clock it was given for, and does so then, for every duration; thread_interrupted leaves only interruption points, only in threads where interruption is allowed, once for each request, and interrupts a blocked join or sleep; a request made before an interruption point is entered is not missed; interruption_enabled is what the innermost disable_interruption or restore_interruption object says; threads not created by the library are never interrupted; joining oneself and joining a thread that is not joinable throw.", "quantifier": "every number of threads, calls, times, requests and nesting of disablers, adjustments of the user's clock, failure to create a timer; the outcome depends on the interleaving; a test exercises a handful of schedules of a handful of threads", "why_tests_cant": "the request races with the beginning and end of the wait, a fallback is used only when the system refuses a timer, and the wrap-around needs a wait of 49 days", "anchors": ["src/win32/thread.cpp: thread::join_noexcept, do_try_join_until_noexcept, detach, interrupt, interruption_requested, joinable, this_thread::interruptible_wait, non_interruptible_wait, interruption_point, interruption_enabled, disable_interruption, restore_interruption", "include/boost/thread/win32/thread_data.hpp: sleep_for, sleep_until, no_interruption_point::sleep_for, sleep_until", "include/boost/thread/detail/thread.hpp: thread::join, try_join_until, try_join_for, timed_join"]}
{"id": "C60", "title": "A task region joins all its tasks and loses no exception", "statement": "For any executor, number of tasks and nesting of regions: task_region and wait return or throw an exception_list only after the functions of all tasks that were run in the region have ended; task_region throws exactly when its function or one of its tasks has thrown something other than task_canceled_exception, and the exception_list contains what was thrown, flattened, the function's first and then the tasks' in the order of run; a task's function is called once and only while its region exists; run and wait throw task_canceled_exception only when a task of the region has failed, and after that no task is added; all calls of task_region in progress return when the functions do.", "quantifier": "every number of threads, tasks, regions, nesting and combination of exceptions, every size of the pool; the outcome depends on the interleaving; a test exercises a handful of schedules of a handful of threads", "why_tests_cant": "failures race with run and wait in other threads, the exceptions arrive in any order, starvation needs as many nested calls as the pool has threads", "anchors": ["include/boost/thread/experimental/parallel/v2/task_region.hpp: task_region, task_region_final, task_region_handle_gen, run, wait, wait_all, handle_task_region_exceptions, wrapped", "include/boost/thread/experimental/parallel/v1/exception_list.hpp: exception_list"]}
{"id": "C61", "title": "thread_executor and inline_executor execute every accepted closure, once, and only those", "statement": "For thread_executor: a closure for which submit returns is called exactly once, in a thread of its own that can begin whatever the other closures do; one for which submit throws is never called; submit throws sync_queue_is_closed if close has returned before the call, and only if close or the destructor has been called; closed agrees with this; the destructor returns only when all closures have, and then does; closures may use the executor themselves. For inline_executor: submit executes the closure once, in the calling thread, and returns after it; the executor may be used from within the closure, to any depth, and no call blocks because another thread is executing a closure. With both, nothing happens after a closure has thrown, since the program is terminated.", "quantifier": "every number of threads and closures, every nesting of calls and use of the executor by closures; the outcome depends on the interleaving; a test exercises a handful of schedules of a handful of threads", "why_tests_cant": "the check of closed_ races with close and with the destructor, closures call back into the executor, a missed join shows only if a closure outlives the executor", "anchors": ["include/boost/thread/executors/thread_executor.hpp: thread_executor, submit, close, closed, ~thread_executor", "include/boost/thread/executors/inline_executor.hpp: inline_executor, submit, close, closed, ~inline_executor"]}
{"id": "C62", "title": "Taking the container out of a queue leaves an empty, usable queue", "statement": "For any number of threads and any history of a sync_queue or sync_deque with the default container: pushes, pulls, size, empty, close and underlying_queue behave like those of a first-in first-out queue; underlying_queue returns the elements in the queue in their order and leaves the queue empty and usable: later pushes and pulls behave as on a new queue, no call has undefined behaviour and no element is lost; the storage in use is proportional to the number of elements in the queue.", "quantifier": "every element type, number of threads, contents and point of the history at which the container is taken; the outcome depends on the interleaving; a test exercises a handful of schedules of a handful of threads", "why_tests_cant": "the container is only broken if an element has been pulled since the queue was last empty, and what happens then depends on the number of elements pulled and pushed", "anchors": ["include/boost/thread/csbl/devector.hpp: devector, pop_front, waiver_begin, size, empty", "include/boost/thread/concurrent_queues/detail/sync_queue_base.hpp: underlying_queue", "include/boost/thread/concurrent_queues/sync_queue.hpp: sync_queue", "include/boost/thread/concurrent_queues/sync_deque.hpp: sync_deque"]}
{"id": "C63", "title": "Scoped locks hold their mutex for exactly their scope", "statement": "For any number of threads, mutexes, nested scopes and lock objects: lock_guard, shared_lock_guard, strict_lock, nested_strict_lock and stream_guard hold their mutex from the end of the constructor to the destructor on every path, and give back exactly what they have taken; a nested_strict_lock takes over the ownership of its lock, locking if it must, and gives it back; a reverse_lock gives the mutex up and restores the ownership; nobody holds what another thread holds exclusively; externally_locked::get gives access exactly for a strict lock on the object's mutex, so that two threads never have access at the same time; destructors wait for nothing, except reverse_lock's, which waits for its mutex.", "quantifier": "every number of threads, mutexes, recursive or not, lock objects and nesting of scopes; the outcome depends on the interleaving; a test exercises a handful of schedules of a handful of threads", "why_tests_cant": "ownership that is moved between lock objects and scopes can be lost or doubled only in particular nestings and interleavings", "anchors": ["include/boost/thread/lock_guard.hpp: lock_guard", "include/boost/thread/shared_lock_guard.hpp: shared_lock_guard", "include/boost/thread/strict_lock.hpp: strict_lock, nested_strict_lock", "include/boost/thread/reverse_lock.hpp: reverse_lock", "include/boost/thread/externally_locked.hpp: externally_locked::get", "include/boost/thread/externally_locked_stream.hpp: stream_guard", "include/boost/thread/with_lock_guard.hpp: with_lock_guard"]}
{"id": "C64", "title": "Wait callbacks: lazy futures", "statement": "For promises with a wait callback, any number of waiting threads, and callbacks that do what they like (satisfy promises, wait for futures, throw): get, wait and the timed waits call the callback at most once per call, only if the future was not ready when the call was made, with the promise the future belongs to, and without holding the future's mutex; a timed wait does not give up without having called it; a call returns exactly the result of the future; what the callback throws leaves the call; a promise can be satisfied whatever callbacks are executed; a callback that satisfies its promise makes its own call return that result; no notification is lost between the callback and the wait.", "quantifier": "every number of promises, futures and threads, every behaviour of the callbacks; the outcome depends on the interleaving; a test exercises a handful of schedules of a handful of threads", "why_tests_cant": "the callback runs in a window in which the mutex has been given up: what other threads do in it (satisfy, wait, set another callback, move or destroy the promise) is a matter of schedules", "anchors": ["include/boost/thread/future.hpp: promise::set_wait_callback, shared_state_base::set_wait_callback, do_callback, wait_internal, timed_wait_until, wait_until, relocker"]}
{"id": "C65", "title": "testable_mutex knows who holds it", "statement": "For a testable_mutex over an exclusive or recursive mutex and any number of threads: at most one thread holds it; is_locked_by_this_thread says exactly whether the calling thread holds it; is_locked and get_id are right whenever some thread holds the mutex, and whenever no thread is in the middle of locking or unlocking it; try_lock fails only if another thread has the mutex; with assertions, every lock by the holder and every unlock by another thread is caught, and nothing else; recursive locking works if the mutex is recursive.", "quantifier": "every number of threads, exclusive and recursive mutexes, assertions on and off; the outcome depends on the interleaving; a test exercises a handful of schedules of a handful of threads", "why_tests_cant": "the identifier and the mutex are changed in two steps: what other threads see in between is a matter of schedules", "anchors": ["include/boost/thread/testable_mutex.hpp: testable_mutex", "include/boost/thread/is_locked_by_this_thread.hpp: is_locked_by_this_thread"]}
{"id": "C66", "title": "The 64-bit millisecond clock made from a 32-bit one", "statement": "On Windows systems without GetTickCount64, for any number of threads and however often the 32-bit count of the system wraps around: every value of the clock on which timed waits are based is the true time at some moment of the call, relative to one fixed origin; hence a call that begins after another one has returned never returns less, and the difference of the two values is the time that passed; calls never wait for each other; the periodic refresh is registered once at most.", "quantifier": "every number of threads, every start time, every number of wrap-arounds, success and failure of the registration; the outcome depends on the interleaving; a test exercises a handful of schedules of a handful of threads", "why_tests_cant": "a wrap-around takes 49.7 days, and it matters when exactly it happens relative to the loads and stores of several threads", "anchors": ["src/win32/thread_primitives.cpp: get_tick_count64, refresh_get_tick_count64, get_tick_count_init"]}
{"id": "C67", "title": "A waiting writer holds off new readers of a shared mutex", "statement": "While a thread that began to wait for exclusive ownership of a shared_mutex or upgrade_mutex still waits, nobody who owns nothing is given shared or upgrade ownership, by a blocking, a timed or a trying call, until the mutex has been free or a writer makes room for readers; so the owners leave one after the other and the writer is not starved by readers that keep coming.", "quantifier": "every number of threads, every mix of shared, upgrade and exclusive calls, conversions, attempts and timed calls; the outcome depends on the interleaving; a test exercises a handful of schedules of a handful of threads", "why_tests_cant": "starvation is a statement about unboundedly long schedules, and the order in which readers and writers are admitted depends on the schedule", "anchors": ["include/boost/thread/pthread/shared_mutex.hpp: shared_mutex::lock, lock_shared, lock_upgrade, try_lock_shared, try_lock_upgrade, timed_lock, try_lock_until, unlock_upgrade_and_lock_shared, release_waiters"]}
{"id": "C68", "title": "A waiting writer holds off new readers of a v2 shared mutex", "statement": "While a thread waits for exclusive ownership of a boost::sync v2 shared_mutex or upgrade_mutex, by lock, a timed lock or a conversion, nobody else is given shared or upgrade ownership, by a blocking, a timed or a trying call, until the request is granted or given up, or the mutex was free; so a writer is not starved by readers that keep coming.", "quantifier": "every number of threads, every limit on the number of readers, every mix of shared, upgrade and exclusive calls, conversions, attempts and timed calls; the outcome depends on the interleaving; a test exercises a handful of schedules of a handful of threads", "why_tests_cant": "starvation is a statement about unboundedly long schedules, and the order in which readers and writers are admitted depends on the schedule", "anchors": ["include/boost/thread/v2/shared_mutex.hpp: lock, try_lock_until, lock_shared, try_lock_shared, lock_upgrade, try_lock_upgrade, unlock_upgrade_and_lock, try_unlock_shared_and_lock_until"]}
{"id": "C69", "title": "A future tells the one result it stands for, and nothing else", "statement": "Every future and shared_future refers to one result or to none. get returns the value or throws the exception that was delivered, and nothing before it was delivered; a future gives its value once and is invalid afterwards, a shared_future and all its copies give it as often as asked. valid, get_state, has_value, has_exception, get_exception_ptr, get_or, wait and timed waits agree with it. Moving, copying, swapping, share() and assignment pass the reference on and change no result; a handle that refers to nothing throws future_uninitialized. The make_..._future functions give futures that are ready with their argument.", "quantifier": "every number of threads, futures, shared futures and results, for objects, references and void, with and without invalidation by get; every sequence of moves, copies, swaps, destructions, calls, interruptions and deliveries; the outcome depends on the interleaving; a test exercises a handful of schedules of a handful of threads", "why_tests_cant": "which handle refers to which result depends on the whole history of moves and copies, and calls wait while others deliver", "anchors": ["include/boost/thread/future.hpp: future, shared_future, basic_future, shared_state, get, get_or, share, valid, get_state, has_value, has_exception, get_exception_ptr, wait, wait_until, make_ready_future, make_exceptional_future, make_shared_future"]}
{"id": "C70", "title": "A timed lock fails only when its time has come, and then it does", "statement": "try_lock_until, try_lock_for and timed_lock of timed_mutex and recursive_timed_mutex return true only when no other thread has the mutex, and false only when the time of the call has come: the steady clock has reached the time point or the sum of the time of the call and the duration; another clock has shown the time point or a later one at some moment during the call. timed_lock for an infinite time never returns false. A free mutex is locked at once even if the time has passed. A thread that sleeps returns when it is woken while the mutex is free, and when its time has come; another clock than the steady one is looked at every 100 ms at least.", "quantifier": "every history of calls, every running and setting of the clocks, every duration and time point, every behaviour of the other threads, every wake-up, spurious or not; POSIX with and without assertions, and Windows, recursive or not", "why_tests_cant": "the result depends on clocks that are set while the thread sleeps and on wake-ups at any moment; extreme times are not tried", "anchors": ["include/boost/thread/pthread/mutex.hpp: timed_mutex::timed_lock, try_lock_for, try_lock_until, do_try_lock_until", "include/boost/thread/pthread/recursive_mutex.hpp: recursive_timed_mutex, the same", "include/boost/thread/win32/basic_timed_mutex.hpp: do_lock_until and its callers", "include/boost/thread/detail/platform_time.hpp: ns_to_timespec, getMs"]}
{"id": "C71", "title": "The function given to a thread, and what the library keeps for the thread, live exactly as long as they are needed", "statement": "The copies of the function and of the arguments given to the constructor of boost::thread, and what the library keeps for a thread, are destroyed once, and not before the function has returned, the exit functions have run, and every thread object, thread::id and running call that refers to them is gone; nothing uses them afterwards, however late the new thread begins to run and even if the object has been detached or destroyed by then. They are destroyed as soon as nothing refers to them, also if the system refuses to create the thread. Threads not created by the library get such data when they need them, and give them up when they end.", "quantifier": "every number of threads, objects, copies and thread::ids, every interleaving of the constructor, the new thread, and the threads that give up references; creation refused at any time; POSIX, Windows and Windows Runtime", "why_tests_cant": "a use of freed memory or a leak shows only under schedules in which the new thread runs before its creator goes on, or after all objects are gone", "anchors": ["src/pthread/thread.cpp: thread_proxy, tls_destructor, start_thread_noexcept, make_external_thread_data", "include/boost/thread/pthread/thread_data.hpp: thread_data_base::self", "src/win32/thread.cpp: thread_start_function, run_thread_exit_callbacks, start_thread_noexcept, make_external_thread_data", "include/boost/thread/win32/thread_data.hpp: intrusive_ptr_add_ref, intrusive_ptr_release"]}
{"id": "C72", "title": "Results of futures, and the functions given to async and then, live exactly as long as they are needed", "statement": "The result a future refers to, and the function given to async or then that computes it, are not destroyed while a future, shared_future, promise or task for it exists, while the function is being called, before a function given to async or to a then that is not deferred has been called (it is called even if every future for it has been dropped at once), or while a function given to then on it has yet to be called; nothing uses a result after it has been destroyed, and each is destroyed once. A function is called at most once, and one given to then only after the result it waits for is ready. When no future, promise and task is left and everything under way has finished, every result and every function has been destroyed.", "quantifier": "every number of promises, async calls, then calls on then calls, shared futures and their copies; every policy; every interleaving of the threads that set, wait, continue and drop; functions that keep the future they are given; executors that give up work", "why_tests_cant": "a use of freed memory or a leak depends on who drops the last reference, and in which order; a leak has no effect a unit test can see", "anchors": ["include/boost/thread/future.hpp: shared_state_base::do_continuation, set_continuation_ptr, mark_finished_internal, wait_internal", "include/boost/thread/future.hpp: continuation_shared_state, future_async_continuation_shared_state, future_sync_continuation_shared_state, future_executor_continuation_shared_state, future_deferred_continuation_shared_state", "include/boost/thread/future.hpp: future_async_shared_state, future_deferred_shared_state, basic_future::then"]}
{"id": "C73", "title": "A condition variable may be destroyed when every thread waiting on it has been notified", "statement": "If a condition_variable or condition_variable_any is destroyed when every thread that waits on it has been woken (though the calls to wait need not have returned), when no thread is about to wait on it or calls notify_one or notify_all on it, and it is not used afterwards, then no member of it is used after its destruction, neither by the calls to wait that have not returned nor by threads that interrupt the waiting ones.", "quantifier": "every number of threads, condition variables and mutexes; every interleaving of wait, timed wait, notification, spurious wake-up, interruption and destruction; the POSIX implementation with and without interruption, the Windows one", "why_tests_cant": "a use of freed memory in the few instructions between being woken and returning depends on the schedule, and mostly has no visible effect", "anchors": ["doc/condition_variables.qbk: ~condition_variable(), ~condition_variable_any()", "include/boost/thread/pthread/condition_variable.hpp: condition_variable::wait, do_wait_until, condition_variable_any::wait", "include/boost/thread/pthread/thread_data.hpp: interruption_checker", "src/pthread/thread.cpp: thread::interrupt", "include/boost/thread/win32/condition_variable.hpp: basic_condition_variable::do_wait_until, entry_manager::remove_waiter_and_reset"]}
{"id": "C74", "title": "On Windows a mutex owns at most one event, leaks none, and may be destroyed when it is unlocked", "statement": "However many threads contend for a mutex or timed_mutex on Windows, all of them wait for and signal one and the same event, although it is created on first use and several threads may create it at once; every event that is created is closed exactly once, by the end of the life of the mutex, and none is used after it has been closed. A mutex may be destroyed as soon as no thread owns it and no thread is in or will make a call to lock, try_lock or a timed lock: no call of unlock uses it afterwards.", "quantifier": "every number of threads, every interleaving of lock, try_lock, timed locks, unlock and the creation of the event, every point of destruction", "why_tests_cant": "the race to create the event and a use of the mutex after its destruction each need a switch between two given instructions; a leaked handle is not seen by a test", "anchors": ["include/boost/thread/win32/basic_timed_mutex.hpp: basic_timed_mutex::get_event, destroy, unlock, lock, do_lock_until"]}
{"id": "C75", "title": "Asking about a deferred future does not wait for its function", "statement": "For a future (shared by any number of threads) from async(launch::deferred, f): is_ready, has_value, has_exception and timed waits never run f and never wait for it: they return on their own, whatever the other threads and f are doing, also when f itself makes these calls on the future it computes. They never say that the future is ready before f has ended, nor that it is not after somebody has been told that it is; a timed wait returns future_status::deferred exactly if f has not begun. get runs f at most once and returns what that run came to, and every get under way can return once f has ended.", "quantifier": "every number of threads and calls, every interleaving, every result type, every time f takes, calls made by f itself", "why_tests_cant": "whether a query waits for user code depends on what another thread is doing just then; a test of a fast function does not notice that its callers wait", "anchors": ["include/boost/thread/future.hpp: shared_state_base::wait_internal, wait_until, timed_wait, get_state, has_value, future_deferred_shared_state::execute (all three)"]}
{"id": "C76", "title": "On Windows, too, a waiting writer holds off new readers of a shared mutex", "statement": "With the Windows shared_mutex: while some thread waits for exclusive ownership, and the mutex has not been free since it began to wait, nobody else is given shared or upgrade ownership, whether by lock_shared, an attempt or a timed call; so the owners there are leave one after the other and the writer is not starved by readers that take turns.", "quantifier": "every number of threads, every mix of the calls on the mutex, every interleaving of their loads, compare-and-swaps, waits, time-outs and releases, every length of history", "why_tests_cant": "starvation is an infinite history; the histories that open the gate wrongly need a time-out at the right place between the steps of three other threads", "anchors": ["include/boost/thread/win32/shared_mutex.hpp: lock, do_lock_until, lock_shared, try_lock_shared, do_lock_shared_until, lock_upgrade, unlock_shared, unlock_upgrade_and_lock_shared, release_waiters"]}
{"id": "C77", "title": "A timed join gives up only when its time has come, and then it does", "statement": "join, try_join_until, try_join_for and timed_join of a thread object return true only when the thread has ended altogether, and false only when the time of the call has come (the steady clock has reached the time point or the sum of the time of the call and the duration; another clock has shown the time point or a later one at some moment during the call) and the thread had not ended before the call; join never gives up; thread_interrupted is thrown only if interruption was requested. A thread that has ended is joined even if the time has passed. A join whose time has come returns, and one that is woken after the end of the thread does; another clock than the steady one is looked at every 100 ms at least.", "quantifier": "every history of calls, every running and setting of the clocks, every duration and time point, every behaviour of the thread, of other joining threads and of interruption, every wake-up, spurious or not; POSIX and Windows", "why_tests_cant": "the result depends on clocks that are set while the call sleeps, on wake-ups at any moment and on how long the thread takes between the end of its function and its end; extreme times are not tried", "anchors": ["include/boost/thread/detail/thread.hpp: thread::join, try_join_until, try_join_for, timed_join, do_try_join_until", "src/pthread/thread.cpp: thread_proxy, join_noexcept, do_try_join_until_noexcept", "src/win32/thread.cpp: join_noexcept, do_try_join_until_noexcept, interruptible_wait"]}
{"id": "C78", "title": "An xtime is the same instant as the time it was made from, and compares as such", "statement": "Converting an xtime to a system_time gives the nearest time that can be represented, at most half a microsecond away, and never exchanges two times; converting a system_time to an xtime is exact and gives 0 <= nsec < 10^9, and back again gives the time one started with; xtime_cmp is negative, zero or positive as the first instant is before, at or after the second; xtime_get stores the instant the clock shows.", "quantifier": "every xtime and every system_time that can be represented; 32- and 64-bit long and int_fast32_t; microsecond and nanosecond resolution", "why_tests_cant": "arithmetic over all 64-bit values: tests use the current time, and so neither times before 1970 nor after 2038", "anchors": ["include/boost/thread/xtime.hpp: xtime::operator system_time, get_xtime, xtime_get, xtime_cmp", "include/boost/thread/thread_time.hpp: get_milliseconds_until"]}
{"id": "C79", "title": "What a thread writes to a guarded stream in one expression is not interrupted by others", "statement": "With an externally_locked_stream, everything that a thread inserts in one expression (stream << a << b << ...), or while it has a guard from hold(), goes out without a character of another thread in between, and consists of the texts of the arguments in order; a text ends early only if inserting it throws, and then the guard is released. A thread that has begun an expression never waits for another thread, may nest expressions if the mutex is recursive, and leaves the stream free at the end.", "quantifier": "any number of threads, expressions, arguments and nested expressions, every text, every interleaving of characters, exceptions at any character", "why_tests_cant": "interleaving of output depends on the schedule of threads at every character; exceptions may come at any of them", "anchors": ["include/boost/thread/externally_locked_stream.hpp: stream_guard, externally_locked_stream::hold, operator<<, operator>>"]}
{"id": "C80", "title": "A POSIX mutex may be destroyed by the thread that has just unlocked it, even if earlier calls of unlock have not returned", "statement": "On POSIX platforms a timed, recursive or shared mutex may be destroyed when no thread owns it and none is in a call that locks it, although calls of unlock (unlock_shared, unlock_upgrade) have not returned, provided another thread has since returned from a call with an ownership that was impossible before: those calls do not use the mutex any more. While a thread owns the mutex exclusively, no earlier call of unlock of another thread will still use it. Without such an acquisition, a call of unlock that has taken effect may still use the mutex.", "quantifier": "all four implementations, any number of threads, every interleaving of operations on members, every history of locking, failed and timed attempts, unlocking and destruction", "why_tests_cant": "the window is between two operations inside unlock; a test would have to stop a thread there and then detect an access to freed memory", "anchors": ["include/boost/thread/pthread/mutex.hpp: timed_mutex", "include/boost/thread/pthread/recursive_mutex.hpp: recursive_mutex, recursive_timed_mutex", "include/boost/thread/pthread/shared_mutex.hpp: shared_mutex", "include/boost/thread/v2/shared_mutex.hpp: shared_mutex, upgrade_mutex"]}
{"id": "C81", "title": "The function in a work is shared by its copies and lives exactly as long as they do", "statement": "An executor's work calls the function object it was made from; copies stand for the same function object, a moved-from or default constructed work does nothing when called, and a work moved onto itself stays as it is. The function object is destroyed once, when the last work that stands for it is destroyed, assigned to or moved from, and never while a call is using it, unless the client takes the last work away during that call.", "quantifier": "any number of works and function objects, every sequence of construction, copying, moving, assignment (to itself as well), destruction and overlapping calls, returning or throwing", "why_tests_cant": "life times depend on every order in which copies end; double destruction and leaks show up only in some", "anchors": ["include/boost/thread/detail/nullary_function.hpp: nullary_function", "include/boost/thread/executors/work.hpp: work"]}
{"id": "C82", "title": "Thread ids tell threads apart", "statement": "Two ids compare equal exactly if they stand for the same thread of execution or both for none, however they were obtained: from the thread object, from inside the thread, by copying, or by default construction. The order of the ids of two threads is total, agrees with equality and never changes. A thread that joins itself is always refused and a thread that joins another never is.", "quantifier": "any number of threads started by the library or not, thread objects and id variables; every history of starts, ends, joins, detachments, queries and comparisons; every choice of identifiers the system may make, reuse included", "why_tests_cant": "the system chooses identifiers and addresses and reuses them as it likes; a test sees one choice", "anchors": ["include/boost/thread/detail/thread.hpp: thread::id, thread::get_id, this_thread::get_id, thread::join, thread::do_try_join_until", "src/pthread/thread.cpp: thread::native_handle"]}
{"id": "C83", "title": "Callbacks and thread-specific data of threads not started by the library", "statement": "When a thread that the library did not start ends, its exit callbacks run, last registered first, and each value it has in a thread_specific_ptr is handed to the cleanup function of the slot exactly once. Callbacks registered and values stored by callbacks, cleanup functions and destructors of other keys are dealt with in the same way in further rounds, so that when the thread ends with rounds to spare every callback has run and every value has been cleaned up; and the number of rounds is bounded.", "quantifier": "any number of slots, callbacks and rounds allowed by the system; every behaviour of the function of the thread, callbacks, cleanup functions and destructors of other keys, nested to any depth", "why_tests_cant": "it depends on what every callback and cleanup function does during every round; a test sees a few", "anchors": ["src/pthread/thread.cpp: tls_destructor, get_current_thread_data, make_external_thread_data, get_or_make_current_thread_data, set_tss_data, add_thread_exit_function", "include/boost/thread/tss.hpp: thread_specific_ptr"]}
{"id": "C84", "title": "Helping with queued closures until a condition holds", "statement": "reschedule_until(pred) carries out closures that are queued in the executor, one by one in the order of their submission, asks pred after each, returns true as soon as pred holds and only then, and returns false only at a moment at which nothing is queued. It never waits for other threads, no closure is invoked twice however many threads help and however calls are nested in closures and predicates, and with a predicate that becomes true after k closures exactly these k closures have been carried out by the call.", "quantifier": "any number of threads, submissions and nested calls; every answer of every predicate; every closure, returning or throwing; every schedule", "why_tests_cant": "whether the queue is empty at the moment the call gives up depends on every interleaving with submissions, workers and other helpers", "anchors": ["include/boost/thread/executors/loop_executor.hpp: reschedule_until, try_executing_one", "include/boost/thread/executors/basic_thread_pool.hpp: reschedule_until, try_executing_one", "include/boost/thread/user_scheduler.hpp: reschedule_until, try_executing_one", "include/boost/thread/executors/executor.hpp: reschedule_until", "include/boost/thread/executors/generic_executor_ref.hpp: reschedule_until"]}
