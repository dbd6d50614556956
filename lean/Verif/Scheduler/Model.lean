import Verif.TimedQueue.Model
/-!
# Model of the scheduling executors

Models `/repo/include/boost/thread/executors/detail/priority_executor_base.hpp`, `detail/scheduled_executor_base.hpp`, `scheduled_thread_pool.hpp`, `scheduler.hpp` and
`scheduling_adaptor.hpp`.

* The work queue is the model of `sync_timed_queue` in `Verif.TimedQueue`, run step by step inside this one; its labels and clock readings are part of the labels here.
* Threads `0 .. n-1` are the workers (`n = 1` for `scheduler` and `scheduling_adaptor`); the others are clients. Closures may call the member functions too.
* What a closure does is up to the schedule: it may submit, close, catch an interruption, return, throw, or let `thread_interrupted` escape.
* `scheduling_adaptor` is the case `n = 1` without any submission through an executor: it stores the executor it is given (scheduling_adaptor.hpp 29, 35) and never uses it.

Simplified: clients do not use the object once its destruction has begun, as for any object; the destructor does not run in a worker; the creation of the threads succeeds;
memory does not run out; the executor given to `on(ex)` is a flag saying whether it still accepts work.
-/

namespace Verif.Scheduler

open TimedQueue (Reads Kind)

def upd {α : Type} (f : Nat → α) (i : Nat) (x : α) : Nat → α := fun j => if j = i then x else f j

@[grind =] theorem upd_apply {α : Type} (f : Nat → α) (i j : Nat) (x : α) : upd f i x j = if j = i then x else f j := rfl

/-- A closure in the queue. -/
inductive Work where
  /-- a closure of the client -/
  | fn (id : Nat)
  /-- `resubmit(ex, f)` (scheduler.hpp 31-54): submits the client's closure to `ex` -/
  | hand (id : Nat)
deriving DecidableEq, Repr

/-- Where `loop` is (priority_executor_base.hpp 54-77). -/
inductive Worker where
  /-- line 62 -/
  | fetch
  /-- line 64 -/
  | busy (v : Work)
  /-- lines 63, 68 -/
  | left
deriving DecidableEq, Repr

/-- The destructors: scheduled_thread_pool.hpp 35-40, scheduler.hpp 237-242, scheduling_adaptor.hpp 38-43. -/
inductive Dtor where
  | none
  /-- in `close()` -/
  | closing (d : Nat)
  /-- the first `k` workers have been interrupted; at `k = n` joining -/
  | intr (d k : Nat)
  | gone
deriving DecidableEq, Repr

inductive Why where
  | threw
  | executorClosed
deriving DecidableEq, Repr

inductive Event where
  | accepted (t : Nat) (v : Work) (due : Int)
  /-- `sync_queue_is_closed` was thrown; `own`: the object that `at` / `on` returned had been closed itself -/
  | refused (t : Nat) (v : Work) (own : Bool)
  | closed (t : Nat)
  | closeReturned (t : Nat)
  | executorClosed
  /-- worker `w` calls closure `v`, submitted for time `due`, having read `now` -/
  | started (w : Nat) (v : Work) (due now : Int)
  | ended (w : Nat) (v : Work)
  /-- the executor has accepted the client's closure -/
  | handed (w id : Nat)
  /-- `thread_interrupted` escaped from the closure -/
  | abandoned (w : Nat) (v : Work)
  /-- the worker has left because the queue is closed, having read `now` -/
  | left (w : Nat) (now : Int)
  /-- the worker has left because it was interrupted while waiting -/
  | leftInterrupted (w : Nat)
  | terminated (w : Nat) (v : Work) (why : Why)
  | destroying (d : Nat)
  | interrupted (w : Nat)
  | destroyed (d : Nat)
  | garbage (w : Nat)
deriving DecidableEq, Repr

structure State where
  q : TimedQueue.State Work
  w : Nat → Worker
  /-- an interruption of the worker is pending -/
  intr : Nat → Bool
  /-- the thread is between the test and the submission in `submit` of a wrapper (scheduler.hpp 82-86, 203-207) -/
  via : Nat → Option (Work × Int)
  exClosed : Bool
  dtor : Dtor
  dead : Bool

def init (n clients : Nat) (now steady : Int) : State :=
  { q := TimedQueue.init Work now steady (n + clients), w := fun t => if t < n then .fetch else .left, intr := fun _ => false, via := fun _ => none,
    exClosed := false, dtor := .none, dead := false }

inductive Label where
  /-- `submit_at`; `submit_after` with `due` computed from a reading of the clock (scheduled_executor_base.hpp 48-56) -/
  | submit (t : Nat) (v : Work) (due : Int)
  /-- `submit` of the objects that `at`, `after` and `on` return, up to the submission; `own` is their flag `is_closed` -/
  | via (t : Nat) (v : Work) (due : Int) (own : Bool)
  | push (t : Nat)
  | close (t : Nat)
  | closeNotify (t : Nat)
  | closeExecutor
  | fetch (w : Nat) (r : Reads) (i : Nat)
  | resume (w : Nat) (r : Reads) (i : Nat)
  | spurious (w : Nat)
  | timeout (w : Nat) (now : Int)
  | interruptWait (w : Nat)
  /-- the closure returns; a `resubmit` closure does so after submitting -/
  | finish (w : Nat)
  | throw (w : Nat)
  /-- `thread_interrupted` escapes from the closure: it was interrupted, or it throws the object by itself -/
  | throwInterrupted (w : Nat)
  /-- the closure notices the interruption and handles it -/
  | swallow (w : Nat)
  | destroy (d : Nat)
  | destroyNotify
  | interruptNext
  | join
deriving DecidableEq, Repr

/-- Thread `t` runs client code and may call member functions. -/
def mayCall (n : Nat) (s : State) (t : Nat) : Bool :=
  s.via t = none && (if t < n then (match s.w t with | .busy _ => true | _ => false) else s.dtor == .none)

/-- What the events of the queue mean for the executor. -/
def lift : TimedQueue.Event Work → List Event
  | .pushed t v due true => [.accepted t v due]
  | .pushed t v _ false => [.refused t v false]
  | .pulled t v due now => [.started t v due now]
  | .closedPull t now => [.left t now]
  | .interrupted t => [.leftInterrupted t]
  | .closed t => [.closed t]
  | .closeReturned t => [.closeReturned t]
  | .garbage t => [.garbage t]
  | _ => []

/-- priority_executor_base.hpp 60-69: what the worker does next. -/
def after (w : Worker) : List (TimedQueue.Event Work) → Worker
  | [.pulled _ v _ _] => .busy v
  | [.closedPull _ _] => .left
  | [.interrupted _] => .left
  | _ => w

/-- One step of the queue, by thread `t`. -/
def queue (c : TimedQueue.Cfg) (s : State) (t : Nat) (l : TimedQueue.Label Work) : Option (State × List Event) :=
  match TimedQueue.step c s.q l with
  | none => none
  | some (q, es) => some ({ s with q, w := upd s.w t (after (s.w t) es) }, es.flatMap lift)

/-- The worker is in its closure and not in a call of a member function. -/
def inClosure (s : State) (t : Nat) : Option Work :=
  match s.w t with
  | .busy v => if s.via t = none ∧ s.q.ts[t]? = some .idle then some v else none
  | _ => none

/-- `closed()` of the objects that `at`, `after` and `on` return: scheduler.hpp 103-106, 195-198. The flags are only ever set, so reading them one after the other is
the same as reading them at once. -/
def wrapperClosed (s : State) (v : Work) (own : Bool) : Bool :=
  own || s.q.closed || (match v with | .hand _ => s.exClosed | .fn _ => false)

def step (c : TimedQueue.Cfg) (n : Nat) (s : State) (l : Label) : Option (State × List Event) :=
  if s.dead then none else
  match l with
  | .submit t v due => if mayCall n s t then queue c s t (.push t v due) else none
  | .via t v due own =>                                        -- scheduler.hpp 80-85, 201-206
    if mayCall n s t ∧ s.q.ts[t]? = some .idle then
      if wrapperClosed s v own then some (s, [.refused t v own])
      else some ({ s with via := upd s.via t (some (v, due)) }, [])
    else none
  | .push t =>                                                 -- scheduler.hpp 86, 207
    match s.via t with
    | some (v, due) => if t < n ∨ s.dtor = .none then queue c { s with via := upd s.via t none } t (.push t v due) else none
    | none => none
  | .close t => if mayCall n s t then queue c s t (.close t) else none
  | .closeNotify t => if mayCall n s t then queue c s t (.closeNotify t) else none
  | .closeExecutor => if s.dtor = .gone then none else some ({ s with exClosed := true }, [.executorClosed])
  | .fetch w r i => if s.w w = .fetch then queue c s w (.pull w .status r i) else none
  | .resume w r i => if s.w w = .fetch then queue c s w (.resume w r i) else none
  | .spurious w => if s.w w = .fetch then queue c s w (.spurious w) else none
  | .timeout w now => if s.w w = .fetch then queue c s w (.timeout w now) else none
  | .interruptWait w =>                                        -- priority_executor_base.hpp 66-69
    if s.w w = .fetch ∧ s.intr w = true then queue c { s with intr := upd s.intr w false } w (.interrupt w) else none
  | .finish w =>                                               -- priority_executor_base.hpp 64, scheduler.hpp 39-42
    match inClosure s w with
    | some (.fn id) => some ({ s with w := upd s.w w .fetch }, [.ended w (.fn id)])
    | some (.hand id) =>
      if s.exClosed then some ({ s with dead := true }, [.terminated w (.hand id) .executorClosed])
      else some ({ s with w := upd s.w w .fetch }, [.handed w id])
    | none => none
  | .throw w =>                                                -- priority_executor_base.hpp 72-76
    match inClosure s w with
    | some v => some ({ s with dead := true }, [.terminated w v .threw])
    | none => none
  | .throwInterrupted w =>                                     -- priority_executor_base.hpp 66-69
    match inClosure s w with
    | some v => some ({ s with w := upd s.w w .left, intr := upd s.intr w false }, [.abandoned w v])
    | none => none
  | .swallow w =>
    match inClosure s w with
    | some _ => if s.intr w then some ({ s with intr := upd s.intr w false }, []) else none
    | none => none
  | .destroy d =>                                              -- scheduled_thread_pool.hpp 37, scheduler.hpp 239
    if n ≤ d ∧ s.dtor = .none ∧ s.via d = none then
      match TimedQueue.step c s.q (.close d) with
      | none => none
      | some (q, es) => some ({ s with q, dtor := .closing d }, .destroying d :: es.flatMap lift)
    else none
  | .destroyNotify =>
    match s.dtor with
    | .closing d =>
      match TimedQueue.step c s.q (.closeNotify d) with
      | none => none
      | some (q, es) => some ({ s with q, dtor := .intr d 0 }, es.flatMap lift)
    | _ => none
  | .interruptNext =>                                          -- scheduled_thread_pool.hpp 38, scheduler.hpp 240
    match s.dtor with
    | .intr d k => if k < n then some ({ s with dtor := .intr d (k + 1), intr := upd s.intr k true }, [.interrupted k]) else none
    | _ => none
  | .join =>                                                   -- scheduled_thread_pool.hpp 39, scheduler.hpp 241
    match s.dtor with
    | .intr d k => if k = n ∧ ∀ w < n, s.w w = .left then some ({ s with dtor := .gone }, [.destroyed d]) else none
    | _ => none

end Verif.Scheduler
