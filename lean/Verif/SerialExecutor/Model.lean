import Verif.Core.Run
/-!
# Model of `serial_executor`

Models `/repo/include/boost/thread/executors/serial_executor.hpp`.

* The work queue is `concurrent::sync_queue`; each of its operations is one step here (`Verif.SyncQueue` proves that it behaves like a list with a flag).
* The underlying executor is any executor at all that carries out at most `cap` closures at a time: which of the closures handed to it begins next, and when, is up to the schedule.
  `cap = 1` with the schedule that always takes the oldest is a single-threaded pool; `inline_executor` is a schedule that begins a closure right after it is handed over.
* A caller is the serial executor's own thread, a thread of the client, or a closure that is being carried out. Each caller is in at most one `try_executing_one` at a time.
* Closures are numbered in the order in which the queue accepts them. What a closure does is up to the schedule: it may call `submit`, `close`, `closed` and `try_executing_one`,
  and it ends by returning or by throwing.
* `reschedule_until` (214-223) and `schedule_one_or_yield` (98-104) are sequences of `try_executing_one`.
* Simplified: the end of `task()` and setting the promise (55-57 or 60) are one step. Nobody can observe the time between them: the caller that waits for the promise, and the
  thread of the underlying executor, may in either case go on arbitrarily later.
-/

namespace Verif.SerialExecutor

def upd {α β : Type} [DecidableEq α] (f : α → β) (i : α) (x : β) : α → β := fun j => if j = i then x else f j

@[grind =] theorem upd_apply {α β : Type} [DecidableEq α] (f : α → β) (i j : α) (x : β) : upd f i x j = if j = i then x else f j := rfl

/-- Who calls `try_executing_one`. -/
inductive Caller where
  | worker
  | client (t : Nat)
  | closure (c : Nat)
deriving DecidableEq, Repr

/-- An activation of `try_executing_one` (73-94). -/
inductive Act where
  | none
  /-- before `try_pull` (78) -/
  | called
  /-- `c` pulled, before `ex.submit` (82) -/
  | pulled (c : Nat)
  /-- in `p.get_future().wait()` (83) -/
  | waiting (c : Nat)
deriving DecidableEq, Repr

/-- What has become of a closure. -/
inductive Job where
  /-- not handed to the underlying executor -/
  | idle
  | handed
  | running
  /-- carried out; the promise is ready -/
  | set
deriving DecidableEq, Repr

/-- Where the own thread is in `worker_thread` (109-118). -/
inductive Pc where
  /-- `while (!closed())` -/
  | test
  /-- in the first loop's `try_executing_one` -/
  | first
  /-- in the second loop's `try_executing_one` -/
  | second
  | exited
deriving DecidableEq, Repr

inductive Phase where
  | up
  /-- the destructor, called by client `t`, joins the own thread -/
  | dying (t : Nat)
  | gone
  /-- `std::terminate` has been called -/
  | dead
deriving DecidableEq, Repr

structure State where
  phase : Phase
  q : List Nat
  closed : Bool
  /-- number of closures accepted so far -/
  next : Nat
  pc : Pc
  act : Caller → Act
  job : Nat → Job
  /-- the underlying executor refuses closures -/
  exClosed : Bool

inductive Event where
  | submitted (k : Caller) (c : Nat)
  | refused (k : Caller)
  | closeReturned (k : Caller)
  | closedIs (k : Caller) (b : Bool)
  | tryCalled (k : Caller)
  | tryReturned (k : Caller) (b : Bool)
  | started (c : Nat)
  /-- the flag: by returning, not by throwing -/
  | ended (c : Nat) (normally : Bool)
  /-- the underlying executor has been closed by the client -/
  | underlyingClosed
  /-- a thread that waits in `try_executing_one` is interrupted -/
  | interrupted (k : Caller)
  | terminated
  | destroyCalled (t : Nat)
  | destroyed (t : Nat)
deriving DecidableEq, Repr

inductive Label where
  | submit (k : Caller)
  | close (k : Caller)
  | isClosed (k : Caller)
  | tryExec (k : Caller)
  /-- the next step of a `try_executing_one`, or of the own thread's loops -/
  | go (k : Caller)
  | exStart (c : Nat)
  | exEnd (c : Nat) (normally : Bool)
  | exClose
  | interrupt (k : Caller)
  | destroy (t : Nat)
  | destroyEnd
deriving DecidableEq, Repr

/-- Constructor 131-135. -/
def init : State :=
  { phase := .up, q := [], closed := false, next := 0, pc := .test, act := fun _ => .none, job := fun _ => .idle, exClosed := false }

/-- `k` is running client code from which it may call the executor. -/
def mayCall (s : State) : Caller → Bool
  | .worker => false
  | .client t => s.act (.client t) == .none && (match s.phase with | .dying u => t != u | _ => true)
  | .closure c => s.job c == .running && s.act (.closure c) == .none

/-- `submit` 175-178. -/
def submit (s : State) (k : Caller) : State × List Event :=
  if s.closed then (s, [.refused k]) else ({ s with q := s.q ++ [s.next], next := s.next + 1 }, [.submitted k s.next])

/-- What the own thread does after a `try_executing_one`: back to the test (98-104, 111), or on with the second loop (115). -/
def after (s : State) : Caller → Bool → State
  | .worker, b => { s with pc := match s.pc, b with | .second, false => .exited | .second, true => .second | _, _ => .test }
  | _, _ => s

/-- The own thread's `try_executing_one` is not seen from outside. -/
def seen (k : Caller) (b : Bool) : List Event := if k = .worker then [] else [.tryReturned k b]

/-- `try_executing_one` 73-94: pull (78), hand over (80-82, an exception is fatal 88-93), wait (83). -/
def tryStep (s : State) (k : Caller) : Option (State × List Event) :=
  match s.act k with
  | .none => none
  | .called =>
    match s.q with
    | c :: q => some ({ s with q := q, act := upd s.act k (.pulled c) }, [])
    | [] => some (after { s with act := upd s.act k .none } k false, seen k false)
  | .pulled c =>
    if s.exClosed then some ({ s with phase := .dead }, [.terminated])
    else some ({ s with job := upd s.job c .handed, act := upd s.act k (.waiting c) }, [])
  | .waiting c => if s.job c = .set then some (after { s with act := upd s.act k .none } k true, seen k true) else none

/-- `worker_thread` 109-118. -/
def worker (s : State) : Option (State × List Event) :=
  match s.pc with
  | .test => if s.closed then some ({ s with pc := .second, act := upd s.act .worker .called }, [])
    else some ({ s with pc := .first, act := upd s.act .worker .called }, [])
  | .first => tryStep s .worker
  -- `while (try_executing_one())`
  | .second => if s.act .worker = .none then some ({ s with act := upd s.act .worker .called }, []) else tryStep s .worker
  | .exited => none

/-- The number of closures the underlying executor is carrying out. -/
def busy (s : State) : Nat := ((List.range s.next).filter fun c => s.job c = .running).length

/-- The underlying executor begins a closure (54-55). -/
def exStart (cap : Nat) (s : State) (c : Nat) : Option (State × List Event) :=
  if s.job c = .handed ∧ busy s < cap then some ({ s with job := upd s.job c .running }, [.started c]) else none

/-- The end of a closure, 53-61: the promise is set in either case. -/
def exEnd (s : State) (c : Nat) (normally : Bool) : Option (State × List Event) :=
  if s.job c = .running ∧ s.act (.closure c) = .none then some ({ s with job := upd s.job c .set }, [.ended c normally]) else none

/-- An interruption reaches a thread that waits in 83; `thread_interrupted` is caught in 88. The own thread cannot be interrupted: nobody has access to it. -/
def interrupt (s : State) (k : Caller) : Option (State × List Event) :=
  match k, s.act k with
  | .worker, _ => none
  | _, .waiting c => if s.job c = .set then none else some ({ s with phase := .dead }, [.interrupted k, .terminated])
  | _, _ => none

def running (s : State) : Bool := match s.phase with | .up => true | .dying _ => true | _ => false

def step (cap : Nat) (s : State) : Label → Option (State × List Event)
  | .submit k => if running s ∧ mayCall s k then some (submit s k) else none
  -- 155-158
  | .close k => if running s ∧ mayCall s k then some ({ s with closed := true }, [.closeReturned k]) else none
  -- 163-166
  | .isClosed k => if running s ∧ mayCall s k then some (s, [.closedIs k s.closed]) else none
  | .tryExec k => if running s ∧ mayCall s k then some ({ s with act := upd s.act k .called }, [.tryCalled k]) else none
  | .go k => if running s then (if k = .worker then worker s else tryStep s k) else none
  | .exStart c => if running s then exStart cap s c else none
  | .exEnd c b => if running s then exEnd s c b else none
  | .exClose => if running s then some ({ s with exClosed := true }, [.underlyingClosed]) else none
  | .interrupt k => if running s then interrupt s k else none
  -- 141-145; then the members are destroyed, beginning with `thr` (34-41), a `scoped_thread<>` that joins
  | .destroy t => if s.phase = .up ∧ mayCall s (.client t) then some ({ s with phase := .dying t, closed := true }, [.destroyCalled t]) else none
  | .destroyEnd => match s.phase with | .dying t => if s.pc = .exited then some ({ s with phase := .gone }, [.destroyed t]) else none | _ => none

end Verif.SerialExecutor
