import Verif.Core.Run
/-!
# Model of `basic_thread_pool`

Models `/repo/include/boost/thread/executors/basic_thread_pool.hpp`, and the worker loop it is built on.

* The work queue is `concurrent::sync_queue`; each of its operations is one step here, because `Verif.SyncQueue` proves that the queue behaves like a list with a flag, that a
  consumer is not left asleep when there is an element, and that `close` wakes everybody (`sync_queue_is_fifo`, `no_sleeper_when_nonempty`, `close_releases_everybody`).
  A blocked `wait_pull` stays a state of its own (`Loop.blocked`): the condition variable's wait is where an interruption ends a worker
  (`/repo/include/boost/thread/pthread/condition_variable.hpp` 63-93), and a worker notified but not yet running is still in it.
* Threads `0 … n-1` are the workers, all other numbers are threads of the client. Closures are numbered in the order in which the queue accepts them; what a closure does is up to
  the schedule: it may call `submit`, `close`, `closed`, `try_executing_one`, and it ends by returning, by throwing `thread_interrupted`, or by throwing something else.
* Pulling a closure and invoking it are separate steps: between them the closure is in the local variable `task` of one thread.
* `reschedule_until` (331-341) and `schedule_one_or_yield` (71-77) are sequences of `try_executing_one`.
* Simplified: `join`, `interrupt`, `interrupt_and_join` and the destructor are called by threads of the client that are not inside a closure; the function run at thread entry (105-123) does nothing.
-/

namespace Verif.ThreadPool

def upd {α : Type} (f : Nat → α) (i : Nat) (x : α) : Nat → α := fun j => if j = i then x else f j

@[grind =] theorem upd_apply {α : Type} (f : Nat → α) (i j : Nat) (x : α) : upd f i x j = if j = i then x else f j := rfl

/-- Where a worker is in `worker_thread` (83-103), apart from the closures it runs. -/
inductive Loop where
  /-- not created yet -/
  | unborn
  /-- in the loop, not waiting -/
  | loop
  /-- in the condition variable's wait inside `wait_pull` (91) -/
  | blocked
  /-- has returned -/
  | exited
deriving DecidableEq, Repr

/-- One activation of `task()` (56 or 95): the closure, and whether it has been invoked yet. -/
structure Frame where
  c : Nat
  started : Bool
deriving DecidableEq, Repr

/-- A member function in progress in a thread of the client; the number is the loop variable `i`. -/
inductive Op where
  | none
  /-- 238-245 -/
  | join (i : Nat)
  /-- 250-256 -/
  | intr (i : Nat)
  /-- 261-268; the flag says that worker `i` has been interrupted and is being joined; `dtor` that the caller is the destructor (227-233) -/
  | intrJoin (i : Nat) (flag : Bool) (dtor : Bool)
deriving DecidableEq, Repr

inductive Phase where
  /-- in the constructor, `k` threads created -/
  | building (k : Nat)
  | up
  /-- a thread could not be created after `k` others; `close()` has been called (151-155) -/
  | failed (k : Nat)
  /-- destroyed -/
  | gone
  /-- `std::terminate` has been called -/
  | dead
deriving DecidableEq, Repr

/-- How a closure ends. -/
inductive How where
  | ok
  | interrupted
  | threw
deriving DecidableEq, Repr

structure State where
  phase : Phase
  /-- the work queue: contents and flag -/
  q : List Nat
  closed : Bool
  /-- number of closures accepted so far -/
  next : Nat
  loop : Nat → Loop
  /-- the closures in the hands of each thread, innermost first -/
  stk : Nat → List Frame
  /-- `interrupt_requested` of each worker -/
  intr : Nat → Bool
  op : Nat → Op

inductive Event where
  | constructed
  /-- the system could not create a thread -/
  | spawnFailed
  | ctorThrew
  | terminated
  | submitted (t c : Nat)
  /-- `submit` threw `sync_queue_is_closed` -/
  | refused (t : Nat)
  | closeReturned (t : Nat)
  | closedIs (t : Nat) (b : Bool)
  /-- `try_executing_one` has found a closure -/
  | tryFound (t : Nat)
  /-- `try_executing_one` has returned false -/
  | tryNone (t : Nat)
  /-- `try_executing_one` has returned true -/
  | tryDone (t : Nat)
  | started (t c : Nat)
  | ended (t c : Nat) (how : How)
  | interruptCalled (t : Nat)
  | interruptReturned (t : Nat)
  | joinCalled (t : Nat)
  | joinReturned (t : Nat)
  | interruptJoinCalled (t : Nat)
  | interruptJoinReturned (t : Nat)
  | destroyCalled (t : Nat)
  | destroyed (t : Nat)
deriving DecidableEq, Repr

inductive Label where
  | spawn
  | spawnFails
  | unwind
  | submit (t : Nat)
  | close (t : Nat)
  | isClosed (t : Nat)
  | tryExec (t : Nat)
  /-- a worker's next step in its loop -/
  | work (w : Nat)
  /-- the invocation of the closure a thread has pulled -/
  | start (t : Nat)
  | finish (t : Nat) (how : How)
  /-- a closure meets its thread's interruption request at an interruption point and deals with it -/
  | swallow (t : Nat)
  | join (t : Nat)
  | interrupt (t : Nat)
  | interruptJoin (t : Nat)
  | destroy (t : Nat)
  /-- the next step of the member function in progress -/
  | go (t : Nat)
deriving DecidableEq, Repr

def init : State :=
  { phase := .building 0, q := [], closed := false, next := 0, loop := fun _ => .unborn, stk := fun _ => [], intr := fun _ => false, op := fun _ => .none }

/-- Thread `t` is running client code from which it may call the pool: a client thread that is in no member function, or the innermost closure of any thread. -/
def mayCall (n : Nat) (s : State) (t : Nat) : Bool :=
  match s.stk t with
  | [] => decide (n ≤ t) && s.op t == .none
  | f :: _ => f.started

/-- The closure a thread runs was pulled by `try_executing_one` and not by the worker loop. -/
def viaTry (n t : Nat) (rest : List Frame) : Bool := decide (n ≤ t) || !rest.isEmpty

/-- Constructor 140-157 (the other constructors 165-219 differ in the function run at thread entry only). -/
def spawn (n : Nat) (s : State) : Option (State × List Event) :=
  match s.phase with
  | .building k =>
    if k < n then some ({ s with phase := .building (k + 1), loop := upd s.loop k .loop }, [])
    else some ({ s with phase := .up }, [.constructed])
  | _ => none

/-- 151-155: `close(); throw;`. -/
def spawnFails (n : Nat) (s : State) : Option (State × List Event) :=
  match s.phase with
  | .building k => if k < n then some ({ s with phase := .failed k, closed := true }, [.spawnFailed]) else none
  | _ => none

/-- The members are destroyed while the exception leaves the constructor: first `work_queue`, then `threads` (36-44), whose elements are joinable;
`/repo/include/boost/thread/detail/thread.hpp`'s destructor of a joinable thread calls `std::terminate` (`/repo/include/boost/thread/detail/config.hpp` 185-188). -/
def unwind (s : State) : Option (State × List Event) :=
  match s.phase with
  | .failed k => if k = 0 then some ({ s with phase := .gone }, [.ctorThrew]) else some ({ s with phase := .dead }, [.terminated])
  | _ => none

/-- `submit` 300-302. -/
def submit (s : State) (t : Nat) : State × List Event :=
  if s.closed then (s, [.refused t]) else ({ s with q := s.q ++ [s.next], next := s.next + 1 }, [.submitted t s.next])

/-- `try_executing_one` 51-66, up to the pull. -/
def tryExec (s : State) (t : Nat) : State × List Event :=
  match s.q with
  | c :: q => ({ s with q := q, stk := upd s.stk t (⟨c, false⟩ :: s.stk t) }, [.tryFound t])
  | [] => (s, [.tryNone t])

/-- `worker_thread` 83-103, up to the invocation: `wait_pull` and what follows from its result. A worker that would have to wait looks at its interruption request when it
enters and when it leaves the wait (condition_variable.hpp 75-76, 88); `thread_interrupted` ends the loop (97-100). -/
def work (n : Nat) (s : State) (w : Nat) : Option (State × List Event) :=
  if w < n ∧ s.stk w = [] then
    match s.loop w with
    | .loop =>
      match s.q with
      | c :: q => some ({ s with q := q, stk := upd s.stk w [⟨c, false⟩] }, [])
      | [] =>
        if s.closed then some ({ s with loop := upd s.loop w .exited }, [])
        else if s.intr w then some ({ s with intr := upd s.intr w false, loop := upd s.loop w .exited }, [])
        else some ({ s with loop := upd s.loop w .blocked }, [])
    | .blocked =>
      if s.intr w then some ({ s with intr := upd s.intr w false, loop := upd s.loop w .exited }, [])
      else some ({ s with loop := upd s.loop w .loop }, [])
    | _ => none
  else none

/-- `task()` 56, 95. -/
def start (s : State) (t : Nat) : Option (State × List Event) :=
  match s.stk t with
  | ⟨c, false⟩ :: rest => some ({ s with stk := upd s.stk t (⟨c, true⟩ :: rest) }, [.started t c])
  | _ => none

/-- The end of `task()`: 57-66 in `try_executing_one`, where any exception is fatal; 95-102 in the worker loop, where `thread_interrupted` ends the worker. -/
def finish (n : Nat) (s : State) (t : Nat) (how : How) : Option (State × List Event) :=
  match s.stk t with
  | ⟨c, true⟩ :: rest =>
    match how with
    | .ok => some ({ s with stk := upd s.stk t rest }, .ended t c .ok :: if viaTry n t rest then [.tryDone t] else [])
    | .interrupted =>
      if viaTry n t rest then some ({ s with stk := upd s.stk t rest, phase := .dead }, [.ended t c .interrupted, .terminated])
      else some ({ s with stk := upd s.stk t rest, loop := upd s.loop t .exited }, [.ended t c .interrupted])
    | .threw => some ({ s with stk := upd s.stk t rest, phase := .dead }, [.ended t c .threw, .terminated])
  | _ => none

/-- `threads[i].interrupt()`: no effect on a thread that has ended. -/
def setIntr (s : State) (i : Nat) : State := { s with intr := upd s.intr i true }

/-- The loops of `join` 238-245, `interrupt` 250-256 and `interrupt_and_join` 261-268; `threads[i].join()` returns when worker `i` has returned. -/
def go (n : Nat) (s : State) (t : Nat) : Option (State × List Event) :=
  match s.op t with
  | .none => none
  | .join i =>
    if i < n then if s.loop i = .exited then some ({ s with op := upd s.op t (.join (i + 1)) }, []) else none
    else some ({ s with op := upd s.op t .none }, [.joinReturned t])
  | .intr i =>
    if i < n then some ({ setIntr s i with op := upd s.op t (.intr (i + 1)) }, [])
    else some ({ s with op := upd s.op t .none }, [.interruptReturned t])
  | .intrJoin i false d =>
    if i < n then some ({ setIntr s i with op := upd s.op t (.intrJoin i true d) }, [])
    else if d then some ({ s with op := upd s.op t .none, phase := .gone }, [.destroyed t])
    else some ({ s with op := upd s.op t .none }, [.interruptJoinReturned t])
  | .intrJoin i true d =>
    if s.loop i = .exited then some ({ s with op := upd s.op t (.intrJoin (i + 1) false d) }, []) else none

/-- A member function that only client threads outside closures call. -/
def begin (n : Nat) (s : State) (t : Nat) (o : Op) (e : Event) : Option (State × List Event) :=
  if n ≤ t ∧ s.stk t = [] ∧ s.op t = .none then some ({ s with op := upd s.op t o }, [e]) else none

def step (n : Nat) (s : State) : Label → Option (State × List Event)
  | .spawn => spawn n s
  | .spawnFails => spawnFails n s
  | .unwind => unwind s
  | .work w => if s.phase = .dead ∨ s.phase = .gone then none else work n s w
  | .submit t => if s.phase = .up ∧ mayCall n s t then some (submit s t) else none
  | .close t => if s.phase = .up ∧ mayCall n s t then some ({ s with closed := true }, [.closeReturned t]) else none
  | .isClosed t => if s.phase = .up ∧ mayCall n s t then some (s, [.closedIs t s.closed]) else none
  | .tryExec t => if s.phase = .up ∧ mayCall n s t then some (tryExec s t) else none
  | .start t => if s.phase = .up then start s t else none
  | .finish t how => if s.phase = .up then finish n s t how else none
  | .swallow t => if s.phase = .up ∧ s.stk t ≠ [] ∧ mayCall n s t then some ({ s with intr := upd s.intr t false }, []) else none
  | .join t => if s.phase = .up then begin n s t (.join 0) (.joinCalled t) else none
  | .interrupt t => if s.phase = .up then begin n s t (.intr 0) (.interruptCalled t) else none
  | .interruptJoin t => if s.phase = .up then begin n s t (.intrJoin 0 false false) (.interruptJoinCalled t) else none
  -- 227-233: `close(); interrupt_and_join();`
  | .destroy t =>
    if s.phase = .up then
      (begin n s t (.intrJoin 0 false true) (.destroyCalled t)).map fun p => ({ p.1 with closed := true }, p.2)
    else none
  | .go t => if s.phase = .up then go n s t else none

end Verif.ThreadPool
