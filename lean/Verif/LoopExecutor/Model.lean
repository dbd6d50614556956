import Verif.Devector.Model
/-!
# Model of `loop_executor` and `user_scheduler`

Models `/repo/include/boost/thread/executors/loop_executor.hpp` (`us = false`) and `/repo/include/boost/thread/user_scheduler.hpp` (`us = true`).

* The work queue is `concurrent::sync_queue` with its default container, `csbl::devector`; each operation of the queue is one step here (`Verif.DevQueue` models the queue in detail).
* Any number of threads may call any member function at any time, also from inside a closure; a thread's calls in progress are a stack, innermost first.
* Closures are numbered in the order in which the queue accepts them. What a closure does is up to the schedule, and it ends by returning or by throwing.
* `reschedule_until` (loop_executor.hpp 178-188, user_scheduler.hpp 173-183) is a sequence of `try_executing_one`.
* Simplified: an exception that the queue's own operations throw (allocation, interruption of a waiting `loop`) is not modelled; `loop_executor` ends the program in that case (76-80).
-/

namespace Verif.LoopExecutor

def upd {α : Type} (f : Nat → α) (i : Nat) (x : α) : Nat → α := fun j => if j = i then x else f j

@[grind =] theorem upd_apply {α : Type} (f : Nat → α) (i j : Nat) (x : α) : upd f i x j = if j = i then x else f j := rfl

/-- Where a call in progress is, apart from the closure it runs. -/
inductive Kind where
  /-- `try_executing_one` -/
  | one
  /-- the first loop of `loop`: loop_executor.hpp 111-113; user_scheduler.hpp 79-82 before the test -/
  | first
  /-- user_scheduler.hpp 81, after the test -/
  | firstTry
  /-- the second loop of `loop`: loop_executor.hpp 115-117; user_scheduler.hpp 83-85 -/
  | second
  /-- `run_queued_closures` -/
  | batch
deriving DecidableEq, Repr

structure Frame where
  kind : Kind
  /-- the closure in hand and whether it has been invoked -/
  cur : Option (Nat × Bool)
  /-- what is left in the container that `run_queued_closures` has taken -/
  rest : List Nat
deriving DecidableEq, Repr

inductive Phase where
  | up
  | gone
  /-- `std::terminate` has been called -/
  | dead
  /-- undefined behaviour -/
  | ub
deriving DecidableEq, Repr

structure State where
  phase : Phase
  q : Devector Nat
  closed : Bool
  next : Nat
  stk : Nat → List Frame

inductive Event where
  | submitted (t c : Nat)
  | refused (t : Nat)
  | closeReturned (t : Nat)
  | closedIs (t : Nat) (b : Bool)
  /-- `try_executing_one` has taken a closure -/
  | tryTook (t c : Nat)
  | tryReturned (t : Nat) (b : Bool)
  | loopCalled (t : Nat)
  /-- `loop` has taken a closure -/
  | loopTook (t c : Nat)
  | loopReturned (t : Nat)
  /-- `run_queued_closures` has been called -/
  | runCalled (t : Nat)
  | runReturned (t : Nat)
  | runThrew (t : Nat)
  | started (t c : Nat)
  | ended (t c : Nat)
  /-- the closure has ended with an exception -/
  | threw (t c : Nat)
  | terminated
  | destroyed (t : Nat)
  | undefinedBehaviour
deriving DecidableEq, Repr

inductive Label where
  | submit (t : Nat)
  | close (t : Nat)
  | isClosed (t : Nat)
  | tryExec (t : Nat)
  | loop (t : Nat)
  | run (t : Nat)
  /-- the next step of the innermost call -/
  | go (t : Nat)
  | start (t : Nat)
  | finish (t : Nat)
  | throw (t : Nat)
  | destroy (t : Nat)
deriving DecidableEq, Repr

def init : State := { phase := .up, q := .new Nat, closed := false, next := 0, stk := fun _ => [] }

/-- Thread `t` runs client code: it is in no call, or in a closure. -/
def mayCall (s : State) (t : Nat) : Bool :=
  match s.stk t with
  | [] => true
  | f :: _ => match f.cur with | some (_, b) => b | none => false

/-- `submit`: loop_executor.hpp 148-150, user_scheduler.hpp 144-166. -/
def submit (s : State) (t : Nat) : State × List Event :=
  if s.closed then (s, [.refused t]) else ({ s with q := s.q.pushBack s.next, next := s.next + 1 }, [.submitted t s.next])

/-- What `try_pull` and `wait_pull` find in the container: concurrent_queues/sync_queue.hpp:80-84, 139-148, 150-156. -/
inductive Pull where
  | nothing
  | got (c : Nat) (q : Devector Nat)
  /-- `front()` reads the vector out of range -/
  | outOfRange
deriving DecidableEq, Repr

/-- concurrent_queues/sync_queue.hpp:80-84, 141-146. -/
def pull (q : Devector Nat) : Pull :=
  if q.empty then .nothing
  else match q.front with
    | some c => .got c q.popFront
    | none => .outOfRange

/-- Undefined behaviour. -/
def crash (s : State) : State × List Event := ({ s with phase := .ub }, [.undefinedBehaviour])

/-- `try_executing_one` up to the pull: loop_executor.hpp 46-49, 60-74, user_scheduler.hpp 39-49. -/
def tryExec (s : State) (t : Nat) : State × List Event :=
  match pull s.q with
  | .got c q => ({ s with q := q, stk := upd s.stk t (⟨.one, some (c, false), []⟩ :: s.stk t) }, [.tryTook t c])
  | .nothing => (s, [.tryReturned t false])
  | .outOfRange => crash s

/-- `run_queued_closures`: loop_executor.hpp 193-202, with `underlying_queue()` (concurrent_queues/detail/sync_queue_base.hpp:60-63), which moves the container out. In user_scheduler.hpp
187-196 the loop condition is inverted: a non-empty container is taken and dropped, and an empty one is read from. -/
def runQueued (us : Bool) (s : State) (t : Nat) : State × List Event :=
  if us then
    if s.q.moved.empty then ({ s with phase := .ub }, [.runCalled t, .undefinedBehaviour])
    else ({ s with q := s.q.movedFrom }, [.runCalled t, .runReturned t])
  else match s.q.moved.drain s.q.vec.length with
    | some l => ({ s with q := s.q.movedFrom, stk := upd s.stk t (⟨.batch, none, l⟩ :: s.stk t) }, [.runCalled t])
    | none => ({ s with phase := .ub }, [.runCalled t, .undefinedBehaviour])

/-- The next step of the innermost call when it has no closure in hand. `loop`: loop_executor.hpp 109-118 with `execute_one` 60-81; user_scheduler.hpp 77-86.
Where `loop_executor` waits for a closure (66), the step is not enabled; where `user_scheduler` yields (65-71), nothing changes. -/
def go (us : Bool) (s : State) (t : Nat) : Option (State × List Event) :=
  match s.stk t with
  | ⟨k, none, rest⟩ :: fs =>
    match k with
    | .one => none
    | .first =>
      if us then
        if s.closed then some ({ s with stk := upd s.stk t (⟨.second, none, rest⟩ :: fs) }, [])
        else some ({ s with stk := upd s.stk t (⟨.firstTry, none, rest⟩ :: fs) }, [])
      else
        match pull s.q with
        | .got c q => some ({ s with q := q, stk := upd s.stk t (⟨.first, some (c, false), rest⟩ :: fs) }, [.loopTook t c])
        | .outOfRange => some (crash s)
        | .nothing => if s.closed then some ({ s with stk := upd s.stk t (⟨.second, none, rest⟩ :: fs) }, []) else none
    | .firstTry =>
      match pull s.q with
      | .outOfRange => some (crash s)
      | .got c q => some ({ s with q := q, stk := upd s.stk t (⟨.first, some (c, false), rest⟩ :: fs) }, [.loopTook t c])
      | .nothing => some ({ s with stk := upd s.stk t (⟨.first, none, rest⟩ :: fs) }, [])
    | .second =>
      match pull s.q with
      | .outOfRange => some (crash s)
      | .got c q => some ({ s with q := q, stk := upd s.stk t (⟨.second, some (c, false), rest⟩ :: fs) }, [.loopTook t c])
      | .nothing => some ({ s with stk := upd s.stk t fs }, [.loopReturned t])
    | .batch =>
      match rest with
      | c :: rest => some ({ s with stk := upd s.stk t (⟨.batch, some (c, false), rest⟩ :: fs) }, [])
      | [] => some ({ s with stk := upd s.stk t fs }, [.runReturned t])
  | _ => none

/-- `task()`: loop_executor.hpp 70, 199; user_scheduler.hpp 46. -/
def start (s : State) (t : Nat) : Option (State × List Event) :=
  match s.stk t with
  | ⟨k, some (c, false), rest⟩ :: fs => some ({ s with stk := upd s.stk t (⟨k, some (c, true), rest⟩ :: fs) }, [.started t c])
  | _ => none

/-- The closure returns; `try_executing_one` then returns true (loop_executor.hpp 71, user_scheduler.hpp 47). -/
def finish (s : State) (t : Nat) : Option (State × List Event) :=
  match s.stk t with
  | ⟨k, some (c, true), rest⟩ :: fs =>
    match k with
    | .one => some ({ s with stk := upd s.stk t fs }, [.ended t c, .tryReturned t true])
    | _ => some ({ s with stk := upd s.stk t (⟨k, none, rest⟩ :: fs) }, [.ended t c])
  | _ => none

/-- The closure throws. `loop_executor`: `std::terminate` (76-80), except in `run_queued_closures`, which the exception leaves together with the rest of the queue it has taken.
`user_scheduler`: `try_executing_one` catches it and returns false (51-58), which ends the second loop (83). -/
def throw (us : Bool) (s : State) (t : Nat) : Option (State × List Event) :=
  match s.stk t with
  | ⟨k, some (c, true), rest⟩ :: fs =>
    match k with
    | .batch => some ({ s with stk := upd s.stk t fs }, [.threw t c, .runThrew t])
    | .one => if us then some ({ s with stk := upd s.stk t fs }, [.threw t c, .tryReturned t false]) else some ({ s with phase := .dead }, [.threw t c, .terminated])
    | .second => if us then some ({ s with stk := upd s.stk t fs }, [.threw t c, .loopReturned t]) else some ({ s with phase := .dead }, [.threw t c, .terminated])
    | k => if us then some ({ s with stk := upd s.stk t (⟨k, none, rest⟩ :: fs) }, [.threw t c]) else some ({ s with phase := .dead }, [.threw t c, .terminated])
  | _ => none

def step (us : Bool) (s : State) (l : Label) : Option (State × List Event) :=
  if s.phase = .up then
    match l with
    | .submit t => if mayCall s t then some (submit s t) else none
    -- loop_executor.hpp 124-127, user_scheduler.hpp 119-122
    | .close t => if mayCall s t then some ({ s with closed := true }, [.closeReturned t]) else none
    -- loop_executor.hpp 132-135, user_scheduler.hpp 127-130
    | .isClosed t => if mayCall s t then some (s, [.closedIs t s.closed]) else none
    | .tryExec t => if mayCall s t then some (tryExec s t) else none
    | .loop t => if mayCall s t then some ({ s with stk := upd s.stk t (⟨.first, none, []⟩ :: s.stk t) }, [.loopCalled t]) else none
    | .run t => if mayCall s t then some (runQueued us s t) else none
    | .go t => go us s t
    | .start t => start s t
    | .finish t => finish s t
    | .throw t => throw us s t
    -- loop_executor.hpp 100-104, user_scheduler.hpp 105-109: `close()`, then the queue is destroyed with what is in it
    | .destroy t => if mayCall s t then some ({ s with closed := true, phase := .gone, q := .new Nat }, [.destroyed t]) else none
  else none

end Verif.LoopExecutor
