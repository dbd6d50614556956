import Verif.Core.Run
/-!
# Model of `reschedule_until`

Models `reschedule_until` of `/repo/include/boost/thread/executors/loop_executor.hpp` 178-188, `executors/basic_thread_pool.hpp` 331-341 and `user_scheduler.hpp` 173-183, and of
`executors/executor.hpp` 129-139 and `executors/generic_executor_ref.hpp` 193-203 when they stand for one of these. `us = true` is `user_scheduler`, whose `try_executing_one` catches what a
closure throws.

* Any number of threads make any calls, also from inside closures and from inside the predicates; the calls in progress of a thread are a stack, innermost first.
* What a closure does, and what a predicate answers, is up to the schedule. A closure returns or throws, a predicate answers or throws.
* Other takers of closures (worker threads, `loop`, `try_executing_one` called directly) are threads that take single closures: `take`.
* Simplified: the queue is a list with atomic operations (`Verif.SyncQueue` and `Verif.DevQueue` model it); its operations throw nothing; `run_queued_closures`, the destructors and interruption are not
  modelled (see `Verif.LoopExecutor`, `Verif.ThreadPool`). In `serial_executor` (205-215) the loop is the same, but `try_executing_one` is that of `Verif.SerialExecutor`. `inline_executor` (165-169) and
  `thread_executor` (149-153), which queue nothing, return false.
-/

namespace Verif.Helping

def upd {α : Type} (f : Nat → α) (i : Nat) (x : α) : Nat → α := fun j => if j = i then x else f j

@[grind =] theorem upd_apply {α : Type} (f : Nat → α) (i j : Nat) (x : α) : upd f i x j = if j = i then x else f j := rfl

/-- A call in progress; `inLoop`: the closure was taken by `reschedule_until` and not directly. -/
inductive Frame where
  /-- `reschedule_until` before `try_executing_one` (loop_executor.hpp 182) -/
  | seek
  /-- a closure has been taken and not yet invoked -/
  | holds (c : Nat) (inLoop : Bool)
  | runs (c : Nat) (inLoop : Bool)
  /-- `reschedule_until` evaluates the predicate (186) -/
  | asks
deriving DecidableEq, Repr

structure State where
  q : List Nat
  next : Nat
  closed : Bool
  stk : Nat → List Frame
  dead : Bool

inductive Event where
  | submitted (t c : Nat)
  | refused (t : Nat)
  | closeReturned (t : Nat)
  /-- a call of `reschedule_until` begins -/
  | called (t : Nat)
  /-- a closure is taken out of the queue -/
  | took (t c : Nat)
  | started (t c : Nat)
  | ended (t c : Nat)
  | threw (t c : Nat)
  /-- the predicate of the innermost `reschedule_until` has answered -/
  | predIs (t : Nat) (b : Bool)
  | predThrew (t : Nat)
  | returned (t : Nat) (b : Bool)
  | terminated
deriving DecidableEq, Repr

inductive Label where
  | submit (t : Nat)
  | close (t : Nat)
  | call (t : Nat)
  | take (t : Nat)
  | look (t : Nat)
  | start (t : Nat)
  | finish (t : Nat)
  | throw (t : Nat)
  | pred (t : Nat) (b : Bool)
  | predThrow (t : Nat)
deriving DecidableEq, Repr

def init : State := { q := [], next := 0, closed := false, stk := fun _ => [], dead := false }

/-- Thread `t` runs client code: it is in no call, in a closure or in a predicate. -/
def mayCall (s : State) (t : Nat) : Bool :=
  match s.stk t with
  | [] | .runs _ _ :: _ | .asks :: _ => true
  | _ => false

/-- `try_executing_one` up to `task()`, called by `reschedule_until`: loop_executor.hpp 60-74, basic_thread_pool.hpp 51-66, user_scheduler.hpp 39-49; without a closure it returns false, and so does
`reschedule_until` (loop_executor.hpp 182-185, basic_thread_pool.hpp 335-338, user_scheduler.hpp 177-180). -/
def look (s : State) (t : Nat) : Option (State × List Event) :=
  match s.stk t with
  | .seek :: fs =>
    match s.q with
    | c :: q => some ({ s with q := q, stk := upd s.stk t (.holds c true :: fs) }, [.took t c])
    | [] => some ({ s with stk := upd s.stk t fs }, [.returned t false])
  | _ => none

/-- `task()`: loop_executor.hpp 70, basic_thread_pool.hpp 58, user_scheduler.hpp 46. -/
def start (s : State) (t : Nat) : Option (State × List Event) :=
  match s.stk t with
  | .holds c b :: fs => some ({ s with stk := upd s.stk t (.runs c b :: fs) }, [.started t c])
  | _ => none

/-- The closure returns, and `try_executing_one` returns true; `reschedule_until` evaluates the predicate next. -/
def finish (s : State) (t : Nat) : Option (State × List Event) :=
  match s.stk t with
  | .runs c true :: fs => some ({ s with stk := upd s.stk t (.asks :: fs) }, [.ended t c])
  | .runs c false :: fs => some ({ s with stk := upd s.stk t fs }, [.ended t c])
  | _ => none

/-- The closure throws: `std::terminate` (loop_executor.hpp 76-80, basic_thread_pool.hpp 62-66), or false from `try_executing_one` (user_scheduler.hpp 51-58) and hence from `reschedule_until`. -/
def throw (us : Bool) (s : State) (t : Nat) : Option (State × List Event) :=
  match s.stk t with
  | .runs c b :: fs =>
    if us then
      if b then some ({ s with stk := upd s.stk t fs }, [.threw t c, .returned t false]) else some ({ s with stk := upd s.stk t fs }, [.threw t c])
    else some ({ s with dead := true }, [.threw t c, .terminated])
  | _ => none

/-- `while (! pred()); return true;`: loop_executor.hpp 186-187, basic_thread_pool.hpp 339-340, user_scheduler.hpp 181-182. -/
def pred (s : State) (t : Nat) (b : Bool) : Option (State × List Event) :=
  match s.stk t with
  | .asks :: fs => if b then some ({ s with stk := upd s.stk t fs }, [.predIs t true, .returned t true]) else some ({ s with stk := upd s.stk t (.seek :: fs) }, [.predIs t false])
  | _ => none

def step (us : Bool) (s : State) (l : Label) : Option (State × List Event) :=
  if s.dead then none
  else match l with
    -- loop_executor.hpp 148-150, basic_thread_pool.hpp 297-299, user_scheduler.hpp 144-166
    | .submit t =>
      if mayCall s t then
        if s.closed then some (s, [.refused t]) else some ({ s with q := s.q ++ [s.next], next := s.next + 1 }, [.submitted t s.next])
      else none
    | .close t => if mayCall s t then some ({ s with closed := true }, [.closeReturned t]) else none
    | .call t => if mayCall s t then some ({ s with stk := upd s.stk t (.seek :: s.stk t) }, [.called t]) else none
    | .take t =>
      if mayCall s t then
        match s.q with
        | c :: q => some ({ s with q := q, stk := upd s.stk t (.holds c false :: s.stk t) }, [.took t c])
        | [] => none
      else none
    | .look t => look s t
    | .start t => start s t
    | .finish t => finish s t
    | .throw t => throw us s t
    | .pred t b => pred s t b
    -- the exception of the predicate leaves `reschedule_until`
    | .predThrow t =>
      match s.stk t with
      | .asks :: fs => some ({ s with stk := upd s.stk t fs }, [.predThrew t])
      | _ => none

end Verif.Helping
