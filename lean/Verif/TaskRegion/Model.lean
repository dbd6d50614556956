import Verif.TaskRegion.Spec
/-!
# Model of task regions

include/boost/thread/experimental/parallel/v2/task_region.hpp, with `BOOST_THREAD_TASK_REGION_HAS_SHARED_CANCELED` (defined in line 28) and executors;
v1/exception_list.hpp.

* The executor is a queue of tasks and threads `worker i` that take them in order (C41); `limit`: their number (`none`: a thread for every task, as
  `thread_executor` has). It does not drop tasks. Exceptions from `submit` are modelled.
* `async(ex, f)` (C56): the future becomes ready when the function has ended; the exception is kept in the future, for any number of calls of
  `get_exception_ptr`.
* `wait_for_all` and the collection of the exceptions (127-150) are one step, possible when all futures are ready: a future that is ready stays so.
  The wait is an interruption point as long as one is not ready.
* `run` and `wait` are called by the function given to `task_region`, in its thread (documentation, parallel.qbk).
-/

namespace Verif.TaskRegion

/-- What happens in a thread: `region r` is a call of `task_region`, `task t` a call of a task's function. -/
inductive Frame where
  | region (r : Nat)
  | task (t : Nat)
deriving DecidableEq, Repr

inductive Phase where
  /-- destroyed (or not yet there) -/
  | gone
  /-- in the function (277, 298) -/
  | body
  /-- in `wait` (241) -/
  | waiting
  /-- in the last `wait_all` (283, 304) -/
  | final
deriving DecidableEq, Repr

/-- `task_region_handle_gen` (190-199). `owner` is the thread that has called `task_region`. -/
structure Reg where
  owner : Who := .client 0
  phase : Phase := .gone
  canceled : Bool := false
  group : List Nat := []
  exs : List Nat := []

inductive TSt where
  | queued
  | running
  /-- the function has thrown (98) -/
  | thrown (e : Exc)
  /-- `canceled` is set (100-101) -/
  | failing (e : Exc)
  /-- the future is ready -/
  | done (o : Option Exc)

/-- `wrapped` (85-105); `reg`: its reference `tr`. `runner` is the thread that calls it. -/
structure Task where
  reg : Nat := 0
  st : TSt := .queued
  runner : Nat := 0

structure St where
  limit : Option Nat
  nr : Nat := 0
  nt : Nat := 0
  queue : List Nat := []
  reg : Nat → Reg := fun _ => {}
  task : Nat → Task := fun _ => {}
  stack : Who → List Frame := fun _ => []

def init (limit : Option Nat) : St := { limit := limit }

inductive Label where
  | open (w : Who)
  /-- `refused`: the executor throws -/
  | run (w : Who) (refused : Bool)
  /-- `run` where `push_back` throws (218) -/
  | runNoMemory (w : Who)
  | wait (w : Who)
  /-- the end of `wait_all` -/
  | go (w : Who)
  /-- `wait_all` is interrupted -/
  | interrupt (w : Who)
  /-- the function returns or throws -/
  | leave (w : Who) (o : Option Exc)
  /-- worker `i` takes the next task -/
  | start (i : Nat)
  /-- the task's function returns or throws -/
  | body (w : Who) (o : Option Exc)
  | cancel (w : Who)
  | ready (w : Who)

def updW {α : Type} (f : Who → α) (w : Who) (x : α) : Who → α := fun v => if v = w then x else f v

mutual
/-- `handle_task_region_exceptions` (54-82). -/
def handle (errors : List Nat) : Exc → List Nat
  | .canceled => errors
  | .list l => handleAll errors l
  | .user n => errors ++ [n]
/-- The loop in 66-77. -/
def handleAll (errors : List Nat) : List Exc → List Nat
  | [] => errors
  | e :: l => handleAll (handle errors e) l
end

/-- 279-282, 300-303. -/
def caught (errors : List Nat) : Option Exc → List Nat
  | none => errors
  | some e => handle errors e

/-- One turn of the loop in 131-145. -/
def collect1 (exs : List Nat) : TSt → List Nat
  | .done (some e) => handle exs e
  | _ => exs

/-- The loop in `wait_all` (131-145). -/
def collect (task : Nat → Task) (exs : List Nat) (group : List Nat) : List Nat := group.foldl (fun exs t => collect1 exs (task t).st) exs

def TSt.isDone : TSt → Bool
  | .done _ => true
  | _ => false

/-- All futures are ready. -/
def St.allDone (s : St) (r : Nat) : Bool := (s.reg r).group.all fun t => (s.task t).st.isDone

/-- A thread of the executor. -/
def St.works (s : St) (i : Nat) : Bool :=
  match s.limit with
  | none => true
  | some k => decide (i < k)

def St.setR (s : St) (r : Nat) (x : Reg) : St := { s with reg := upd s.reg r x }
def St.setT (s : St) (t : Nat) (x : TSt) : St := { s with task := upd s.task t { s.task t with st := x } }
def St.setS (s : St) (w : Who) (l : List Frame) : St := { s with stack := updW s.stack w l }

/-- The region whose function is executed by thread `w` right now. -/
def St.body? (s : St) (w : Who) : Option Nat :=
  match s.stack w with
  | .region r :: _ => if (s.reg r).phase = .body then some r else none
  | _ => none

/-- User code is executed by thread `w`. -/
def St.user (s : St) (w : Who) : Bool :=
  match s.stack w, w with
  | [], .client _ => true
  | [], .worker _ => false
  | .region r :: _, _ => decide ((s.reg r).phase = .body)
  | .task t :: _, _ => match (s.task t).st with | .running => true | _ => false

/-- The task that thread `w` is executing. -/
def St.task? (s : St) (w : Who) : Option Nat :=
  match s.stack w with
  | .task t :: _ => some t
  | _ => none

def stepWait (s : St) (w : Who) : Option (St × List Event) :=
  match s.body? w with
  | some r =>
    -- 234-239
    if (s.reg r).canceled then some (s, [.waitCanceled w r]) else some (s.setR r { s.reg r with phase := .waiting }, [.waiting w r])
  | none => none

/-- `run` (207-229). The submission of the task is one step; `keep`: `push_back` succeeds. -/
def stepRun (s : St) (w : Who) (refused keep : Bool) : Option (St × List Event) :=
  match s.body? w with
  | some r =>
    if (s.reg r).canceled then some (s, [.runCanceled w r])
    else if refused then some (s, [.runFailed w r])
    else
      let s' := { s with nt := s.nt + 1, queue := s.queue ++ [s.nt], task := upd s.task s.nt { reg := r } }
      if keep then some (s'.setR r { s.reg r with group := (s.reg r).group ++ [s.nt] }, [.ran w r s.nt]) else some (s', [.runFailed w r])
  | none => none

/-- The end of `wait_all` (127-150). -/
def stepGo (s : St) (w : Who) : Option (St × List Event) :=
  match s.stack w with
  | .region r :: rest =>
    if s.allDone r then
      let exs := collect s.task (s.reg r).exs (s.reg r).group
      match (s.reg r).phase with
      | .waiting =>
        some (s.setR r { s.reg r with phase := .body, exs := exs }, [if exs = [] then .waited w r else .waitThrew w r exs])
      | .final => some ((s.setR r { s.reg r with phase := .gone, exs := exs }).setS w rest, [.closed w r exs])
      | _ => none
    else none
  | _ => none

def stepInterrupt (s : St) (w : Who) : Option (St × List Event) :=
  match s.stack w with
  | .region r :: rest =>
    if s.allDone r then none
    else
      match (s.reg r).phase with
      | .waiting => some (s.setR r { s.reg r with phase := .body }, [.waitInterrupted w r])
      | .final => some ((s.setR r { s.reg r with phase := .gone }).setS w rest, [.closedEarly w r])
      | _ => none
  | _ => none

/-- The function returns or throws (275-283, 296-304). -/
def stepLeave (s : St) (w : Who) (o : Option Exc) : Option (St × List Event) :=
  match s.body? w with
  | some r =>
    some (s.setR r { s.reg r with phase := .final, exs := caught (s.reg r).exs o }, [.left w r o])
  | none => none

def stepStart (s : St) (i : Nat) : Option (St × List Event) :=
  if s.works i = true ∧ s.stack (.worker i) = [] then
    match s.queue with
    | t :: q =>
      some ({ s with queue := q, task := upd s.task t { s.task t with st := .running, runner := i }, stack := updW s.stack (.worker i) [.task t] }, [.began t])
    | [] => none
  else none

/-- The end of a task's function (96). -/
def stepBody (s : St) (w : Who) (o : Option Exc) : Option (St × List Event) :=
  match s.stack w with
  | .task t :: rest =>
    match (s.task t).st with
    | .running =>
      match o with
      | none => some ((s.setT t (.done none)).setS w rest, [.ended t none])
      | some e => some (s.setT t (.thrown e), [.ended t (some e)])
    | _ => none
  | _ => none

/-- 100-101: `tr` may be gone. -/
def stepCancel (s : St) (w : Who) : Option (St × List Event) :=
  match s.task? w with
  | some t =>
    match (s.task t).st with
    | .thrown e =>
      if (s.reg (s.task t).reg).phase = .gone then some (s.setT t (.failing e), [.dangling t])
      else some ((s.setT t (.failing e)).setR (s.task t).reg { s.reg (s.task t).reg with canceled := true }, [])
    | _ => none
  | none => none

/-- The future becomes ready. -/
def stepReady (s : St) (w : Who) : Option (St × List Event) :=
  match s.stack w with
  | .task t :: rest =>
    match (s.task t).st with
    | .failing e => some ((s.setT t (.done (some e))).setS w rest, [])
    | _ => none
  | _ => none

def step (s : St) : Label → Option (St × List Event)
  -- 274-277, 295-298
  | .open w =>
    if s.user w then
      some ({ s.setR s.nr { owner := w, phase := .body } with nr := s.nr + 1, stack := updW s.stack w (.region s.nr :: s.stack w) }, [.opened w s.nr])
    else none
  | .run w refused => stepRun s w refused true
  | .runNoMemory w => stepRun s w false false
  | .wait w => stepWait s w
  | .go w => stepGo s w
  | .interrupt w => stepInterrupt s w
  | .leave w o => stepLeave s w o
  | .start i => stepStart s i
  | .body w o => stepBody s w o
  | .cancel w => stepCancel s w
  | .ready w => stepReady s w

end Verif.TaskRegion
