import Verif.Core.Run
/-!
# Model of `packaged_task`

Models `/repo/include/boost/thread/future.hpp`: `task_base_shared_state`, `task_shared_state` and `packaged_task`, with the part of `shared_state_base` and `shared_state` they use.

* Any number of threads, task objects, shared states and futures. Shared states are numbered in the order in which tasks are constructed from functions; function `i` is the one stored in
  shared state `i`. A `shared_ptr` is a number.
* Each critical section of a shared state's mutex is one step. Between the step that invokes the function and the step in which it ends, everything else may happen; the function may
  itself make any call, so a thread has a stack of running functions.
* A future is shared from the start, so that its outcome can be looked at more than once, and waiting is a step that is enabled when the state is done; moving, invalidating and
  waiting are the subject of `Verif.Future`.
* `lib t`: thread `t` was started by `boost::thread`.
* A value is a number. It stands for an object, for the address that a function returning a reference gives (`task_shared_state` 3119-3190 and 3276-3350, `shared_state<T&>` 755-835), or for
  nothing in particular (`void`: 3354-3500, `shared_state<void>` 837-912): `do_run` and `do_apply` of these specialisations take the same steps, and so do the functions of the shared state they call.
* Simplified: a shared state lives for ever (in the code, a task object that its own function destroys while no future refers to the state takes the state with it); allocation does not
  fail; the objects of a move, assignment or swap are not used by another thread at the same time; executors and wait callbacks are not
  treated; functions do not themselves throw `broken_promise`, so that one can tell who threw it.
-/

namespace Verif.PackagedTask

def upd {α : Type} (f : Nat → α) (i : Nat) (x : α) : Nat → α := fun j => if j = i then x else f j

@[grind =] theorem upd_apply {α : Type} (f : Nat → α) (i j : Nat) (x : α) : upd f i x j = if j = i then x else f j := rfl

/-- How a function ends, or why a future has no result. -/
inductive Exc where
  /-- what the function has thrown -/
  | user (e : Nat)
  | broken
deriving DecidableEq, Repr

inductive Out where
  | value (v : Nat)
  | exc (e : Exc)
deriving DecidableEq, Repr

/-- The members `done`, `exception`, `result` of a shared state (159-163, 580) and `started` (2965). -/
structure SS where
  done : Bool := false
  exc : Option Exc := none
  res : Option Nat := none
  started : Bool := false
deriving DecidableEq, Repr

/-- Storing an outcome: `result.reset(new T(..))` (597, 607) or `exception=e` (454, 471). -/
def SS.put (x : SS) : Out → SS
  | .value v => { x with res := some v }
  | .exc e => { x with exc := some e }

/-- `has_value` (487-496). -/
def SS.hasValue (x : SS) : Bool := x.done && x.exc.isNone

/-- What `get` delivers (396-399, 645-663): the exception if there is one, else the result. -/
def SS.outcome (x : SS) : Option Out :=
  match x.exc with
  | some e => some (.exc e)
  | none => x.res.map .value

/-- A `packaged_task` object: `task` and `future_obtained` (3506-3523). -/
structure Task where
  st : Option Nat
  got : Bool
deriving DecidableEq, Repr

/-- How a function was invoked: `operator()` or `make_ready_at_thread_exit`. -/
inductive Mode where
  | now
  | atExit
deriving DecidableEq, Repr

inductive Op where
  /-- construction from a function -/
  | new
  /-- default construction -/
  | empty
  /-- move construction from object `k` -/
  | move (k : Nat)
  /-- move assignment to object `k` from object `j` -/
  | assign (k j : Nat)
  | swap (k j : Nat)
  | destroy (k : Nat)
  | reset (k : Nat)
  | getFuture (k : Nat)
  | valid (k : Nat)
  /-- `operator()` or `make_ready_at_thread_exit` -/
  | call (k : Nat) (m : Mode)
  | isReady (f : Nat)
  | get (f : Nat)
deriving DecidableEq, Repr

inductive Res where
  | ok
  | bool (b : Bool)
  | out (o : Out)
  | moved
  | noState
  | retrieved
  | started
  | satisfied
deriving DecidableEq, Repr

inductive Event where
  | ret (t : Nat) (op : Op) (r : Res)
  /-- a call of object `k` has invoked function `i` -/
  | invoked (t k : Nat) (m : Mode) (i : Nat)
  /-- the function that thread `t` is running has ended with outcome `o`, and the call that invoked it has returned `r` -/
  | ended (t : Nat) (o : Out) (r : Res)
  /-- the thread's function has returned -/
  | exited (t : Nat)
  /-- one result given at thread exit has been published -/
  | published (t : Nat)
deriving DecidableEq, Repr

structure State where
  /-- number of shared states -/
  n : Nat
  ss : Nat → SS
  /-- number of task objects made so far -/
  nt : Nat
  task : Nat → Option Task
  nf : Nat
  fut : Nat → Nat
  stk : Nat → List (Nat × Mode)
  exit : Nat → List Nat
  gone : Nat → Bool

def init : State :=
  { n := 0, ss := fun _ => {}, nt := 0, task := fun _ => none, nf := 0, fut := fun _ => 0, stk := fun _ => [], exit := fun _ => [], gone := fun _ => false }

inductive Label where
  | op (t : Nat) (o : Op)
  /-- the innermost function of thread `t` ends -/
  | finish (t : Nat) (o : Out)
  | exit (t : Nat)
  | publish (t : Nat)
deriving DecidableEq, Repr

/-- `owner_destroyed` (3023-3031). -/
def SS.abandon (x : SS) : SS :=
  if x.started then x else { x with started := true, exc := some .broken, done := true }

/-- `~packaged_task` (3712-3716) on the shared states. -/
def abandon (ss : Nat → SS) : Option Nat → Nat → SS
  | none => ss
  | some i => upd ss i (ss i).abandon

/-- `task_base_shared_state::reset` (2970-2976): the outcome of the last run stays. -/
def SS.reset (x : SS) : SS := { x with started := false }

/-- A call. -/
def doOp (s : State) (t : Nat) : Op → Option (State × List Event)
  -- packaged_task(F) (3563-3581)
  | .new => some ({ s with n := s.n + 1, ss := upd s.ss s.n {}, nt := s.nt + 1, task := upd s.task s.nt (some ⟨some s.n, false⟩) }, [.ret t .new .ok])
  -- packaged_task() (3529-3531)
  | .empty => some ({ s with nt := s.nt + 1, task := upd s.task s.nt (some ⟨none, false⟩) }, [.ret t .empty .ok])
  -- packaged_task(packaged_task&&) (3719-3723)
  | .move k => (s.task k).map fun x => ({ s with nt := s.nt + 1, task := upd (upd s.task k (some ⟨none, false⟩)) s.nt (some x) }, [.ret t (.move k) .ok])
  -- operator= (3724-3733): `temp` takes over the other object, is swapped with this one and destroyed
  | .assign k j =>
    (s.task k).bind fun x => (s.task j).map fun y =>
      if k = j then (s, [.ret t (.assign k j) .ok])
      else ({ s with ss := abandon s.ss x.st, task := upd (upd s.task j (some ⟨none, false⟩)) k (some y) }, [.ret t (.assign k j) .ok])
  -- swap (3754-3757)
  | .swap k j => (s.task k).bind fun x => (s.task j).map fun y => ({ s with task := upd (upd s.task k (some y)) j (some x) }, [.ret t (.swap k j) .ok])
  -- ~packaged_task (3712-3716)
  | .destroy k => (s.task k).map fun x => ({ s with ss := abandon s.ss x.st, task := upd s.task k none }, [.ret t (.destroy k) .ok])
  -- reset (3744-3752)
  | .reset k =>
    (s.task k).map fun x =>
      match x.st with
      | none => (s, [.ret t (.reset k) .noState])
      | some i => ({ s with ss := upd s.ss i (s.ss i).reset, task := upd s.task k (some ⟨some i, false⟩) }, [.ret t (.reset k) .ok])
  -- get_future (3763-3772)
  | .getFuture k =>
    (s.task k).map fun x =>
      match x.st with
      | none => (s, [.ret t (.getFuture k) .moved])
      | some i =>
        if x.got then (s, [.ret t (.getFuture k) .retrieved])
        else ({ s with nf := s.nf + 1, fut := upd s.fut s.nf i, task := upd s.task k (some ⟨some i, true⟩) }, [.ret t (.getFuture k) .ok])
  -- valid (3758-3760)
  | .valid k => (s.task k).map fun x => (s, [.ret t (.valid k) (.bool x.st.isSome)])
  -- operator() and make_ready_at_thread_exit (3776-3804) up to the invocation of the function: run, apply (2979-3021)
  | .call k m =>
    (s.task k).map fun x =>
      match x.st with
      | none => (s, [.ret t (.call k m) .moved])
      | some i =>
        if m = .atExit ∧ (s.ss i).hasValue then (s, [.ret t (.call k m) .satisfied])
        else if (s.ss i).started then (s, [.ret t (.call k m) .started])
        else ({ s with ss := upd s.ss i { s.ss i with started := true }, stk := upd s.stk t ((i, m) :: s.stk t) }, [.invoked t k m i])
  -- is_ready (1389-1401)
  | .isReady f => if f < s.nf then some (s, [.ret t (.isReady f) (.bool (s.ss (s.fut f)).done)]) else none
  -- shared_future::get (2219-2226)
  | .get f =>
    if f < s.nf ∧ (s.ss (s.fut f)).done then
      (s.ss (s.fut f)).outcome.map fun o => (s, [.ret t (.get f) (.out o)])
    else none

/-- The function ends: `do_run` (3090-3112) stores the outcome and makes it available; `do_apply` (3069-3087) stores it and appends the state to the thread's list (thread.cpp 802-809).
In `do_apply`, `set_value_deferred` (669-706) and `set_exception_deferred` (464-473) throw if there is a value already; the former is caught (3083-3086), the latter leaves the call. -/
def finish (lib : Nat → Bool) (s : State) (t : Nat) (o : Out) : Option (State × List Event) :=
  match s.stk t with
  | (i, .now) :: fs => some ({ s with ss := upd s.ss i { (s.ss i).put o with done := true }, stk := upd s.stk t fs }, [.ended t o .ok])
  | (i, .atExit) :: fs =>
    if (s.ss i).hasValue then some ({ s with stk := upd s.stk t fs }, [.ended t o .satisfied])
    else some ({ s with ss := upd s.ss i ((s.ss i).put o), stk := upd s.stk t fs, exit := if lib t then upd s.exit t (s.exit t ++ [i]) else s.exit }, [.ended t o .ok])
  | [] => none

def step (lib : Nat → Bool) (s : State) : Label → Option (State × List Event)
  | .op t o => if s.gone t then none else doOp s t o
  | .finish t o => if o = .exc .broken then none else finish lib s t o
  -- the end of thread_proxy (thread.cpp 168-202)
  | .exit t => if s.gone t = false ∧ s.stk t = [] then some ({ s with gone := upd s.gone t true }, [.exited t]) else none
  -- `~thread_data_base` (thread.cpp 58-62)
  | .publish t =>
    if s.gone t then
      match s.exit t with
      | i :: rest => some ({ s with ss := upd s.ss i { s.ss i with done := true }, exit := upd s.exit t rest }, [.published t])
      | [] => none
    else none

end Verif.PackagedTask
