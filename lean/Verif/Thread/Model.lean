import Verif.Core.Run
/-!
# Model of `boost::thread`: starting, joining, detaching and moving

Models `/repo/src/pthread/thread.cpp` 168-202 (`thread_proxy`), 260-306 (`start_thread_noexcept`), 315-438 (`join_noexcept`, `do_try_join_until_noexcept`, `joinable`,
`detach`) and `/repo/include/boost/thread/detail/thread.hpp` 250-261 (destructor), 342-367 (move), 456-459 (`swap`), 759-784 (`join`, `do_try_join_until`).

* Threads are numbered in the order in which they are started; thread 0 is the initial thread. Thread objects are numbered; a number whose object holds no thread
  stands for a moved-from, default-constructed or not (or no longer) existing object.
* What happens under `data_mutex` between two releases of it (unlocking or waiting) is one step; the mutex and the condition variable are those of C01 and C16.
* Reading, replacing and exchanging the `thread_info` pointer of an object are each one step. In C++ doing so concurrently on the same object is a data race; that
  part of the contract is the `strict` parameter of the specification.
* The waits may end spuriously, on time-out (timed join), or by `thread_interrupted`, whenever the environment wants.
* The thread function is client code; it returns, or it throws `thread_interrupted`, which `thread_proxy` swallows. The callbacks registered for thread exit run
  before the end of the function in this model (they run before `done` is set). Another exception terminates the program and is not modelled.
* Not modelled: failure of `pthread_attr_getdetachstate`, lifetime of the `thread_data` (C33, C40), Windows.
-/

namespace Verif.Thread

/-- What is still to be done by a thread inside a call. -/
inductive PC where
  | idle
  /-- `join`/`try_join`: past the comparison of ids (thread.hpp 760, 770) -/
  | checked (o : Nat) (timed : Bool)
  /-- holds a copy of the pointer (thread.cpp 317, 365); about to lock -/
  | enter (o t : Nat) (timed : Bool)
  /-- waiting for `done` (326, 374) -/
  | wDone (o t : Nat) (timed woken : Bool)
  /-- waiting for `joined` (338, 391) -/
  | wJoined (o t : Nat) (woken : Bool)
  /-- about to call `pthread_join` (345, 398) -/
  | nat (o t : Nat)
  /-- about to set `joined` (347, 400) -/
  | setJ (o t : Nat)
  /-- about to reset the pointer and return (351-355, 404-409) -/
  | fin (o t : Nat)
  /-- `detach`: the pointer has been taken out (426); about to lock -/
  | det (t : Nat)
  /-- `operator=`: inside its `detach` -/
  | detA (t dst src : Nat)
  /-- `operator=`: about to move the pointer (thread.hpp 364-365) -/
  | asg (dst src : Nat)
deriving DecidableEq, Repr

inductive Phase where
  /-- not started yet -/
  | none
  | running
  /-- the function has returned -/
  | returned
  /-- `done` is set (thread.cpp 198) -/
  | done
  /-- the operating system thread has ended -/
  | exited
deriving DecidableEq, Repr

def Phase.rank : Phase → Nat
  | none => 0
  | running => 1
  | returned => 2
  | done => 3
  | exited => 4

/-- A thread and the `thread_data_base` that belongs to it (thread_data.hpp 112-120). -/
structure Thr where
  phase : Phase := .none
  joinStarted : Bool := false
  joined : Bool := false
  /-- `pthread_join` or `pthread_detach` has been called for this thread -/
  native : Bool := false
  pc : PC := .idle

/-- `done` of the thread's data. -/
def Thr.isDone (x : Thr) : Bool := decide (3 ≤ x.phase.rank)

structure State where
  objs : Nat → Option Nat := fun _ => .none
  thr : Nat → Thr := fun i => if i = 0 then { phase := .running } else {}
  n : Nat := 1
  /-- `std::terminate` has been called -/
  dead : Bool := false

/-- `BOOST_THREAD_PROVIDES_THREAD_DESTRUCTOR_CALLS_TERMINATE_IF_JOINABLE`, `BOOST_THREAD_PROVIDES_THREAD_MOVE_ASSIGN_CALLS_TERMINATE_IF_JOINABLE`. -/
structure Cfg where
  dtor : Bool
  assign : Bool

inductive Start where
  | fails
  | joinable
  | detached
deriving DecidableEq, Repr

inductive Op where
  | start (o : Nat) (k : Start)
  | join (o : Nat) (timed : Bool)
  | detach (o : Nat)
  | destroy (o : Nat)
  | moveCtor (dst src : Nat)
  | moveAsg (dst src : Nat)
  | swap (a b : Nat)
  | joinable (o : Nat)
deriving DecidableEq, Repr

inductive Label where
  | call (c : Nat) (op : Op)
  /-- the next step of a thread inside a call -/
  | go (c : Nat)
  /-- spurious end of a wait -/
  | spurious (c : Nat)
  | timeout (c : Nat)
  | interrupt (c : Nat)
  /-- the thread function returns -/
  | ret (c : Nat)
  | setDone (c : Nat)
  | exit (c : Nat)
deriving DecidableEq, Repr

inductive Event where
  | started (c o t : Nat)
  | startFailed (c o : Nat)
  | startedDetached (c t : Nat)
  /-- `join` (timed or not) has begun, past the self-join check -/
  | joinCall (c o : Nat) (timed : Bool)
  /-- it returned (`true`); it waited for thread `t` -/
  | joinOk (c o t : Nat)
  | joinTimeout (c o : Nat)
  | joinInterrupted (c o : Nat)
  /-- it threw `invalid_argument` -/
  | joinNone (c o : Nat)
  /-- it threw `resource_deadlock_would_occur` -/
  | joinSelf (c o : Nat)
  | detachCall (c o : Nat)
  | detachRet (c : Nat)
  | asgCall (c dst src : Nat)
  | asgRet (c dst src : Nat)
  | moved (c dst src : Nat)
  | swapped (c a b : Nat)
  | joinable (c o : Nat) (b : Bool)
  | terminated (c o : Nat)
  /-- calls to the operating system -/
  | natJoin (c t : Nat)
  | natDetach (c t : Nat)
  /-- the function of thread `t` has returned -/
  | fin (t : Nat)
deriving DecidableEq, Repr

def upd {α : Type} (f : Nat → α) (i : Nat) (x : α) : Nat → α := fun j => if j = i then x else f j

def State.setPc (s : State) (c : Nat) (p : PC) : State := { s with thr := upd s.thr c { s.thr c with pc := p } }

/-- `done_condition.notify_all()` of thread `t`'s data. -/
def PC.wake (t : Nat) : PC → PC
  | .wDone o t' timed w => .wDone o t' timed (w || t' == t)
  | .wJoined o t' w => .wJoined o t' (w || t' == t)
  | p => p

def State.notify (s : State) (t : Nat) : State := { s with thr := fun i => { s.thr i with pc := (s.thr i).pc.wake t } }

/-- Under the lock, once `done` is set: `do_join=!join_started`… (328-340, 381-393). -/
def afterDone (s : State) (c o t : Nat) : State :=
  if (s.thr t).joinStarted then
    if (s.thr t).joined then s.setPc c (.fin o t) else s.setPc c (.wJoined o t false)
  else
    let s := { s with thr := upd s.thr t { s.thr t with joinStarted := true } }
    s.setPc c (.nat o t)

/-- Under the lock: the loop `while(!done)` (324-327, 372-375). -/
def eval (s : State) (c o t : Nat) (timed : Bool) : State :=
  if (s.thr t).isDone then afterDone s c o t else s.setPc c (.wDone o t timed false)

/-- `detach` under the lock (428-437): the new state and the calls to the operating system. -/
def detachBody (s : State) (c t : Nat) : State × List Event :=
  if (s.thr t).joinStarted then (s, [])
  else ({ s with thr := upd s.thr t { s.thr t with native := true, joinStarted := true, joined := true } }, [.natDetach c t])

/-- A call begins. -/
def call (cfg : Cfg) (s : State) (c : Nat) : Op → Option (State × List Event)
  | .start o k =>
    -- constructor: thread.hpp 265-290, thread.cpp 260-306
    if s.objs o ≠ .none then .none
    else match k with
      | .fails => some (s, [.startFailed c o])
      | .joinable => some ({ s with thr := upd s.thr s.n { phase := .running }, n := s.n + 1, objs := upd s.objs o (some s.n) }, [.started c o s.n])
      | .detached =>
        some ({ s with thr := upd s.thr s.n { phase := .running, native := true, joinStarted := true, joined := true }, n := s.n + 1 }, [.startedDetached c s.n])
  | .join o timed =>
    -- thread.hpp 759-761, 768-771
    if s.objs o = some c then some (s, [.joinSelf c o]) else some (s.setPc c (.checked o timed), [.joinCall c o timed])
  | .detach o =>
    -- thread.cpp 423-426
    match s.objs o with
    | .none => some (s, [.detachCall c o, .detachRet c])
    | some t => some ({ s with objs := upd s.objs o .none }.setPc c (.det t), [.detachCall c o])
  | .destroy o =>
    -- thread.hpp 250-261
    match s.objs o with
    | .none => some (s, [.detachCall c o, .detachRet c])
    | some t =>
      if cfg.dtor then some ({ s with dead := true }, [.terminated c o])
      else some ({ s with objs := upd s.objs o .none }.setPc c (.det t), [.detachCall c o])
  | .moveCtor dst src =>
    -- thread.hpp 342-346
    if s.objs dst ≠ .none ∨ dst = src then .none
    else some ({ s with objs := upd (upd s.objs dst (s.objs src)) src .none }, [.moved c dst src])
  | .moveAsg dst src =>
    -- thread.hpp 357-363
    match s.objs dst with
    | .none => some (s.setPc c (.asg dst src), [.asgCall c dst src])
    | some t =>
      if cfg.assign then some ({ s with dead := true }, [.terminated c dst])
      else some ({ s with objs := upd s.objs dst .none }.setPc c (.detA t dst src), [.asgCall c dst src])
  | .swap a b => some ({ s with objs := upd (upd s.objs a (s.objs b)) b (s.objs a) }, [.swapped c a b])
  | .joinable o => some (s, [.joinable c o (s.objs o).isSome])

/-- The next step of a thread inside a call. -/
def go (s : State) (c : Nat) : Option (State × List Event) :=
  match (s.thr c).pc with
  | .idle => .none
  | .checked o timed =>
    -- thread.cpp 317-318, 356-359
    match s.objs o with
    | .none => some (s.setPc c .idle, [.joinNone c o])
    | some t => some (s.setPc c (.enter o t timed), [])
  | .enter o t timed => some (eval s c o t timed, [])
  | .wDone o t timed w => if w then some (eval s c o t timed, []) else .none
  | .wJoined o t w =>
    if w then some (if (s.thr t).joined then s.setPc c (.fin o t) else s.setPc c (.wJoined o t false), []) else .none
  | .nat o t =>
    -- `pthread_join` waits until the thread has ended
    if (s.thr t).phase = .exited then
      some ({ s with thr := upd s.thr t { s.thr t with native := true } }.setPc c (.setJ o t), [.natJoin c t])
    else .none
  | .setJ o t =>
    some (({ s with thr := upd s.thr t { s.thr t with joined := true } }.notify t).setPc c (.fin o t), [])
  | .fin o t =>
    some ((if s.objs o = some t then { s with objs := upd s.objs o .none } else s).setPc c .idle, [.joinOk c o t])
  | .det t => let (s', es) := detachBody s c t; some (s'.setPc c .idle, es ++ [.detachRet c])
  | .detA t dst src => let (s', es) := detachBody s c t; some (s'.setPc c (.asg dst src), es)
  | .asg dst src => some ({ s with objs := upd (upd s.objs dst (s.objs src)) src .none }.setPc c .idle, [.asgRet c dst src])

def step (cfg : Cfg) (s : State) (l : Label) : Option (State × List Event) :=
  if s.dead then .none
  else match l with
  | .call c op => if (s.thr c).phase = .running ∧ (s.thr c).pc = .idle then call cfg s c op else .none
  | .go c => go s c
  | .spurious c =>
    match (s.thr c).pc with
    | .wDone o t timed _ => some (eval s c o t timed, [])
    | .wJoined o t _ => some (if (s.thr t).joined then s.setPc c (.fin o t) else s.setPc c (.wJoined o t false), [])
    | _ => .none
  | .timeout c =>
    -- `do_wait_until` returns false, the loop is left (374), `done` is looked at again (376-380)
    match (s.thr c).pc with
    | .wDone o t true _ =>
      if (s.thr t).isDone then some (afterDone s c o t, []) else some (s.setPc c .idle, [.joinTimeout c o])
    | _ => .none
  | .interrupt c =>
    match (s.thr c).pc with
    | .wDone o _ _ _ => some (s.setPc c .idle, [.joinInterrupted c o])
    | .wJoined o _ _ => some (s.setPc c .idle, [.joinInterrupted c o])
    | _ => .none
  | .ret c =>
    -- thread.cpp 178-195
    if (s.thr c).phase = .running ∧ (s.thr c).pc = .idle then
      some ({ s with thr := upd s.thr c { s.thr c with phase := .returned } }, [.fin c])
    else .none
  | .setDone c =>
    -- thread.cpp 197-199
    if (s.thr c).phase = .returned then some ({ s with thr := upd s.thr c { s.thr c with phase := .done } }.notify c, []) else .none
  | .exit c =>
    if (s.thr c).phase = .done then some ({ s with thr := upd s.thr c { s.thr c with phase := .exited } }, []) else .none

end Verif.Thread
