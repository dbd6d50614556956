import Verif.Core.Run
/-!
# Model of continuations and deferred futures

Models `/repo/include/boost/thread/future.hpp`: `then` (4974-5340), `continuation_shared_state` and the classes derived from it (4475-4845), `set_continuation_ptr`, `do_continuation`,
`mark_finished_internal`, `wait_internal` (285-403), `future_deferred_shared_state` and `future_async_shared_state` (911-1118).

* Any number of threads and shared states. Shared states are numbered in the order of their creation; a state is a promise, or carries a function, that of `async` or of `then`.
* Each critical section of a shared state's mutex is one step, except that the execution of a deferred continuation holds the mutex of its state while it waits for the parent
  (4812-4815); this is the flag `locked`.
* Between the steps of one thread everything else may happen; functions may make any call, so a thread has a stack.
* A thread made for a function, and an item submitted to an executor, is an element of `todo`. Any thread may take it up: a new thread, a worker, or (in an inline executor) the submitting
  thread itself.
* Starting a thread or submitting to an executor may fail (label `fail`).
* Simplified: `done` and the outcome are one field (`set_value_at_thread_exit` is in `Verif.Future`); futures are shared, so that they can be used more than once; no state is
  destroyed; a failure to start a thread while such a failure is being handled has no step; `BOOST_THREAD_FUTURE_BLOCKING` is off; wait callbacks, interruption and `unwrap` are not treated. In
  the specialisation of deferred futures for references, the function runs with the mutex held (1083-1092); here it is released as in the general case.
-/

namespace Verif.Continuation

def upd {α : Type} (f : Nat → α) (i : Nat) (x : α) : Nat → α := fun j => if j = i then x else f j

@[grind =] theorem upd_apply {α : Type} (f : Nat → α) (i j : Nat) (x : α) : upd f i x j = if j = i then x else f j := rfl

/-- The policy a continuation ends up with: which of the four classes derived from `continuation_shared_state` is made. -/
inductive Pol where
  | sync
  | async
  | executor
  | deferred
deriving DecidableEq, Repr

/-- What a shared state is for. -/
inductive Kind where
  | promise
  /-- `async(launch::async, f)` -/
  | spawned
  /-- `async(launch::deferred, f)` -/
  | deferred
  /-- `then` on state `p` -/
  | cont (p : Nat) (pol : Pol)
deriving DecidableEq, Repr

inductive Out where
  | value (v : Nat)
  | exc (e : Nat)
  /-- the exception of a failure to start a thread or to submit to an executor -/
  | noThread
deriving DecidableEq, Repr

/-- The members of a shared state: `done` and the outcome, `continuations`, `is_deferred_`, and whether its mutex is held by a thread that waits (159-172). -/
structure Node where
  kind : Kind := .promise
  out : Option Out := none
  conts : List Nat := []
  deferred : Bool := false
  locked : Bool := false
deriving DecidableEq, Repr

/-- On whose behalf a list of continuations is being launched. -/
inductive Why where
  /-- `set_value` or `set_exception` on promise `i` -/
  | set (i : Nat)
  /-- the call of `then` that has made `c` -/
  | attach (c : Nat)
  /-- the end of function `c`, within the `try` (4500-4504, 4511-4522, 1058-1063) -/
  | fin (c : Nat)
  /-- the end of function `c`, within the `catch` (4505, 4524, 1067) -/
  | fin2 (c : Nat)
deriving DecidableEq, Repr

/-- What a thread is doing. -/
inductive Frame where
  /-- running function `c` -/
  | fn (c : Nat)
  /-- launching the continuations `l` (285-296) -/
  | launch (l : List Nat) (w : Why)
  /-- executing the deferred continuation `c`: waiting for its parent (4813) -/
  | parent (c : Nat)
  /-- waiting for state `i` (387-401) -/
  | wait (i : Nat)
deriving DecidableEq, Repr

structure State where
  n : Nat
  node : Nat → Node
  stk : Nat → List Frame
  /-- threads that have not begun, items submitted to an executor -/
  todo : List Nat

def init : State := { n := 0, node := fun _ => {}, stk := fun _ => [], todo := [] }

inductive Op where
  | promise
  | spawn
  | defer
  | attach (p : Nat) (pol : Pol)
  | set (i : Nat) (o : Out)
  | wait (i : Nat)
  | poll (i : Nat)
deriving DecidableEq, Repr

inductive Event where
  | created (t i : Nat) (k : Kind)
  /-- `then` on `p` has made state `c` -/
  | attached (t c p : Nat) (pol : Pol)
  | thenRet (t c : Nat)
  | thenThrew (t c : Nat)
  /-- a call of `set_value` or `set_exception` has made `i` ready -/
  | ready (t i : Nat) (o : Out)
  | setRet (t i : Nat)
  | setThrew (t i : Nat)
  /-- `promise_already_satisfied` -/
  | satisfied (t i : Nat)
  | began (t c : Nat)
  /-- function `c` has ended and its future is ready -/
  | ended (t c : Nat) (o : Out)
  /-- the outcome of `c` has been replaced by the exception `noThread` -/
  | replaced (t c : Nat)
  /-- a call of `wait` or `get` -/
  | waits (t i : Nat)
  | waited (t i : Nat) (o : Out)
  /-- `is_ready` has returned `b` -/
  | polled (t i : Nat) (b : Bool)
deriving DecidableEq, Repr

inductive Label where
  | op (t : Nat) (o : Op)
  /-- thread `t` takes up an element of `todo` -/
  | begin (t c : Nat)
  /-- the function that thread `t` is in ends -/
  | finish (t : Nat) (o : Out)
  /-- thread `t` does what is on top of its stack -/
  | go (t : Nat)
  /-- starting a thread or submitting to an executor fails in thread `t` -/
  | fail (t : Nat)
deriving DecidableEq, Repr

/-- Can the thread make a call, i.e. is it in code of the user? -/
def user : List Frame → Bool
  | [] => true
  | .fn _ :: _ => true
  | _ => false

/-- Can the thread take up an element of `todo`? -/
def idle : List Frame → Bool
  | .wait _ :: _ => false
  | .parent _ :: _ => false
  | _ => true

/-- `mark_finished_with_result` or `mark_exceptional_finish` up to the launching of the continuations (335-345, 285-290, 448-458, 592-612). -/
def State.complete (s : State) (t i : Nat) (o : Out) (w : Why) (rest : List Frame) : State :=
  { s with node := upd s.node i { s.node i with out := some o, conts := [] }, stk := upd s.stk t (.launch (s.node i).conts w :: rest) }

/-- A call. -/
def doOp (s : State) (t : Nat) : Op → Option (State × List Event)
  -- promise() (2278-2300)
  | .promise => some ({ s with n := s.n + 1, node := upd s.node s.n { kind := .promise } }, [.created t s.n .promise])
  -- make_future_async_shared_state (1533-1545, 951-958)
  | .spawn => some ({ s with n := s.n + 1, node := upd s.node s.n { kind := .spawned }, todo := s.todo ++ [s.n] }, [.created t s.n .spawned])
  -- make_future_deferred_shared_state (1548-1556, 1048-1053)
  | .defer => some ({ s with n := s.n + 1, node := upd s.node s.n { kind := .deferred, deferred := true } }, [.created t s.n .deferred])
  -- then: make_..._continuation_shared_state (4847-4965), init (4494-4497), set_continuation_ptr (327-333), do_continuation (285-290)
  | .attach p pol =>
    if p < s.n ∧ (s.node p).locked = false then
      if (s.node p).out.isSome then
        some ({ s with n := s.n + 1, node := upd (upd s.node s.n { kind := .cont p pol, deferred := decide (pol = .deferred) }) p { s.node p with conts := [] },
                       stk := upd s.stk t (.launch ((s.node p).conts ++ [s.n]) (.attach s.n) :: s.stk t) }, [.attached t s.n p pol])
      else
        some ({ s with n := s.n + 1, node := upd (upd s.node s.n { kind := .cont p pol, deferred := decide (pol = .deferred) }) p { s.node p with conts := (s.node p).conts ++ [s.n] },
                       stk := upd s.stk t (.launch [] (.attach s.n) :: s.stk t) }, [.attached t s.n p pol])
    else none
  -- promise::set_value, set_exception (2340-2420)
  | .set i o =>
    if i < s.n ∧ (s.node i).kind = .promise then
      if (s.node i).out.isSome then some (s, [.satisfied t i])
      else some (s.complete t i o (.set i) (s.stk t), [.ready t i o])
    else none
  -- wait, get (1444-1451, 2219-2226)
  | .wait i => if i < s.n then some ({ s with stk := upd s.stk t (.wait i :: s.stk t) }, [.waits t i]) else none
  -- is_ready (1398-1401, 520-531)
  | .poll i => if i < s.n ∧ (s.node i).locked = false then some (s, [.polled t i (s.node i).out.isSome]) else none

/-- `is_deferred_=false; execute(lk);` (390-394) in a thread with stack `st`: the function of `async` is called with the mutex released (1055-1061); a continuation first waits for its parent, with
the mutex held (4812-4815). -/
def execute (s : State) (t i : Nat) (st : List Frame) : Option (State × List Event) :=
  match (s.node i).kind with
  | .deferred => some ({ s with node := upd s.node i { s.node i with deferred := false }, stk := upd s.stk t (.fn i :: st) }, [.began t i])
  | .cont _ .deferred => some ({ s with node := upd s.node i { s.node i with deferred := false, locked := true }, stk := upd s.stk t (.parent i :: st) }, [])
  | _ => none

/-- What a call returns when the continuations have been launched. -/
def Why.ret (t : Nat) : Why → List Event
  | .set i => [.setRet t i]
  | .attach c => [.thenRet t c]
  | .fin _ => []
  | .fin2 _ => []

/-- What is on top of the stack. -/
def go (s : State) (t : Nat) : List Frame → Option (State × List Event)
  -- the end of do_continuation
  | .launch [] w :: rest => some ({ s with stk := upd s.stk t rest }, w.ret t)
  -- launch_continuation
  | .launch (c :: l) w :: rest =>
    match (s.node c).kind with
    -- future_sync_continuation_shared_state (4640-4642)
    | .cont _ .sync => some ({ s with stk := upd s.stk t (.fn c :: .launch l w :: rest) }, [.began t c])
    -- future_async_continuation_shared_state (4609-4616)
    | .cont _ .async => some ({ s with stk := upd s.stk t (.launch l w :: rest), todo := s.todo ++ [c] }, [])
    -- future_executor_continuation_shared_state (4710-4713)
    | .cont _ .executor => some ({ s with stk := upd s.stk t (.launch l w :: rest), todo := s.todo ++ [c] }, [])
    -- future_deferred_continuation_shared_state (4817)
    | .cont _ .deferred => some ({ s with stk := upd s.stk t (.launch l w :: rest) }, [])
    | _ => none
  -- wait_internal (387-401)
  | .wait i :: rest =>
    if (s.node i).locked then none
    else if (s.node i).deferred then execute s t i (.wait i :: rest)
    else
      match (s.node i).out with
      | some o => some ({ s with stk := upd s.stk t rest }, [.waited t i o])
      | none => none
  -- execute of a deferred continuation (4812-4815, 4510-4513)
  | .parent c :: rest =>
    match (s.node c).kind with
    | .cont p .deferred =>
      if (s.node p).locked then none
      else if (s.node p).deferred then execute s t p (.parent c :: rest)
      else if (s.node p).out.isSome then
        some ({ s with node := upd s.node c { s.node c with locked := false }, stk := upd s.stk t (.fn c :: rest) }, [.began t c])
      else none
    | _ => none
  | _ => none

/-- Is the continuation launched by starting a thread or submitting to an executor? -/
def external : Kind → Bool
  | .cont _ .async => true
  | .cont _ .executor => true
  | _ => false

/-- `launch_continuation` throws: the loop in do_continuation (291-294) is left, and with it the call; at the end of a function, the `catch` marks the state finished once more (4505, 4524, 1067). -/
def fail (s : State) (t : Nat) : List Frame → Option (State × List Event)
  | .launch (c :: _) w :: rest =>
    if external (s.node c).kind then
      match w with
      | .set i => some ({ s with stk := upd s.stk t rest }, [.setThrew t i])
      | .attach d => some ({ s with stk := upd s.stk t rest }, [.thenThrew t d])
      | .fin d => some (s.complete t d .noThread (.fin2 d) rest, [.replaced t d])
      | .fin2 _ => none
    else none
  | _ => none

def step (s : State) : Label → Option (State × List Event)
  | .op t o => if user (s.stk t) then doOp s t o else none
  -- the new thread, the worker or the inline executor calls the function (4500-4504, 4530-4534, 961-971)
  | .begin t c =>
    if c ∈ s.todo ∧ idle (s.stk t) then some ({ s with todo := s.todo.erase c, stk := upd s.stk t (.fn c :: s.stk t) }, [.began t c]) else none
  -- the function ends (4500-4506, 4511-4524, 961-971, 1058-1067)
  | .finish t o =>
    match s.stk t with
    | .fn c :: rest => some (s.complete t c o (.fin c) rest, [.ended t c o])
    | _ => none
  | .go t => go s t (s.stk t)
  | .fail t => fail s t (s.stk t)

/-! ## Which class `then` makes -/

/-- The bits of `launch` (`/repo/include/boost/thread/future.hpp` 124-146 with `BOOST_THREAD_PROVIDES_EXECUTORS`). -/
structure Flags where
  async : Bool := false
  deferred : Bool := false
  executor : Bool := false
  inherit : Bool := false
  sync : Bool := false
deriving DecidableEq, Repr

/-- `then(policy, func)` (4974-5029); `own` is the policy of the future itself. `launch::executor` requires that the future has an executor. -/
def resolve (own policy : Flags) : Pol :=
  if policy.async then .async
  else if policy.deferred then .deferred
  else if policy.sync then .sync
  else if policy.executor then .executor
  else if policy.inherit then
    if own.async then .async
    else if own.deferred then .deferred
    else if own.sync then .sync
    else if own.executor then .executor
    else .async
  else .async

/-- `policy_` of a state: set_async (251-255), set_deferred (246-250), set_executor (257-261), else `none` (182). -/
def policyOf : Kind → Flags
  | .promise => {}
  | .spawned => { async := true }
  | .deferred => { deferred := true }
  | .cont _ .sync => {}
  | .cont _ .async => { async := true }
  | .cont _ .executor => { executor := true }
  | .cont _ .deferred => { deferred := true }

/-- `then(func)` (5068-5075), without `BOOST_THREAD_CONTINUATION_SYNC`. -/
def resolveDefault (k : Kind) : Pol := resolve (policyOf k) (policyOf k)

end Verif.Continuation
