import Verif.Async.Spec
/-!
# Model of `async` and of the life of its shared state

Models `/repo/include/boost/thread/future.hpp`: `async` with `launch::async` and with an executor (3848-3855, 3928-3943, 4113-4151, 4177-4187), `future_async_shared_state_base` and
`future_async_shared_state` (914-1042), `shared_state_nullary_task` and `future_executor_shared_state` (3990-4140), `wait_internal`, `wait`, `get` (387-412, 614-627), and the parts of
`boost::thread` they use (`/repo/src/pthread/thread.cpp` 168-200, 260-270, 310-361: start, end and `join` of a thread).

* Any number of threads and of calls of `async`. A future is a counted reference to the shared state (`shared_ptr`). A reference is released by decrementing the count; who releases the
  last one runs the destructor. The thread that runs the function has a reference of its own (971, 973, 977): the parameter `that`.
* `Mode`: `BOOST_THREAD_ASYNC_FUTURE_WAITS` is defined for `BOOST_THREAD_VERSION` 2, 3 and 4, not for 5 (`config.hpp` 340-351); `BOOST_THREAD_FUTURE_BLOCKING` is left to the user there.
* Critical sections of the state's mutex are one step. `boost::thread` objects are not synchronised: in `BOOST_THREAD_FUTURE_BLOCKING` mode `join()` (919-927) works on `thr_` outside the
  mutex (951), so that two threads in this section race, whatever they do (event `raced`; the model then goes on as if the accesses were atomic).
* Functions may make any call. The thread of a call begins with the state `ready`. `exited` stands for the end of `thread_proxy` (195-199), where `join` gets through.
* Simplified: the local `h` of `make_future_async_shared_state` is moved into the future rather than copied; a thread that calls `get` or `wait` sets one of its futures apart for the
  time of the call; `get` does not invalidate the future. `thr_ = boost::thread(…)` (971) is one step with starting the thread: no one else can get at `thr_` before `async` returns.
* Not modelled: `launch::deferred` (see `Verif.Future`, `Verif.Unwrap`), continuations (`Verif.Continuation`), timed waits, interruption, the variant on `packaged_task` for C++03.
-/

namespace Verif.Async

/-- What the destructor of an asynchronous state does (937-945). -/
inductive Mode where
  /-- neither macro -/
  | plain
  /-- `BOOST_THREAD_ASYNC_FUTURE_WAITS` -/
  | waits
  /-- `BOOST_THREAD_FUTURE_BLOCKING` -/
  | blocking
deriving DecidableEq, Repr

/-- A shared state: result with `done` (159-172), use count, `thr_.joinable()` (919), how many threads are in `join()`, and whether the thread has ended and the state has been destroyed. -/
structure Node where
  kind : Kind := .thread
  out : Option Out := none
  refs : Nat := 0
  handle : Bool := false
  joiners : Nat := 0
  exit : Bool := false
  dead : Bool := false
deriving DecidableEq, Repr

/-- Who releases a reference. -/
inductive Why where
  /-- the destructor of a future -/
  | drop
  /-- `async`, when the thread cannot be started -/
  | unwind
  /-- the thread or the task, at the end -/
  | worker
deriving DecidableEq, Repr

inductive PC where
  | idle
  /-- in `async`: before the thread is started or the task submitted (971-973, 4129) -/
  | start (i : Nat)
  /-- in `async`: before the return -/
  | ret (i : Nat)
  /-- about to release a reference -/
  | rel (i : Nat) (w : Why)
  /-- in the destructor (937-945) -/
  | dtor (i : Nat) (w : Why)
  /-- in `thr_.join()` (926) on behalf of `wait` -/
  | join (i : Nat)
  /-- waiting for `done` (395), in `get` or in `wait` -/
  | wait (i : Nat) (get : Bool)
  /-- a thread or task that has not called its function yet -/
  | ready (i : Nat)
  /-- the function has returned or thrown (981, 985) -/
  | mark (i : Nat) (o : Out)
  /-- after the function of the thread: `tls_destructor` (`thread.cpp` 195) -/
  | bye (i : Nat)
  | gone (i : Nat)
deriving DecidableEq, Repr

structure Thread where
  /-- the call whose function is run by this thread -/
  me : Option Nat := none
  /-- the same, while in the function -/
  fn : Option Nat := none
  /-- the futures that the thread has -/
  own : Nat → Nat := fun _ => 0
  pc : PC := .idle

structure State where
  n : Nat
  node : Nat → Node
  th : List Thread

/-- `k` threads of the user. -/
def init (k : Nat) : State := { n := 0, node := fun _ => {}, th := List.replicate k {} }

def upd {α : Type} (f : Nat → α) (i : Nat) (x : α) : Nat → α := fun j => if j = i then x else f j

inductive Op where
  | async (k : Kind)
  | copy (i : Nat)
  /-- move a future to thread `u` -/
  | give (i u : Nat)
  | drop (i : Nat)
  | wait (i : Nat)
  | get (i : Nat)
  | poll (i : Nat)
deriving DecidableEq, Repr

inductive Label where
  | op (t : Nat) (o : Op)
  /-- thread `t` goes on -/
  | go (t : Nat)
  /-- starting the thread or submitting the task fails in thread `t` -/
  | fail (t : Nat)
  /-- the executor destroys task `t` -/
  | discard (t : Nat)
  /-- the function that thread `t` is in ends -/
  | finish (t : Nat) (o : Out)
deriving DecidableEq, Repr

def State.setTh (s : State) (t : Nat) (th : Thread) : State := { s with th := s.th.set t th }

def State.setNode (s : State) (i : Nat) (d : Node) : State := { s with node := upd s.node i d }

/-- Is the thread in code of the user? -/
def Thread.free (th : Thread) : Bool := th.pc == .idle && (th.me == none || th.fn != none)

/-- An access to state `i`. -/
def access (s : State) (i : Nat) : List Event := if (s.node i).dead = true then [.bad i] else []

/-- An access to `thr_` of state `i`, from `join()` (919-927). -/
def accessThr (s : State) (i : Nat) : List Event := if 0 < (s.node i).joiners then [.raced i] else []

/-- The user makes a call. -/
def stepOp (m : Mode) (s : State) (t : Nat) (th : Thread) : Op → Option (State × List Event)
  /- 3850-3851, 4148-4149 -/
  | .async k => some ({ s with n := s.n + 1, node := upd s.node s.n { kind := k, refs := 1 } }.setTh t { th with pc := .start s.n }, [.asyncs t s.n k])
  | .copy i =>
    if 0 < th.own i then
      some ((s.setNode i { s.node i with refs := (s.node i).refs + 1 }).setTh t { th with own := upd th.own i (th.own i + 1) }, access s i ++ [.copied t i])
    else none
  | .give i u =>
    match s.th[u]? with
    | none => none
    | some tu =>
      if 0 < th.own i ∧ u ≠ t ∧ tu.free = true then
        some ((s.setTh t { th with own := upd th.own i (th.own i - 1) }).setTh u { tu with own := upd tu.own i (tu.own i + 1) }, [])
      else none
  | .drop i => if 0 < th.own i then some (s.setTh t { th with own := upd th.own i (th.own i - 1), pc := .rel i .drop }, [.drops t i]) else none
  /- 946-956: in blocking mode first `join()` (920-927) -/
  | .wait i =>
    if 0 < th.own i then
      let own := upd th.own i (th.own i - 1)
      if m = .blocking ∧ (s.node i).kind = .thread then
        if th.me = some i then
          some ((s.setNode i { s.node i with handle := false }).setTh t { th with own := own, pc := .wait i false }, access s i ++ accessThr s i ++ [.waits t i])
        else if (s.node i).handle = true then
          some ((s.setNode i { s.node i with joiners := (s.node i).joiners + 1 }).setTh t { th with own := own, pc := .join i }, access s i ++ accessThr s i ++ [.waits t i])
        else some (s.setTh t { th with own := own, pc := .wait i false }, access s i ++ accessThr s i ++ [.waits t i])
      else some (s.setTh t { th with own := own, pc := .wait i false }, access s i ++ [.waits t i])
    else none
  /- 614-622: `get` calls `wait_internal`, not the virtual `wait` -/
  | .get i => if 0 < th.own i then some (s.setTh t { th with own := upd th.own i (th.own i - 1), pc := .wait i true }, access s i ++ [.gets t i]) else none
  | .poll i => if 0 < th.own i then some (s, access s i ++ [.polled t i (s.node i).out.isSome]) else none

/-- What follows after a reference has been released. -/
def finished (s : State) (t : Nat) (th : Thread) (i : Nat) : Why → State × List Event
  | .drop => (s.setTh t { th with pc := .idle }, [.dropped t i])
  | .unwind => (s.setTh t { th with pc := .idle }, [.threw t i])
  | .worker => if (s.node i).kind = .thread then (s.setTh t { th with pc := .bye i }, []) else (s.setTh t { th with pc := .gone i }, [])

/-- The state is destroyed. -/
def destroy (s : State) (t : Nat) (th : Thread) (i : Nat) (w : Why) : State × List Event :=
  let r := finished (s.setNode i { s.node i with dead := true, handle := false }) t th i w
  (r.1, access s i ++ .destroyed i :: r.2)

/-- The destructor (937-945, 4138) of state `i`; `none` while it waits. -/
def stepDtor (m : Mode) (s : State) (t : Nat) (th : Thread) (i : Nat) (w : Why) : Option (State × List Event) :=
  match (s.node i).kind, m with
  | .executor, _ => some (destroy s t th i w)
  | .thread, .plain => some (destroy s t th i w)
  /- 942-943 -/
  | .thread, .waits => if (s.node i).out.isSome = true then some (destroy s t th i w) else none
  /- 920-927: `detach` in the thread itself, `join` elsewhere -/
  | .thread, .blocking => if th.me = some i ∨ (s.node i).handle = false ∨ (s.node i).exit = true then some (destroy s t th i w) else none

/-- Thread `t` goes on. -/
def stepGo (m : Mode) (s : State) (t : Nat) (th : Thread) : Option (State × List Event) :=
  match th.pc with
  | .idle => none
  /- `pthread_create` succeeds (`thread.cpp` 260-270), the task is accepted -/
  | .start i =>
    let d := s.node i
    some ({ s with node := upd s.node i { d with refs := d.refs + 1, handle := m == .blocking && d.kind == .thread }, th := s.th.set t { th with pc := .ret i } ++ [{ me := some i, pc := .ready i }] },
      access s i)
  | .ret i => some (s.setTh t { th with own := upd th.own i (th.own i + 1), pc := .idle }, [.asyncRet t i])
  | .rel i w =>
    let s' := s.setNode i { s.node i with refs := (s.node i).refs - 1 }
    if (s.node i).refs = 1 then some (s'.setTh t { th with pc := .dtor i w }, access s i)
    else
      let r := finished s' t th i w
      some (r.1, access s i ++ r.2)
  | .dtor i w => stepDtor m s t th i w
  /- `join` returns when the thread has ended; afterwards `thr_` is empty -/
  | .join i =>
    if (s.node i).exit = true then
      some ((s.setNode i { s.node i with joiners := (s.node i).joiners - 1, handle := false }).setTh t { th with pc := .wait i false }, access s i)
    else none
  /- 395-399 -/
  | .wait i g =>
    match (s.node i).out with
    | none => none
    | some o => some (s.setTh t { th with own := upd th.own i (th.own i + 1), pc := .idle }, access s i ++ [if g = true then .got t i o else .waited t i])
  /- 977-981, 4041-4044 -/
  | .ready i => some (s.setTh t { th with fn := some i, pc := .idle }, [.began t i])
  /- 981, 985, with 335-346; then the parameter `that` goes out of scope (987) -/
  | .mark i o => some ((s.setNode i { s.node i with out := some o }).setTh t { th with pc := .rel i .worker }, access s i)
  /- `thread.cpp` 195-199 -/
  | .bye i => some ((s.setNode i { s.node i with exit := true }).setTh t { th with pc := .gone i }, [.exited i])
  | .gone _ => none

/-- `start_thread` (`detail/thread.hpp` 181-187) or `submit` throws: the exception leaves `async`, where `h` is destroyed (3850-3853). -/
def stepFail (s : State) (t : Nat) (th : Thread) : Option (State × List Event) :=
  match th.pc with
  | .start i => some (s.setTh t { th with pc := .rel i .unwind }, [])
  | _ => none

/-- The executor destroys a task that it has not called. -/
def stepDiscard (s : State) (t : Nat) (th : Thread) : Option (State × List Event) :=
  match th.pc with
  | .ready i => if (s.node i).kind = .executor then some (s.setTh t { th with pc := .rel i .worker }, [.discarded i]) else none
  | _ => none

/-- The function ends. -/
def stepFinish (s : State) (t : Nat) (th : Thread) (o : Out) : Option (State × List Event) :=
  match th.pc, th.fn with
  | .idle, some i => some (s.setTh t { th with fn := none, pc := .mark i o }, [.ended i o])
  | _, _ => none

def step (m : Mode) (s : State) : Label → Option (State × List Event)
  | .op t o => match s.th[t]? with
    | none => none
    | some th => if th.free = true then stepOp m s t th o else none
  | .go t => match s.th[t]? with
    | none => none
    | some th => stepGo m s t th
  | .fail t => match s.th[t]? with
    | none => none
    | some th => stepFail s t th
  | .discard t => match s.th[t]? with
    | none => none
    | some th => stepDiscard s t th
  | .finish t o => match s.th[t]? with
    | none => none
    | some th => stepFinish s t th o

end Verif.Async
