import Verif.StateLife.Spec
/-!
# Model of the life of shared states

Models which `shared_ptr`s refer to the shared states of /repo/include/boost/thread/future.hpp: `future_` of futures, promises and tasks; `continuations` (157, 170, 285-333), the local copy of
it in `do_continuation` (302-318); `parent` of a continuation (4484, 4544); the pointers in threads and work items (971-973, 996-998, 1022-1024, 4121, 4616-4618, 4711, 4737-4739, 4790).

* The result of `shared_ptr`: a shared state can be destroyed (step `free`) when no `shared_ptr` refers to it, and then its members are destroyed with it.
* A thread that has called a member function of a future, a promise or a task keeps that object until the call returns: a precondition. So a shared state in such a call is not destroyed.
* Steps of different threads may be interleaved in any way; nesting of calls is not modelled, except that `do_continuation` ends after the calls it has made.
* `call()` clears `parent` after it has marked the state as finished (4499-4507, 4559-4569); here both are one step.
* Not modelled: `BOOST_THREAD_FUTURE_BLOCKING`, `unwrap`, `when_all`, `when_any`; exceptions of `submit` and of the creation of threads.
-/

namespace Verif.StateLife

/-- How far the function of a state is. -/
inductive Ph where
  /-- not begun -/
  | idle
  /-- in a thread that has not come to call it, or in the queue of an executor -/
  | queued
  /-- `execute` of a deferred state: waiting for the parent (4812-4813, 4835-4836), or about to call the function -/
  | awaiting
  /-- being called -/
  | running
  /-- `done` -/
  | over
  /-- the executor has destroyed its work item -/
  | lost
deriving DecidableEq, Repr

/-- A shared state: the `shared_ptr`s in it, and the ones elsewhere that refer to it. -/
structure Node where
  kind : Kind
  /-- `future_` of a promise, `task` of a task -/
  own : Bool := false
  /-- `parent` -/
  parent : Option Nat := none
  /-- `continuations` -/
  conts : List Nat := []
  /-- in the local copy of `continuations` of a thread in `do_continuation` -/
  vec : Bool := false
  /-- number of threads in `do_continuation` of this state -/
  frames : Nat := 0
  ph : Ph := .idle
  alive : Bool := true
deriving DecidableEq, Repr

structure State where
  n : Nat
  node : Nat → Node
  /-- the futures of the client: name and state -/
  refs : List (Nat × Nat)

def init : State := { n := 0, node := fun _ => { kind := .promise }, refs := [] }

inductive Label where
  | promise
  | getFuture (i o : Nat)
  /-- `set_value`, `set_exception`; the function of a task returns -/
  | set (i : Nat)
  /-- `~promise`, `~packaged_task` -/
  | leave (i : Nat)
  | async (o : Nat)
  | defer (o : Nat)
  /-- `then` on the future `o`; the new future is `o'`; `sh`: `o` is a `shared_future` -/
  | thn (o o' : Nat) (pol : Pol) (sh : Bool)
  | copy (o o' : Nat)
  | drop (o : Nat)
  /-- `wait`, `get` on a future -/
  | wait (o : Nat)
  /-- the next `launch_continuation()` of a thread in `do_continuation` -/
  | launch (c : Nat) (take : Option Nat)
  /-- a thread leaves `do_continuation` of `i` -/
  | leaveCont (i : Nat)
  /-- the thread or executor comes to the work; `take`: the function moves the future it is given to a future of that name -/
  | run (c : Nat) (take : Option Nat)
  /-- the executor destroys the work -/
  | discard (c : Nat)
  /-- a thread in `execute` of `c` waits for the parent, which is deferred -/
  | chain (c : Nat)
  /-- a thread in `execute` of `c` calls the function -/
  | proceed (c : Nat) (take : Option Nat)
  /-- the function of `c` returns, or throws -/
  | ret (c : Nat)
  | free (i : Nat)
deriving DecidableEq, Repr

/-- Not a call of the client. -/
def Label.internal : Label → Bool
  | .launch _ _ | .leaveCont _ | .run _ _ | .chain _ | .proceed _ _ | .ret _ | .free _ => true
  | _ => false

def setNode (s : State) (i : Nat) (x : Node) : State := { s with node := upd s.node i x }

def fresh (s : State) (o : Nat) : Bool := s.refs.all (fun r => r.1 != o)

def ref (s : State) (o : Nat) : Option Nat := (s.refs.find? (fun r => r.1 == o)).map (·.2)

/-- A new state for a new future (`make_future_async_shared_state`, `make_future_deferred_shared_state`, `make_future_executor_shared_state`, 4120-4160; 1548-1580). -/
def add (s : State) (o : Nat) (x : Node) : State := { n := s.n + 1, node := upd s.node s.n x, refs := (o, s.n) :: s.refs }

/-- `mark_finished_internal` (335-345), `do_continuation` (302-310): the continuations are moved to a local vector. `parent = F()` (4506, 4518, 4528, 4568, 4580, 4588). -/
def finish (s : State) (i : Nat) : State :=
  { s with node := fun j =>
      if j = i then { s.node i with ph := .over, conts := [], parent := none, frames := (s.node i).frames + 1 }
      else if j ∈ (s.node i).conts then { s.node j with vec := true } else s.node j }

/-- `this->continuation(boost::move(this->parent))` (4501, 4515, 4562, 4577), the call of the function of `async`: the function may move the future it is given. -/
def begin (s : State) (c : Nat) (x : Node) (take : Option Nat) : Option (State × List Event) :=
  match take with
  | none => some (setNode s c { x with ph := .running }, [.began c])
  | some o =>
    match x.parent with
    | none => none
    | some p =>
      if fresh s o then
        if (s.node p).alive then some ({ setNode s c { x with ph := .running, parent := none } with refs := (o, p) :: s.refs }, [.began c, .got o p])
        else some (s, [.stale p])
      else none

/-- Some thread or work item refers to the state. -/
def Node.busy (x : Node) : Bool :=
  x.own || x.vec || (0 < x.frames) || x.ph == .queued || x.ph == .awaiting || x.ph == .running

/-- A `shared_ptr` in the shared state `x` refers to `i`. -/
def Node.holds (x : Node) (i : Nat) : Bool := x.alive && (x.parent == some i || x.conts.contains i)

/-- A child of `i` for which `do_continuation` of `i` is not over: not launched, or `call()` by `launch_continuation()` has not returned (4637-4639). -/
def Node.delays (x : Node) (i : Nat) : Bool := x.kind.of i && (x.vec || (x.kind == .cont i .sync && x.ph == .running))

def step (s : State) : Label → Option (State × List Event)
  /- `promise()`, `lazy_init` (2217-2250) -/
  | .promise => some ({ s with n := s.n + 1, node := upd s.node s.n { kind := .promise, own := true } }, [.made s.n .promise])
  /- `get_future` (2340-2358) -/
  | .getFuture i o =>
    if i < s.n ∧ (s.node i).own = true ∧ fresh s o then
      if (s.node i).alive then some ({ s with refs := (o, i) :: s.refs }, [.got o i]) else some (s, [.stale i])
    else none
  /- `set_value` (2376-2384): the state is finished -/
  | .set i =>
    if i < s.n ∧ (s.node i).own = true ∧ (s.node i).ph ≠ .over then
      if (s.node i).alive then some (finish s i, [.ready i]) else some (s, [.stale i])
    else none
  /- `~promise` (2308-2320): `mark_exceptional_finish_internal(broken_promise)` if nothing has been set; here only after it has been set, see `set` -/
  | .leave i =>
    if i < s.n ∧ (s.node i).own = true ∧ (s.node i).ph = .over then
      if (s.node i).alive then some (setNode s i { s.node i with own := false }, [.left i]) else some (s, [.stale i])
    else none
  /- the new thread, the work item refers to the state (971-973, 4121) -/
  | .async o => if fresh s o then some (add s o { kind := .async, ph := .queued }, [.made s.n .async, .got o s.n]) else none
  | .defer o => if fresh s o then some (add s o { kind := .deferred }, [.made s.n .deferred, .got o s.n]) else none
  /- `then` (4974-5260): the future is moved, or copied, to `parent`; `init`, `set_continuation_ptr` (4494-4497, 327-333) -/
  | .thn o o' pol sh =>
    match ref s o with
    | none => none
    | some p =>
      if fresh s o' then
        if (s.node p).alive then
          let c := s.n
          let es := if sh then [.made c (.cont p pol), .got o' c] else [.made c (.cont p pol), .dropped o, .got o' c]
          let refs := (o', c) :: (if sh then s.refs else s.refs.filter (fun r => r.1 != o))
          if (s.node p).ph = .over then
            /- `done`: `do_continuation` at once -/
            some ({ n := s.n + 1, node := upd (upd s.node c { kind := .cont p pol, parent := some p, vec := true }) p { s.node p with frames := (s.node p).frames + 1 }, refs := refs }, es)
          else
            some ({ n := s.n + 1, node := upd (upd s.node c { kind := .cont p pol, parent := some p }) p { s.node p with conts := (s.node p).conts ++ [c] }, refs := refs }, es)
        else some (s, [.stale p])
      else none
  | .copy o o' =>
    match ref s o with
    | none => none
    | some i => if fresh s o' then if (s.node i).alive then some ({ s with refs := (o', i) :: s.refs }, [.got o' i]) else some (s, [.stale i]) else none
  | .drop o =>
    match ref s o with
    | none => none
    | some i => if (s.node i).alive then some ({ s with refs := s.refs.filter (fun r => r.1 != o) }, [.dropped o]) else some (s, [.stale i])
  /- `wait_internal` (384-395): `is_deferred_=false; execute(lk);` -/
  | .wait o =>
    match ref s o with
    | none => none
    | some i =>
      if (s.node i).alive then
        if (s.node i).kind.lazy ∧ (s.node i).ph = .idle then some (setNode s i { s.node i with ph := .awaiting }, [.started i]) else some (s, [])
      else some (s, [.stale i])
  /- `launch_continuation`: calls the function (4637-4639), makes a thread (4613-4620) or a work item (4710-4713), or does nothing (4817, 4840) -/
  | .launch c take =>
    if c < s.n ∧ (s.node c).vec = true then
      let x := s.node c
      if x.alive then
        match x.kind with
        | .cont _ .sync => begin s c { x with vec := false } take
        | .cont _ .later => if take = none then some (setNode s c { x with vec := false, ph := .queued }, []) else none
        | _ => if take = none then some (setNode s c { x with vec := false }, []) else none
      else some (s, [.stale c])
    else none
  | .leaveCont i =>
    if i < s.n ∧ 0 < (s.node i).frames ∧ (1 < (s.node i).frames ∨ ∀ c < s.n, (s.node c).delays i = false) then
      if (s.node i).alive then some (setNode s i { s.node i with frames := (s.node i).frames - 1 }, []) else some (s, [.stale i])
    else none
  /- `run` (976-986, 4531-4535), `run_it` (4640-4690), `shared_state_nullary_task` (3990-4098) -/
  | .run c take =>
    if c < s.n ∧ (s.node c).ph = .queued then if (s.node c).alive then begin s c (s.node c) take else some (s, [.stale c]) else none
  | .discard c =>
    if c < s.n ∧ (s.node c).ph = .queued then if (s.node c).alive then some (setNode s c { s.node c with ph := .lost }, [.discarded c]) else some (s, [.stale c]) else none
  /- `parent.wait()` (4813, 4836) -/
  | .chain c =>
    if c < s.n ∧ (s.node c).ph = .awaiting then
      match (s.node c).parent with
      | none => none
      | some p =>
        if (s.node p).alive then
          if (s.node p).kind.lazy ∧ (s.node p).ph = .idle then some (setNode s p { s.node p with ph := .awaiting }, [.started p]) else none
        else some (s, [.stale p])
    else none
  /- `call(lk)` (4510-4515, 4572-4577), the function of a deferred `async` (1055-1067) -/
  | .proceed c take =>
    if c < s.n ∧ (s.node c).ph = .awaiting then
      if (s.node c).alive then
        match (s.node c).kind with
        | .cont p _ =>
          if (s.node p).alive then if (s.node p).ph = .over then begin s c (s.node c) take else none
          else some (s, [.stale p])
        | _ => begin s c (s.node c) take
      else some (s, [.stale c])
    else none
  | .ret c => if c < s.n ∧ (s.node c).ph = .running then if (s.node c).alive then some (finish s c, [.ready c]) else some (s, [.stale c]) else none
  /- the last `shared_ptr` has been destroyed -/
  | .free i =>
    if i < s.n ∧ (s.node i).alive = true ∧ (s.node i).busy = false ∧ (∀ r ∈ s.refs, r.2 ≠ i) ∧ (∀ j < s.n, (s.node j).holds i = false) then
      some (setNode s i { s.node i with alive := false, parent := none, conts := [] }, [.destroyed i])
    else none

end Verif.StateLife
