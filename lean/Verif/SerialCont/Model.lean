import Verif.SerialCont.Spec
/-!
# Model of `serial_executor_cont`

Models `/repo/include/boost/thread/executors/serial_executor_cont.hpp` (32-170), with the parts of `future.hpp` it is made of: `then(Ex&, F&&)` (5050-5064),
`make_future_executor_continuation_shared_state` (4895-4906), `future_executor_continuation_shared_state` (4693-4716), `continuation_shared_state<F, void, Fp>::call` (4557-4569),
`set_continuation_ptr` (321-327), `mark_finished_internal` and `do_continuation` (305-340).

* The future states are numbered: state 0 is the ready future that the constructor makes (89), state `c + 1` is the one that closure `c` will make ready.
* Critical sections of a future state are one step. `mtx_` is explicit, because `submit` holds it while it calls the underlying executor.
* The underlying executor is any executor at all: when given a closure it may keep it and carry it out later in some thread, carry it out at once in the calling thread, or throw.
  When a thread of the underlying executor gives it the next closure (after the end of the previous one), carrying it out at once is the same as keeping it and beginning right away, since that
  thread holds no lock; so this case has no label of its own.
* A closure may call `submit`, `close` and `closed`; it ends by returning or by throwing (57-58: `std::terminate`).
* `fut_` (41) refers to a state, or to none after it has been moved from (5062, 4901, 4490): then `then` dereferences a null pointer (5057), or throws `future_uninitialized` if
  `BOOST_THREAD_THROW_IF_PRECONDITION_NOT_SATISFIED` is defined (`config.hpp` 61-69).
* A continuation state keeps a reference to the executor's member `ex_` (166, 4707: `executor_ref<generic_executor_ref>(ex_)`); after the destruction of the executor this is a reference to a
  destroyed object.
* Not modelled: `bad_alloc` while storing the closure, `underlying_executor`, `try_executing_one` (always false).
-/

namespace Verif.SerialCont

def upd {α β : Type} [DecidableEq α] (f : α → β) (i : α) (x : β) : α → β := fun j => if j = i then x else f j

@[grind =] theorem upd_apply {α β : Type} [DecidableEq α] (f : α → β) (i j : α) (x : β) : upd f i x j = if j = i then x else f j := rfl

/-- A future state: `done` and `continuations` (161-172); a continuation is the number of a closure. -/
structure Node where
  done : Bool := false
  conts : List Nat := []
deriving DecidableEq, Repr

/-- What has become of a closure. -/
inductive Job where
  | none
  /-- its state has been made; it has not been given to the underlying executor -/
  | waiting
  /-- with the underlying executor -/
  | handed
  | running
  /-- the closure has returned (4560), its state is not ready yet -/
  | marking
  /-- in `do_continuation` (312-314), with the continuations still to be launched -/
  | launching (l : List Nat)
  | finished
deriving DecidableEq, Repr

/-- Where a caller is. -/
inductive PC where
  | idle
  /-- before the lock of `mtx_` (110, 119, 164) -/
  | lock (o : Op)
  /-- in `submit`, with `mtx_`, before `then` (166) -/
  | attach
  /-- in `then`, with `mtx_`: before `launch_continuation` of closure `c` (314) -/
  | launch (c : Nat)
  /-- the underlying executor carries out closure `c` within its `submit` (4712) -/
  | inline (c : Nat)
deriving DecidableEq, Repr

structure State where
  mtx : Option Caller
  closed : Bool
  fut : Option Nat
  n : Nat
  node : Nat → Node
  job : Nat → Job
  pc : Caller → PC
  /-- the thread in the destructor -/
  dying : Option Nat
  gone : Bool
  /-- `std::terminate` has been called -/
  dead : Bool

/-- 88-91. -/
def init : State :=
  { mtx := none, closed := false, fut := some 0, n := 0, node := fun i => { done := i == 0 }, job := fun _ => .none, pc := fun _ => .idle, dying := none, gone := false, dead := false }

inductive Label where
  | call (k : Caller) (o : Op)
  | go (k : Caller)
  /-- caller `k` gives its closure to the underlying executor, which keeps it, carries it out at once, throws -/
  | give (k : Caller)
  | giveInline (k : Caller)
  | reject (k : Caller)
  /-- the underlying executor begins closure `c` -/
  | begin (c : Nat)
  /-- closure `c` returns, throws -/
  | finish (c : Nat)
  | throw (c : Nat)
  /-- the state of closure `c` is made ready -/
  | mark (c : Nat)
  /-- the thread that has carried out closure `c` launches a continuation: the underlying executor keeps it, throws -/
  | pass (c : Nat)
  | passReject (c : Nat)
  | destroy (t : Nat)
  | destroyEnd
deriving DecidableEq, Repr

/-- May `k` call the executor? -/
def mayCall (s : State) : Caller → Bool
  | .client t => s.pc (.client t) == .idle && s.dying != some t
  | .closure c => s.pc (.closure c) == .idle && s.job c == .running

/-- `fut_` is assigned (166), `mtx_` is released, and `submit` returns. -/
def finishSubmit (s : State) (k : Caller) (c : Nat) : State := { s with fut := some (c + 1), mtx := none, pc := upd s.pc k .idle }

/-- Caller `k` goes on. -/
def stepGo (s : State) (k : Caller) : Option (State × List Event) :=
  match s.pc k with
  | .idle => none
  | .lock o =>
    if s.gone = true then some ({ s with pc := upd s.pc k .idle }, [.bad])
    else if s.mtx = none then
      match o with
      /- 108-112 -/
      | .close => some ({ s with closed := true, pc := upd s.pc k .idle }, [.closeReturned k])
      /- 117-121 -/
      | .closed => some ({ s with pc := upd s.pc k .idle }, [.closedIs k s.closed])
      /- 164-165 -/
      | .submit => if s.closed = true then some ({ s with pc := upd s.pc k .idle }, [.refused k]) else some ({ s with mtx := some k, pc := upd s.pc k .attach }, [])
    else none
  /- 166 with 5054-5064, 4900-4903, 321-327 -/
  | .attach =>
    match s.fut with
    | none => some ({ s with mtx := none, pc := upd s.pc k .idle }, [.invalid k])
    | some p =>
      if (s.node p).done = true then
        some ({ s with n := s.n + 1, fut := none, job := upd s.job s.n .waiting, pc := upd s.pc k (.launch s.n) }, [.queued k s.n])
      else
        some (finishSubmit { s with n := s.n + 1, job := upd s.job s.n .waiting, node := upd s.node p { s.node p with conts := (s.node p).conts ++ [s.n] } } k s.n, [.queued k s.n, .submitted k s.n])
  | .launch _ => none
  /- the underlying executor's `submit` returns -/
  | .inline c => if s.job c = .finished then some (finishSubmit s k c, [.submitted k c]) else none

/-- 4711-4712, called from `submit`. -/
def stepGive (s : State) (k : Caller) : Option (State × List Event) :=
  match s.pc k with
  | .launch c => some (finishSubmit { s with job := upd s.job c .handed } k c, [.submitted k c])
  | _ => none

def stepGiveInline (s : State) (k : Caller) : Option (State × List Event) :=
  match s.pc k with
  | .launch c => some ({ s with job := upd s.job c .running, pc := upd s.pc k (.inline c) }, [.started c])
  | _ => none

/-- The exception goes through `then` (the new state and the closure are destroyed) and leaves `submit`; `fut_` has been moved from. -/
def stepReject (s : State) (k : Caller) : Option (State × List Event) :=
  match s.pc k with
  | .launch c => some ({ s with mtx := none, pc := upd s.pc k .idle }, [.failed k c])
  | _ => none

/-- `mark_finished_internal` 328-339 with `do_continuation` 307-311, for closure `c`. -/
def stepMark (s : State) (c : Nat) : Option (State × List Event) :=
  if s.job c = .marking then
    some ({ s with node := upd s.node (c + 1) { done := true, conts := [] }, job := upd s.job c (if (s.node (c + 1)).conts = [] then .finished else .launching (s.node (c + 1)).conts) }, [])
  else none

/-- An access to the member `ex_`. -/
def accessEx (s : State) : List Event := if s.gone = true then [.bad] else []

/-- 312-314 with 4711-4712. -/
def stepPass (s : State) (c : Nat) : Option (State × List Event) :=
  match s.job c with
  | .launching (d :: l) => some ({ s with job := upd (upd s.job d .handed) c (if l = [] then .finished else .launching l) }, accessEx s)
  | _ => none

/-- The exception leaves `mark_finished_with_result`; it is stored as the result of closure `c` (4564-4565), whose continuations have been cleared. -/
def stepPassReject (s : State) (c : Nat) : Option (State × List Event) :=
  match s.job c with
  | .launching (d :: _) => some ({ s with job := upd s.job c .finished }, accessEx s ++ [.lost d])
  | _ => none

def stepLive (s : State) : Label → Option (State × List Event)
  | .call k o => if mayCall s k = true then some ({ s with pc := upd s.pc k (.lock o) }, [.called k o]) else none
  | .go k => stepGo s k
  | .give k => stepGive s k
  | .giveInline k => stepGiveInline s k
  | .reject k => stepReject s k
  | .begin c => if s.job c = .handed then some ({ s with job := upd s.job c .running }, [.started c]) else none
  | .finish c => if s.job c = .running ∧ s.pc (.closure c) = .idle then some ({ s with job := upd s.job c .marking }, [.ended c]) else none
  | .throw c => if s.job c = .running ∧ s.pc (.closure c) = .idle then some ({ s with dead := true }, [.terminated c]) else none
  | .mark c => stepMark s c
  | .pass c => stepPass s c
  | .passReject c => stepPassReject s c
  /- 98-102: `close()`, then the members are destroyed -/
  | .destroy t => if s.pc (.client t) = .idle ∧ s.dying = none ∧ s.gone = false then some ({ s with dying := some t }, [.destroyCalled t]) else none
  | .destroyEnd =>
    match s.dying with
    | none => none
    | some t => if s.mtx = none ∧ s.gone = false then some ({ s with closed := true, gone := true }, [.destroyed t]) else none

def step (s : State) (l : Label) : Option (State × List Event) := if s.dead = true then none else stepLive s l

end Verif.SerialCont
