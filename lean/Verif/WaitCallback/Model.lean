import Verif.Core.Run
/-!
# Model of wait callbacks

Models `promise::set_wait_callback` (future.hpp 2538-2543, 2722-2727, 2908-2913), `shared_state_base::set_wait_callback` (540-545), `do_callback` (352-360), the calls that use it: `wait_internal`
(386-400) below `get` and `wait`, and `timed_wait`, `timed_wait_until`, `wait_until` (416-455); `relocker` (126-147); the setters `promise::set_value` and `set_exception` (2376-2460), `~promise`
(2315-2326), the moving constructor (2329-2334) and `mark_finished_internal` (335-345), all in `/repo/include/boost/thread/future.hpp`.

* Any number of promises, futures and threads. A shared state has the number of the promise it was made with. The mutex of the shared state is modelled; the critical sections of the setters,
  `set_wait_callback` and the destructor, in which nothing is waited for, are one step each, possible when the mutex is free.
* A callback may do anything: use promises, wait for futures; it returns or throws.
* Numbers of promise objects are not used again. A promise object is used by one thread at a time.
* Simplified: no continuations, deferred functions, interruption, `set_value_deferred`; the callbacks of `packaged_task` (3807-3809), which are the same functions, are not modelled separately.
-/

namespace Verif.WaitCallback

def upd {α : Type} (f : Nat → α) (i : Nat) (x : α) : Nat → α := fun j => if j = i then x else f j

@[grind =] theorem upd_apply {α : Type} (f : Nat → α) (i j : Nat) (x : α) : upd f i x j = if j = i then x else f j := rfl

/-- A result: a value or an exception. -/
inductive Res where
  | val (v : Nat)
  | exc (e : Nat)
  | broken
deriving DecidableEq, Repr

inductive Kind where
  /-- `get`, `wait`, `get_exception_ptr` -/
  | get
  /-- `timed_wait`, `wait_for`, `wait_until` -/
  | timed
deriving DecidableEq, Repr

/-- Where a call of `get` or a timed wait is. -/
inductive Frame where
  /-- before `unique_lock lock(this->mutex)` -/
  | enter (k : Nat) (kd : Kind)
  /-- in `do_callback` with the mutex (354) -/
  | locked (k : Nat) (kd : Kind)
  /-- the mutex has been unlocked by the constructor of `relocker` (357), `local_callback` is about to be called -/
  | calling (k : Nat) (kd : Kind) (p : Nat)
  /-- in the callback (358) -/
  | inCb (k : Nat) (kd : Kind)
  /-- the callback has returned: `~relocker` -/
  | relock (k : Nat) (kd : Kind)
  /-- the callback has thrown: `~relocker`, then `~unique_lock` -/
  | unwind (k : Nat) (kd : Kind)
  /-- with the mutex, before `is_done`; `to`: the time is over -/
  | check (k : Nat) (kd : Kind) (to : Bool)
  /-- in the condition variable; `ntf`: notified -/
  | asleep (k : Nat) (kd : Kind) (ntf : Bool)
  /-- woken up, about to lock the mutex -/
  | awake (k : Nat) (kd : Kind) (to : Bool)
deriving DecidableEq, Repr

structure State where
  /-- promise objects: `none` if there is none, `some none` if it has no shared state -/
  obj : Nat → Option (Option Nat)
  used : Nat → Bool
  /-- `done`, `result` and `exception` -/
  res : Nat → Option Res
  /-- `callback`: the promise that it is bound to -/
  cb : Nat → Option Nat
  mtx : Nat → Option Nat
  stk : Nat → List Frame
  ub : Bool

def init : State := { obj := fun _ => none, used := fun _ => false, res := fun _ => none, cb := fun _ => none, mtx := fun _ => none, stk := fun _ => [], ub := false }

inductive Event where
  | created (t p : Nat)
  | callbackSet (t p : Nat)
  | moved (t p q : Nat)
  | destroyed (t p : Nat)
  | wasSet (t p : Nat) (r : Res)
  /-- `promise_already_satisfied` -/
  | satisfied (t p : Nat)
  | called (t k : Nat) (kd : Kind)
  | cbBegan (t k p : Nat)
  | cbEnded (t k : Nat)
  | cbThrew (t k : Nat)
  /-- the call returns the result, or `ready` -/
  | returned (t k : Nat) (kd : Kind) (r : Res)
  | timedOut (t k : Nat)
  /-- the callback's exception leaves the call -/
  | threw (t k : Nat)
  | undefinedBehaviour
deriving DecidableEq, Repr

inductive Label where
  | create (t p : Nat)
  | setCb (t p : Nat)
  | move (t p q : Nat)
  | destroy (t p : Nat)
  | set (t p : Nat) (r : Res)
  | call (t k : Nat) (kd : Kind)
  /-- the library goes on -/
  | go (t : Nat)
  | spurious (t : Nat)
  | timeout (t : Nat)
  | cbEnd (t : Nat)
  | cbThrow (t : Nat)
deriving DecidableEq, Repr

/-- The thread executes the client's code: outside all calls or in a callback. -/
def free (s : State) (t : Nat) : Bool :=
  match s.stk t with
  | [] => true
  | .inCb _ _ :: _ => true
  | _ => false

/-- `notify_all` (338). -/
def Frame.notify (k : Nat) : Frame → Frame
  | .asleep k' kd ntf => .asleep k' kd (ntf || k' == k)
  | f => f

/-- `mark_finished_internal`. -/
def finish (s : State) (k : Nat) (r : Res) : State :=
  { s with res := upd s.res k (some r), stk := fun t => (s.stk t).map (Frame.notify k) }

def goto (s : State) (t : Nat) (f : Frame) (fs : List Frame) : State := { s with stk := upd s.stk t (f :: fs) }

/-- `promise::set_value`, `promise::set_exception`. -/
def set (s : State) (t p : Nat) (r : Res) : Option (State × List Event) :=
  match s.obj p with
  | some (some k) =>
    if s.mtx k = none then
      match s.res k with
      | some _ => some (s, [.satisfied t p])
      | none => some (finish s k r, [.wasSet t p r])
    else none
  | _ => some ({ s with ub := true }, [.wasSet t p r, .undefinedBehaviour])

/-- `~promise`. -/
def destroy (s : State) (t p : Nat) : Option (State × List Event) :=
  match s.obj p with
  | some (some k) =>
    if s.mtx k = none then
      match s.res k with
      | some _ => some ({ s with obj := upd s.obj p none }, [.destroyed t p])
      | none => some (finish { s with obj := upd s.obj p none } k .broken, [.destroyed t p])
    else none
  | some none => some ({ s with obj := upd s.obj p none }, [.destroyed t p])
  | none => some ({ s with ub := true }, [.destroyed t p, .undefinedBehaviour])

/-- `promise::set_wait_callback`. -/
def setCb (s : State) (t p : Nat) : Option (State × List Event) :=
  match s.obj p with
  | some (some k) => if s.mtx k = none then some ({ s with cb := upd s.cb k (some p) }, [.callbackSet t p]) else none
  | _ => some ({ s with ub := true }, [.callbackSet t p, .undefinedBehaviour])

/-- The moving constructor. -/
def move (s : State) (t p q : Nat) : Option (State × List Event) :=
  if s.used q then none
  else
    match s.obj p with
    | some o => some ({ s with obj := upd (upd s.obj q (some o)) p (some none), used := upd s.used q true }, [.moved t p q])
    | none => some ({ s with ub := true }, [.moved t p q, .undefinedBehaviour])

/-- The thread acquires the mutex of `k` and goes on at `f`. -/
def lockAnd (s : State) (t k : Nat) (f : Frame) (fs : List Frame) : Option (State × List Event) :=
  if s.mtx k = none then some ({ goto s t f fs with mtx := upd s.mtx k (some t) }, []) else none

/-- One step of a call. -/
def go (s : State) (t : Nat) : Option (State × List Event) :=
  match s.stk t with
  | [] => none
  | f :: fs =>
    match f with
    | .enter k kd => lockAnd s t k (.locked k kd) fs
    | .locked k kd =>
      match s.cb k, s.res k with
      | some p, none => some ({ goto s t (.calling k kd p) fs with mtx := upd s.mtx k none }, [])
      | _, _ => some (goto s t (.check k kd false) fs, [])
    | .calling k kd p => some (goto s t (.inCb k kd) fs, [.cbBegan t k p])
    | .inCb _ _ => none
    | .relock k kd => lockAnd s t k (.check k kd false) fs
    | .unwind k _ => if s.mtx k = none then some ({ s with stk := upd s.stk t fs }, [.threw t k]) else none
    | .check k kd to =>
      match s.res k with
      | some r => some ({ s with stk := upd s.stk t fs, mtx := upd s.mtx k none }, [.returned t k kd r])
      | none =>
        if to then some ({ s with stk := upd s.stk t fs, mtx := upd s.mtx k none }, [.timedOut t k])
        else some ({ goto s t (.asleep k kd false) fs with mtx := upd s.mtx k none }, [])
    | .asleep k kd ntf => if ntf then some (goto s t (.awake k kd false) fs, []) else none
    | .awake k kd to => lockAnd s t k (.check k kd to) fs

def act (s : State) : Label → Option (State × List Event)
  | .create t p =>
    if free s t ∧ s.used p = false then some ({ s with obj := upd s.obj p (some (some p)), used := upd s.used p true }, [.created t p]) else none
  | .setCb t p => if free s t then setCb s t p else none
  | .move t p q => if free s t then move s t p q else none
  | .destroy t p => if free s t then destroy s t p else none
  | .set t p r => if free s t then set s t p r else none
  | .call t k kd => if free s t then some (goto s t (.enter k kd) (s.stk t), [.called t k kd]) else none
  | .go t => go s t
  | .spurious t =>
    match s.stk t with
    | .asleep k kd _ :: fs => some (goto s t (.awake k kd false) fs, [])
    | _ => none
  | .timeout t =>
    match s.stk t with
    | .asleep k .timed _ :: fs => some (goto s t (.awake k .timed true) fs, [])
    | _ => none
  | .cbEnd t =>
    match s.stk t with
    | .inCb k kd :: fs => some (goto s t (.relock k kd) fs, [.cbEnded t k])
    | _ => none
  | .cbThrow t =>
    match s.stk t with
    | .inCb k kd :: fs => some (goto s t (.unwind k kd) fs, [.cbThrew t k])
    | _ => none

def Label.thread : Label → Nat
  | .create t _ | .setCb t _ | .move t _ _ | .destroy t _ | .set t _ _ | .call t _ _ | .go t | .spurious t | .timeout t | .cbEnd t | .cbThrow t => t

/-- `n` threads. -/
def step (n : Nat) (s : State) (l : Label) : Option (State × List Event) := if s.ub = false ∧ l.thread < n then act s l else none

end Verif.WaitCallback
