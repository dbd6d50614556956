import Verif.AtExit.Spec
/-!
# Model of what happens at the end of a thread

src/pthread/thread.cpp (the same code is in src/win32/thread.cpp 50-65, 363-390, 992-999, except that
`make_ready_at_thread_exit` is not defined there), include/boost/thread/pthread/thread_data.hpp 110-190,
include/boost/thread/future.hpp.

The data of a thread (`thread_data_base`) is shared by the thread itself, the `boost::thread` object that refers to it,
`thread::id`s (without `BOOST_THREAD_PROVIDES_BASIC_THREAD_ID`) and the calls on the object that are running. Its
destructor carries out the effects asked for at the end of the thread.

Simplifications: the exit functions and cleanup functions are arbitrary client code, run between the labels `ret` and `leave`;
they are the subject of the component ThreadExit. The protocol between `join` and the end of the thread is the subject
of the component Thread: `join` goes on when the thread is gone. The condition variables are the subject of CondVar:
only the call of `notify_all` is recorded. Futures are `shared_future`s. A thread object is used by one
thread at a time. Every mutex and every promise outlives its use.
`notify_all_at_thread_exit` is called with a lock that owns its mutex. Assertions are disabled.
-/

namespace Verif.AtExit

/-- What follows the destructor of the data of a thread. -/
inductive Kont where
  /-- the call of the client that dropped the reference returns -/
  | ret (u : Nat)
  /-- the thread ends -/
  | bye
deriving DecidableEq, Repr

inductive Pc where
  /-- not created yet -/
  | unborn
  /-- in client code -/
  | idle
  /-- in `join`, waiting for thread `u` (src/pthread/thread.cpp 321-357) -/
  | joining (u : Nat)
  /-- in the destructor of the data of thread `u` (src/pthread/thread.cpp 49-64) -/
  | dtor (u : Nat) (k : Kont)
  /-- a reference that was not the last one has been given up -/
  | fin (k : Kont)
  /-- no more code is executed -/
  | gone
deriving DecidableEq, Repr

/-- The data of a thread (thread_data.hpp 110-183). -/
structure Data where
  /-- created by the library (otherwise by other means: `main`, `pthread_create`) -/
  lib : Bool
  /-- `get_current_thread_data() != 0` (src/pthread/thread.cpp 152-158, 235-252) -/
  set : Bool
  /-- the function of the thread has returned: exit functions, cleanup functions -/
  over : Bool
  /-- the thread's own reference to its data (`thread_info` in `thread_proxy`, `self` for other threads) -/
  own : Bool
  /-- a thread object refers to the data -/
  obj : Bool
  /-- further references -/
  copies : Nat
  /-- `notify` (thread_data.hpp 137), `async_states_` (thread_data.hpp 141) -/
  notify : List (Nat × Nat)
  states : List Nat
  /-- the destructor is being, or has been, executed: the effects left -/
  left : Option (List Eff)
deriving DecidableEq, Repr

/-- The shared state of a promise (include/boost/thread/future.hpp 170-215): `done`, `is_constructed`, `exception`,
`result`. -/
structure Ps where
  done : Bool
  cons : Bool
  exc : Option Res
  val : Option Nat
  /-- the promise object exists -/
  alive : Bool
deriving DecidableEq, Repr

structure St where
  /-- number of threads -/
  n : Nat
  pc : Nat → Pc
  d : Nat → Data
  mx : Nat → Mx
  ps : Nat → Ps

/-- A thread not created by the library. -/
def Data.external : Data :=
  { lib := false, set := false, over := false, own := false, obj := false, copies := 0, notify := [], states := [], left := none }

/-- A thread created by the library: `thread_proxy` has taken its reference and set the thread data
(src/pthread/thread.cpp 168-174); one thread object refers to it (src/pthread/thread.cpp 260-271). -/
def Data.created : Data :=
  { lib := true, set := true, over := false, own := true, obj := true, copies := 0, notify := [], states := [], left := none }

/-- `n` threads not created by the library. -/
def init (n : Nat) : St :=
  { n := n
    pc := fun u => if u < n then .idle else .unborn
    d := fun _ => Data.external
    mx := fun _ => .free
    ps := fun _ => { done := false, cons := false, exc := none, val := none, alive := true } }

inductive Label where
  | start (w : Nat)
  /-- a call that makes thread data for a thread not created by the library -/
  | mkData (w : Nat)
  | lock (w m : Nat)
  | unlock (w m : Nat)
  | notifyExit (w c m : Nat)
  | setExit (w p : Nat) (r : Res)
  | setNow (w p : Nat) (r : Res)
  | destroy (w p : Nat)
  | get (w p : Nat)
  /-- the function of the thread returns; exit functions and cleanup functions follow -/
  | ret (w : Nat)
  /-- the end of the thread -/
  | leave (w : Nat)
  | join (w u : Nat)
  | joinEnd (w : Nat)
  | detach (w u : Nat)
  | copy (w u : Nat)
  | uncopy (w u : Nat)
  /-- the next action of a thread that has given up a reference -/
  | go (w : Nat)
deriving DecidableEq, Repr

/-- The effects the destructor carries out: `unlock` and `notify_all` for each pair, then `notify_deferred` for each
state (src/pthread/thread.cpp 51-62); none for a thread not created by the library, whose destructor has emptied the
lists (219-227). -/
def jobs (x : Data) : List Eff :=
  if x.lib then x.notify.flatMap (fun y => [.unlock y.2, .notify y.1]) ++ x.states.map .ready else []

/-- Nobody refers to the data. -/
def Data.free (x : Data) : Bool := !x.own && !x.obj && x.copies == 0

/-- Thread `w` has given up a reference to the data of thread `u` (which is `x` now): if it was the last one, `w`
executes the destructor (src/pthread/thread.cpp 49-64). -/
def release (s : St) (w u : Nat) (x : Data) (k : Kont) : St :=
  if x.free then { s with d := upd s.d u { x with left := some (jobs x) }, pc := upd s.pc w (.dtor u k) }
  else { s with d := upd s.d u x, pc := upd s.pc w (.fin k) }

/-- `set_value_deferred`, `set_exception_deferred` (include/boost/thread/future.hpp 464-473, 670-704): `none` for
`promise_already_satisfied`, thrown if `has_value(lk)` (493-496). -/
def defer (x : Ps) (r : Res) : Option Ps :=
  if x.done && x.exc.isNone then none
  else match r with
    | .val v => some { x with val := some v, cons := true }
    | r => some { x with exc := some r, cons := true }

/-- `set_value`, `set_exception` (include/boost/thread/future.hpp 2397-2411, 2464-2474; 452-456, 584-598). -/
def setNow (x : Ps) (r : Res) : Option Ps :=
  if x.done then none
  else match r with
    | .val v => some { x with val := some v, done := true }
    | r => some { x with exc := some r, done := true }

/-- `~promise` (include/boost/thread/future.hpp 2308-2319). -/
def abandon (x : Ps) : Ps :=
  if !x.done && !x.cons then { x with alive := false, exc := some .broken, done := true } else { x with alive := false }

/-- `get` once the state is ready (include/boost/thread/future.hpp 372-398, 625-668). A state that is ready has a
result or an exception. -/
def Ps.res (x : Ps) : Res :=
  match x.exc, x.val with
  | some r, _ => r
  | none, some v => .val v
  | none, none => .broken

/-- A client does not put the library's own mark into a promise. -/
def plain : Res → Bool
  | .broken => false
  | _ => true

/-- A thread in client code does something. -/
def stepIdle (s : St) : Label → Option (St × List Event)
  -- `thread(f)` (src/pthread/thread.cpp 260-271, 168-174)
  | .start w =>
    some ({ s with n := s.n + 1, pc := upd s.pc s.n .idle, d := upd s.d s.n Data.created }, [.start w s.n])
  -- `make_external_thread_data` (src/pthread/thread.cpp 235-252)
  | .mkData w =>
    if (s.d w).set then none else some ({ s with d := upd s.d w { s.d w with set := true, own := true } }, [])
  | .lock w m => if s.mx m = .free then some ({ s with mx := upd s.mx m (.held w) }, [.locked w m]) else none
  | .unlock w m => if s.mx m = .held w then some ({ s with mx := upd s.mx m .free }, [.unlocked w m]) else none
  -- `notify_all_at_thread_exit` (src/pthread/thread.cpp 790-797; thread_data.hpp 173-176): without thread data the
  -- parameter `lk` is destroyed; the data of a thread not created by the library records nothing (230-231)
  | .notifyExit w c m =>
    if s.mx m = .held w then
      if (s.d w).set then
        if (s.d w).lib then
          some ({ s with mx := upd s.mx m (.handed w), d := upd s.d w { s.d w with notify := (s.d w).notify ++ [(c, m)] } }, [.reg w c m])
        else some ({ s with mx := upd s.mx m (.handed w) }, [.reg w c m])
      else some ({ s with mx := upd s.mx m .free }, [.reg w c m, .unlocked w m])
    else none
  -- `set_value_at_thread_exit`, `set_exception_at_thread_exit` (future.hpp 474-484, 708-746, 2498-2540;
  -- `make_ready_at_thread_exit`: src/pthread/thread.cpp 802-809, thread_data.hpp 179-182)
  | .setExit w p r =>
    if (s.ps p).alive && plain r then
      match defer (s.ps p) r with
      | none => some (s, [.already w p])
      | some x =>
        if (s.d w).set then
          some ({ s with ps := upd s.ps p x, d := upd s.d w { s.d w with states := (s.d w).states ++ [p] } }, [.stored w p r])
        else some ({ s with ps := upd s.ps p x }, [.stored w p r])
    else none
  | .setNow w p r =>
    if (s.ps p).alive && plain r then
      match setNow (s.ps p) r with
      | none => some (s, [.already w p])
      | some x => some ({ s with ps := upd s.ps p x }, [.setNow w p r])
    else none
  | .destroy w p =>
    if (s.ps p).alive then some ({ s with ps := upd s.ps p (abandon (s.ps p)) }, [.destroyed w p]) else none
  -- `get` (future.hpp 372-398) blocks until the state is ready
  | .get w p => if (s.ps p).done then some (s, [.got w p (s.ps p).res]) else none
  | .ret w => if (s.d w).over then none else some ({ s with d := upd s.d w { s.d w with over := true } }, [])
  -- `thread_proxy` 196-201, or `tls_destructor` 123 for a thread not created by the library
  | .leave w =>
    if (s.d w).over then some (release s w w { s.d w with set := false, own := false } .bye, [.finish w]) else none
  | .join w u => if u ≠ w ∧ (s.d u).obj then some ({ s with pc := upd s.pc w (.joining u) }, []) else none
  -- `detach` (src/pthread/thread.cpp 427-442), the end of the life of the thread object
  | .detach w u =>
    if (s.d u).obj then some (release s w u { s.d u with obj := false } (.ret u), [.drop w u]) else none
  | .copy w u =>
    if (s.d u).obj then some ({ s with d := upd s.d u { s.d u with copies := (s.d u).copies + 1 } }, [.copied w u]) else none
  | .uncopy w u =>
    if 0 < (s.d u).copies then some (release s w u { s.d u with copies := (s.d u).copies - 1 } (.ret u), [.drop w u]) else none
  | .joinEnd _ => none
  | .go _ => none

/-- One effect of the destructor: `unlock` (53), `notify_all` (54), `notify_deferred` (60; future.hpp 346-350). -/
def perform (s : St) : Eff → St
  | .unlock m => { s with mx := upd s.mx m .free }
  | .notify _ => s
  | .ready p => { s with ps := upd s.ps p { s.ps p with done := true } }

/-- The call returns to the client, or the thread ends. -/
def finishUp (s : St) (w : Nat) : Kont → St × List Event
  | .ret u => ({ s with pc := upd s.pc w .idle }, [.ret w u])
  | .bye => ({ s with pc := upd s.pc w .gone }, [.gone w])

/-- The thread that moves. -/
def Label.who : Label → Nat
  | .start w | .mkData w | .lock w _ | .unlock w _ | .notifyExit w _ _ | .setExit w _ _ | .setNow w _ _
  | .destroy w _ | .get w _ | .ret w | .leave w | .join w _ | .joinEnd w | .detach w _ | .copy w _ | .uncopy w _
  | .go w => w

def step (s : St) (l : Label) : Option (St × List Event) :=
  match s.pc l.who with
  | .idle => stepIdle s l
  -- src/pthread/thread.cpp 345-358: the thread is gone; `thread_info.reset()`, then the local reference goes
  | .joining u =>
    match l with
    | .joinEnd w =>
      if s.pc u = .gone ∧ (s.d u).obj then some (release s w u { s.d u with obj := false } (.ret u), [.drop w u]) else none
    | _ => none
  | .dtor u k =>
    match l, (s.d u).left with
    | .go w, some (f :: js) =>
      some (perform { s with d := upd s.d u { s.d u with left := some js } } f, [.eff w u f])
    | .go w, _ => some (finishUp s w k)
    | _, _ => none
  | .fin k =>
    match l with
    | .go w => some (finishUp s w k)
    | _ => none
  | _ => none

end Verif.AtExit
