import Verif.Core.Run
import Verif.Core.Threads
/-!
# The interface of promises and futures

The calls a client makes on `promise`, `future` and `shared_future` objects, and what a call can return. Promise objects and future objects are numbered in
the order of their creation.
-/

namespace Verif.Future

/-- An exception stored in a shared state: one of the client's, or `broken_promise`. -/
inductive Exc where
  | user (n : Nat)
  | broken
deriving DecidableEq, Repr

/-- What a promise can be given. -/
inductive Out where
  | value (v : Nat)
  | exc (e : Exc)
deriving DecidableEq, Repr

/-- `set_value`/`set_exception`; `set_value_deferred`/`set_exception_deferred`; `set_value_at_thread_exit`/`set_exception_at_thread_exit`. -/
inductive Mode where
  | now
  | deferred
  | atExit
deriving DecidableEq, Repr

/-- A blocking call on a future: `get` and `get_or` of a `future` (`uniq`) or of a `shared_future`, `wait`, and `wait_for`/`wait_until`/`timed_wait`. -/
inductive Wait where
  | get (uniq : Bool)
  | getOr (uniq : Bool) (dflt : Nat)
  | wait
  | timed
deriving DecidableEq, Repr

inductive Op where
  /-- `promise()`: a new promise object -/
  | pnew
  /-- `~promise()` -/
  | pdestroy (p : Nat)
  /-- `promise(promise&&)`: a new promise object made from `p` -/
  | pmove (p : Nat)
  /-- `p = std::move(q)` -/
  | passign (p q : Nat)
  | pswap (p q : Nat)
  | getFuture (p : Nat)
  | set (p : Nat) (m : Mode) (o : Out)
  /-- `notify_deferred` -/
  | notify (p : Nat)
  /-- a new `future` (`sh = false`) or `shared_future` object made by moving from `f`: the move constructors, `share()`, the converting constructors -/
  | fconv (f : Nat) (sh : Bool)
  /-- `f = std::move(g)` -/
  | fassign (f g : Nat)
  /-- copy of a `shared_future` -/
  | fcopy (f : Nat)
  | fdestroy (f : Nat)
  | isReady (f : Nat)
  | hasValue (f : Nat)
  | hasException (f : Nat)
  | valid (f : Nat)
  | getF (f : Nat)
  /-- `get_or` on a `future` (`sh = false`) or a `shared_future` -/
  | getOrF (f : Nat) (sh : Bool) (dflt : Nat)
  | waitF (f : Nat)
  | timedF (f : Nat)
  /-- the calling thread's function returns -/
  | exit
deriving DecidableEq, Repr

inductive Res where
  | ok
  /-- the answer of a query; of a timed wait: whether the future is ready -/
  | bool (b : Bool)
  /-- `get` or `get_or` returned this value -/
  | value (v : Nat)
  /-- `get` returned an object that had already been moved from -/
  | movedFrom
  /-- `get` or `get_or` threw the stored exception -/
  | threw (e : Exc)
  /-- `promise_already_satisfied` -/
  | satisfied
  /-- `promise_moved` -/
  | noState
  /-- `future_already_retrieved` -/
  | retrieved
  /-- `future_uninitialized` -/
  | uninit
  /-- `thread_interrupted` -/
  | interrupted
  /-- a null pointer is dereferenced -/
  | crash
deriving DecidableEq, Repr

/-- What can be observed: a call that returned at once, a call that started to block, the return of a blocked call, and the two other things that happen to a
thread's results: the last `thread` object referring to it is gone, and one of its deferred results is published. -/
inductive E where
  | ret (t : Nat) (op : Op) (r : Res)
  | enter (t : Nat) (op : Op)
  | leave (t : Nat) (r : Res)
  | released (t : Nat)
  | published (t : Nat)
deriving DecidableEq, Repr

/-- Compile-time configuration: `BOOST_THREAD_PROVIDES_PROMISE_LAZY` and `BOOST_THREAD_PROVIDES_FUTURE_INVALID_AFTER_GET`. -/
structure Cfg where
  lazy : Bool
  invAfter : Bool
deriving DecidableEq, Repr

/-- A promise object: the shared state it refers to, if any, and whether its future was obtained. -/
structure Prom where
  st : Option Nat
  got : Bool
deriving DecidableEq, Repr

/-- A future object: the shared state it refers to, if any, and whether it is a `shared_future`. -/
structure Fut where
  st : Option Nat
  shared : Bool
deriving DecidableEq, Repr

end Verif.Future
