import Verif.Once.Spec
import Verif.Core.Threads
/-!
# Model of `boost::call_once`, epoch variant

Models `/repo/include/boost/thread/pthread/once.hpp` lines 128-174 and `/repo/src/pthread/once.cpp` lines 22-24, 66-78.

Any number of flags share `once_global_epoch`, `once_epoch_mutex` and `once_epoch_cv`; every thread has its own cached epoch. One label is
the unlocked read in line 133 with the test in line 136, or one critical section under the mutex. Functions may call `call_once` themselves.

Simplifications: sequential consistency (line 133 reads without the mutex); `malloc` in `get_once_per_thread_epoch` succeeds.
-/

namespace Verif.OnceEpoch
open Verif.Once (Event)

/-- `BOOST_THREAD_DETAIL_UINTMAX_ATOMIC_MAX_C`, `~0u`, once.hpp:42-44. -/
def maxEpoch : Nat := 4294967295

/-- `--once_global_epoch` on `uint32_t`. -/
def dec (g : Nat) : Nat := if g = 0 then maxEpoch else g - 1

inductive PC where
  /-- the body of the innermost running function, or the code outside every `call_once` -/
  | user
  /-- line 136 found `epoch < this_thread_epoch`; about to lock the mutex -/
  | missed (k : Nat)
  /-- in `pthread_cond_wait`, 167 -/
  | asleep (k : Nat)
  | woken (k : Nat)
  /-- the function ended (`ok`: normally); `~pthread_mutex_scoped_unlock` (147) is about to lock the mutex again -/
  | ended (k : Nat) (ok : Bool)
deriving DecidableEq, Repr

def PC.wake : PC → PC
  | .asleep k => .woken k
  | p => p

structure Thread where
  pc : PC
  /-- the flags whose functions this thread is executing, innermost first -/
  stack : List Nat
  /-- `get_once_per_thread_epoch()`, initially `~0u` (once.cpp:75) -/
  epoch : Nat
deriving DecidableEq, Repr

def Thread.wake (x : Thread) : Thread := { x with pc := x.pc.wake }

structure State where
  /-- `once_global_epoch` -/
  glob : Nat
  /-- `once_flag::epoch` -/
  flag : Nat → Nat
  ts : List Thread

def init (n : Nat) : State :=
  { glob := maxEpoch, flag := fun _ => 0, ts := List.replicate n { pc := .user, stack := [], epoch := maxEpoch } }

inductive Label where
  /-- `call_once(k, f)` up to line 136 -/
  | call (t k : Nat)
  /-- from the lock (138), or from the return of the wait (167), to the call of the function, the next wait or the return -/
  | enter (t : Nat)
  | spurious (t : Nat)
  /-- the innermost running function of `t` ends, normally or with an exception -/
  | finish (t : Nat) (ok : Bool)
  /-- 155-157, or 160-161 and the loop on to the next wait or the return -/
  | store (t : Nat)
deriving DecidableEq, Repr

def State.setFlag (s : State) (k v : Nat) : Nat → Nat := fun j => if j = k then v else s.flag j

/-- The loop 140-170 and line 171, entered with the mutex held. -/
def loop (s : State) (t k : Nat) (x : Thread) : State × List Event :=
  if s.flag k = 0 then                                  -- 142-150
    ({ s with flag := s.setFlag k 1, ts := s.ts.set t { x with pc := .user, stack := k :: x.stack } }, [.started t k])
  else if s.flag k = 1 then                             -- 165-168
    ({ s with ts := s.ts.set t { x with pc := .asleep k } }, [])
  else                                                  -- 140, 171
    ({ s with ts := s.ts.set t { x with pc := .user, epoch := s.glob } }, [.returned t k])

def step (s : State) : Label → Option (State × List Event)
  | .call t k =>
    match s.ts[t]? with
    | some x =>
      if x.pc = .user then
        if s.flag k < x.epoch then some ({ s with ts := s.ts.set t { x with pc := .missed k } }, [])   -- 136
        else some (s, [.returned t k])
      else none
    | _ => none
  | .enter t =>
    match s.ts[t]? with
    | some x =>
      match x.pc with
      | .missed k => some (loop s t k x)
      | .woken k => some (loop s t k x)
      | _ => none
    | _ => none
  | .spurious t =>
    match s.ts[t]? with
    | some x =>
      match x.pc with
      | .asleep k => some ({ s with ts := s.ts.set t { x with pc := .woken k } }, [])
      | _ => none
    | _ => none
  | .finish t ok =>
    match s.ts[t]? with
    | some x =>
      match x.pc, x.stack with
      | .user, k :: st => some ({ s with ts := s.ts.set t { x with pc := .ended k ok, stack := st } }, [.finished t k ok])
      | _, _ => none
    | _ => none
  | .store t =>
    match s.ts[t]? with
    | some x =>
      match x.pc with
      | .ended k true =>                                -- 160-161, then the loop
        some (loop { glob := dec s.glob, flag := s.setFlag k (dec s.glob), ts := s.ts.map Thread.wake } t k x)
      | .ended k false =>                               -- 155-157
        some ({ s with flag := s.setFlag k 0, ts := (s.ts.map Thread.wake).set t { x with pc := .user } }, [.raised t k])
      | _ => none
    | _ => none

end Verif.OnceEpoch
