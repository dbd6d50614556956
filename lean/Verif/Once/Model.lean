import Verif.Once.Spec
import Verif.Core.Threads
/-!
# Model of `boost::call_once`, atomic variant

Models `/repo/src/pthread/once_atomic.cpp` lines 23-87 and `/repo/include/boost/thread/pthread/once_atomic.hpp` lines 124-144.

Any number of flags share the one mutex and the one condition variable of the library. One label is one critical section
under `once_mutex`, the load in front of it, or the broadcast after it. A function passed to `call_once` may itself call
`call_once` (for any flag), so every thread has a stack of functions it is executing.

Simplifications: the atomics and the mutex are sequentially consistent; copying the function and its arguments is part of the function.
-/

namespace Verif.Once

/-- `flag_states`, once_atomic.cpp:23-26. -/
inductive FlagState where
  | uninitialized
  | inProgress
  | initialized
deriving DecidableEq, Repr

/-- Where a thread is inside `call_once(k, …)`; `user`: in user code. -/
inductive PC where
  /-- the body of the innermost running function, or the code outside every `call_once` -/
  | user
  /-- line 39 found the flag not initialized; about to lock the mutex, 41 -/
  | missed (k : Nat)
  /-- in `pthread_cond_wait`, 61 -/
  | asleep (k : Nat)
  /-- woken; about to get the mutex back and go round the loop -/
  | woken (k : Nat)
  /-- the function ended (`ok`: normally); about to enter commit (73) or rollback (83) -/
  | ended (k : Nat) (ok : Bool)
  /-- flag stored; about to broadcast, 76 or 86, and leave `call_once` -/
  | broadcasting (k : Nat) (ok : Bool)
deriving DecidableEq, Repr

def PC.wake : PC → PC
  | .asleep k => .woken k
  | p => p

structure Thread where
  pc : PC
  /-- the flags whose functions this thread is executing, innermost first -/
  stack : List Nat
deriving DecidableEq, Repr

structure State where
  flag : Nat → FlagState
  ts : List Thread

/-- `n` threads, all flags constant-initialized with 0 (once_atomic.hpp:64, 97). -/
def init (n : Nat) : State := { flag := fun _ => .uninitialized, ts := List.replicate n { pc := .user, stack := [] } }

inductive Label where
  /-- `call_once(k, f)` up to the load in line 39 -/
  | call (t k : Nat)
  /-- lines 41-66, from the lock, or from the return of the wait, to the unlock or the wait -/
  | enter (t : Nat)
  /-- `pthread_cond_wait` may return without a reason -/
  | spurious (t : Nat)
  /-- the innermost running function of `t` ends, normally or with an exception -/
  | finish (t : Nat) (ok : Bool)
  /-- the critical section of commit (72-75) or rollback (82-85) -/
  | store (t : Nat)
  /-- the broadcast, 76, 86, and the return or rethrow of `call_once` -/
  | broadcast (t : Nat)
deriving DecidableEq, Repr

def State.setFlag (s : State) (k : Nat) (v : FlagState) : Nat → FlagState := fun j => if j = k then v else s.flag j

/-- The loop 44-63 (with the test in line 42, which it repeats), entered with the mutex held. -/
def loop (s : State) (t k : Nat) (stack : List Nat) : State × List Event :=
  match s.flag k with
  | .uninitialized =>                                   -- 47-51: the exchange succeeds; once_atomic.hpp:131 calls the function
    ({ flag := s.setFlag k .inProgress, ts := s.ts.set t ⟨.user, k :: stack⟩ }, [.started t k])
  | .initialized => ({ s with ts := s.ts.set t ⟨.user, stack⟩ }, [.returned t k])       -- 42, 52-56
  | .inProgress => ({ s with ts := s.ts.set t ⟨.asleep k, stack⟩ }, [])                 -- 61

def step (s : State) : Label → Option (State × List Event)
  | .call t k =>
    match s.ts[t]? with
    | some ⟨.user, stack⟩ =>
      if s.flag k = .initialized then some (s, [.returned t k])                         -- 39, 66
      else some ({ s with ts := s.ts.set t ⟨.missed k, stack⟩ }, [])
    | _ => none
  | .enter t =>
    match s.ts[t]? with
    | some ⟨.missed k, stack⟩ => some (loop s t k stack)
    | some ⟨.woken k, stack⟩ => some (loop s t k stack)
    | _ => none
  | .spurious t =>
    match s.ts[t]? with
    | some ⟨.asleep k, stack⟩ => some ({ s with ts := s.ts.set t ⟨.woken k, stack⟩ }, [])
    | _ => none
  | .finish t ok =>
    match s.ts[t]? with
    | some ⟨.user, k :: stack⟩ => some ({ s with ts := s.ts.set t ⟨.ended k ok, stack⟩ }, [.finished t k ok])
    | _ => none
  | .store t =>
    match s.ts[t]? with
    | some ⟨.ended k ok, stack⟩ =>
      some ({ flag := s.setFlag k (if ok then .initialized else .uninitialized),        -- 74, 84
              ts := s.ts.set t ⟨.broadcasting k ok, stack⟩ }, [])
    | _ => none
  | .broadcast t =>
    match s.ts[t]? with
    | some ⟨.broadcasting k ok, stack⟩ =>
      some ({ s with ts := (s.ts.map fun x => { x with pc := x.pc.wake }).set t ⟨.user, stack⟩ },
        [if ok then .returned t k else .raised t k])
    | _ => none

end Verif.Once
