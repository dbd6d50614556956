import Verif.Core.Run
import Verif.Core.Threads
/-!
# Model of `boost::barrier`

Models `/repo/include/boost/thread/barrier.hpp` lines 36-59, 61-117, 125-130, 138-216, 218-241.

One label is one critical section under `m_mutex`, or the `notify_all` after it. The completion function runs inside the critical section
of the last arrival; the label says what it does (it returns a size or throws). Sizes, `m_count` and `m_generation` are `unsigned int` with
32 bits and wrap around. `m_cond.wait` may end spuriously or by interruption.

Simplification: a completion function that itself uses the barrier (it would deadlock on `m_mutex`) is not modelled.
-/

namespace Verif.Barrier

/-- Values of `unsigned int`. -/
def M : Nat := 4294967296

/-- `--m_count` -/
def dec (n : Nat) : Nat := if n = 0 then M - 1 else n - 1
/-- `m_generation++` -/
def inc (n : Nat) : Nat := if n + 1 = M then 0 else n + 1

/-- What `fct_` holds. -/
inductive Fct where
  /-- `default_barrier_reseter` (36-59), used by 138-141 and for null function pointers (205, 213) -/
  | default
  /-- `void_functor_barrier_reseter`, `void_fct_ptr_barrier_reseter` (61-117) around a user function without result -/
  | void
  /-- a user function returning the next size (174-199, 212) -/
  | sized
deriving DecidableEq, Repr

/-- `fct_()` of a barrier constructed with `size`; `user = none` if the user's function throws, `some m` if it returns (`m`, in case it
returns a size); 55-58, 87-91, 112-116. -/
def Fct.apply (size : Nat) : Fct → Option Nat → Option Nat
  | .default, _ => some size
  | .void, user => user.map fun _ => size
  | .sized, user => user

inductive PC where
  | idle
  /-- in `m_cond.wait` (234), having arrived in generation `gen` -/
  | asleep (gen : Nat)
  | woken (gen : Nat)
  /-- last to arrive; mutex released (228), about to `notify_all` (229) -/
  | notifying
deriving DecidableEq, Repr

def PC.wake : PC → PC
  | .asleep g => .woken g
  | p => p

inductive Event where
  /-- a call of `wait()` or `count_down_and_wait()` has been counted -/
  | arrived (t : Nat)
  /-- the completion function, called by `t`, returned the next size -/
  | completed (t size : Nat)
  /-- the completion function, called by `t`, threw, and so did `wait()` -/
  | threw (t : Nat)
  /-- `wait()` returned `b` -/
  | returned (t : Nat) (b : Bool)
  /-- `wait()` threw `thread_interrupted` -/
  | interrupted (t : Nat)
deriving DecidableEq, Repr

structure State where
  count : Nat
  gen : Nat
  fct : Fct
  /-- `size_` of the reseter, 38, 63, 95 -/
  size : Nat
  ts : List PC
deriving DecidableEq, Repr

/-- The constructors with `check_counter` (125-130, 138-216): `none` is the exception for a zero count. -/
def construct (size : Nat) (fct : Fct) (threads : Nat) : Option State :=
  if size = 0 then none else some { count := size, gen := 0, fct, size, ts := List.replicate threads .idle }

inductive Label where
  /-- `wait()` up to the first wait or to line 228; `user` is what the user's completion function does if it is called -/
  | arrive (t : Nat) (user : Option Nat)
  /-- line 229-230 -/
  | notify (t : Nat)
  /-- the wait in line 234 ends and line 233 is evaluated again -/
  | resume (t : Nat)
  | spurious (t : Nat)
  | interrupt (t : Nat)
deriving DecidableEq, Repr

def step (s : State) : Label → Option (State × List Event)
  | .arrive t user =>
    match s.ts[t]? with
    | some .idle =>
      if dec s.count = 0 then                                               -- 223
        match s.fct.apply s.size user with
        | some m =>                                                         -- 225-228
          if m < M then some ({ s with gen := inc s.gen, count := m, ts := s.ts.set t .notifying }, [.arrived t, .completed t m])
          else none
        | none =>                                                           -- 226 throws
          some ({ s with gen := inc s.gen, count := 0 }, [.arrived t, .threw t])
      else some ({ s with count := dec s.count, ts := s.ts.set t (.asleep s.gen) }, [.arrived t])   -- 221, 233-234
    | _ => none
  | .notify t =>
    match s.ts[t]? with
    | some .notifying => some ({ s with ts := (s.ts.map PC.wake).set t .idle }, [.returned t true])
    | _ => none
  | .resume t =>
    match s.ts[t]? with
    | some (.woken g) =>
      if g = s.gen then some ({ s with ts := s.ts.set t (.asleep g) }, [])
      else some ({ s with ts := s.ts.set t .idle }, [.returned t false])
    | _ => none
  | .spurious t =>
    match s.ts[t]? with
    | some (.asleep g) => some ({ s with ts := s.ts.set t (.woken g) }, [])
    | _ => none
  | .interrupt t =>
    match s.ts[t]? with
    | some (.asleep _) => some ({ s with ts := s.ts.set t .idle }, [.interrupted t])
    | some (.woken _) => some ({ s with ts := s.ts.set t .idle }, [.interrupted t])
    | _ => none

end Verif.Barrier
