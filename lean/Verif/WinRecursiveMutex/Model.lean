import Verif.WinMutex.Props
import Verif.RecursiveMutex.Spec
/-!
# Model of `boost::recursive_mutex` / `recursive_timed_mutex` on Windows

Models `/repo/include/boost/thread/win32/basic_recursive_mutex.hpp` lines 26-168 (`basic_recursive_mutex_impl`), built on the
model of `basic_timed_mutex` in `Verif/WinMutex/Model.lean`.

One label is one access to `locking_thread_id` or `recursion_count`, or one atomic operation of the underlying mutex.
Simplifications: thread `t` has the thread id `t + 1` (Windows ids are never 0); `recursion_count` wraps modulo 2^32
(in C++ passing 2^31 - 1 is undefined). An event is emitted when the call takes effect.
-/

namespace Verif.WinRecursiveMutex

/-- Observable events: what calls return, and the call of `unlock` itself (so that a caller that does not hold the mutex is
recognised at once). -/
inductive Event where
  | ret (e : RecursiveMutex.Event)
  | unlocking (t : Nat)
deriving DecidableEq, Repr

inductive Kind where
  | lock
  | tryLock
  | timed
deriving DecidableEq, Repr

/-- Where a thread is in the functions of the recursive mutex. -/
inductive PC where
  | idle
  /-- `try_recursive_lock` saw its own id, about to do `++recursion_count` (103) -/
  | bump (k : Kind)
  /-- it saw another id, about to call the underlying mutex (56, 111, 123, 135, 147, 158) -/
  | enter (k : Kind)
  /-- inside the underlying mutex's lock function -/
  | inside
  /-- underlying mutex obtained, about to store the thread id (57, 113, 125, 137, 149, 160) -/
  | own
  /-- about to store `recursion_count=1` (58, 114, 126, 138, 150, 161) -/
  | count
  /-- `unlock` brought the count to zero, about to clear the id (93) -/
  | release
  /-- about to call `mutex.unlock()` (94) -/
  | releasing
deriving DecidableEq, Repr

/-- The members, basic_recursive_mutex.hpp:29-31. -/
structure State where
  m : WinMutex.State
  owner : Nat
  recs : Nat
  ts : List PC
deriving DecidableEq, Repr

/-- `initialize()`, basic_recursive_mutex.hpp:33-38. -/
def init (n : Nat) : State := { m := WinMutex.init n, owner := 0, recs := 0, ts := List.replicate n .idle }

/-- `long` has 2^32 values. -/
def modulus : Nat := 4294967296

inductive Label where
  /-- call `lock`, `try_lock` or a timed form, and read `locking_thread_id` (101) -/
  | call (t : Nat) (k : Kind)
  /-- call `unlock` and decrement `recursion_count` (91) -/
  | unlock (t : Nat)
  /-- the thread's next operation -/
  | next (t : Nat)
  /-- a timed wait in the underlying mutex reaches its deadline -/
  | giveUp (t : Nat)
deriving DecidableEq, Repr

/-- How a call reports success. -/
def acquired (t : Nat) : Kind → Event
  | .lock => .ret (.locked t)
  | .tryLock => .ret (.tryLocked t true)
  | .timed => .ret (.timedLocked t true)

/-- What the underlying mutex reported becomes the report of the recursive mutex. -/
def convert : WinMutex.Event → Event
  | .locked t => .ret (.locked t)
  | .tryLocked t r => .ret (.tryLocked t r)
  | .timedLocked t r => .ret (.timedLocked t r)
  | .unlocked t => .ret (.unlocked t)

/-- Where the thread goes after that report. -/
def after : WinMutex.Event → PC
  | .locked _ => .own
  | .tryLocked _ r => if r then .own else .idle
  | .timedLocked _ r => if r then .own else .idle
  | .unlocked _ => .idle

/-- Which operation of the underlying mutex a call uses (48, 56, 123, 147, 158). -/
def inner (t : Nat) : Kind → WinMutex.Label
  | .lock => .call t false
  | .tryLock => .tryLock t
  | .timed => .call t true

/-- Run one step of the underlying mutex on behalf of `t`; without a report `t` goes to `p`. -/
def delegate (s : State) (t : Nat) (p : PC) (l : WinMutex.Label) : Option (State × List Event) :=
  match WinMutex.step s.m l with
  | some (m, []) => some ({ s with m := m, ts := s.ts.set t p }, [])
  | some (m, [e]) => some ({ s with m := m, ts := s.ts.set t (after e) }, [convert e])
  | _ => none

/-- One atomic step. -/
def step (s : State) : Label → Option (State × List Event)
  | .call t k =>                                                  -- 99-107
    match s.ts[t]?, s.m.ts[t]? with
    | some .idle, some .idle =>
      if s.owner = t + 1 then some ({ s with ts := s.ts.set t (.bump k) }, [])
      else some ({ s with ts := s.ts.set t (.enter k) }, [])
    | _, _ => none
  | .unlock t =>                                                  -- 89-91
    match s.ts[t]?, s.m.ts[t]? with
    | some .idle, some .idle =>
      let c := (s.recs + (modulus - 1)) % modulus
      if c = 0 then some ({ s with recs := c, ts := s.ts.set t .release }, [.unlocking t])
      else some ({ s with recs := c }, [.unlocking t, .ret (.unlocked t)])
    | _, _ => none
  | .next t =>
    match s.ts[t]? with
    | some (.bump k) =>                                           -- 103
      some ({ s with recs := (s.recs + 1) % modulus, ts := s.ts.set t .idle }, [acquired t k])
    | some (.enter k) => delegate s t .inside (inner t k)
    | some .inside => delegate s t .inside (.next t)
    | some .own => some ({ s with owner := t + 1, ts := s.ts.set t .count }, [])     -- 57
    | some .count => some ({ s with recs := 1, ts := s.ts.set t .idle }, [])          -- 58
    | some .release => some ({ s with owner := 0, ts := s.ts.set t .releasing }, [])  -- 93
    | some .releasing => delegate s t .idle (.unlock t)           -- 94
    | some .idle =>                                               -- rest of mutex.unlock()
      match s.m.ts[t]? with
      | some .unlocking => delegate s t .idle (.next t)
      | some .setting => delegate s t .idle (.next t)
      | _ => none
    | none => none
  | .giveUp t =>
    match s.ts[t]? with
    | some .inside => delegate s t .inside (.giveUp t)
    | _ => none

end Verif.WinRecursiveMutex
