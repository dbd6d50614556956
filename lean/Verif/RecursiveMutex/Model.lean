import Verif.TimedMutex.Model
/-!
# Model of `boost::recursive_timed_mutex`

Models `/repo/include/boost/thread/pthread/recursive_mutex.hpp` lines 175-425, the default variant (no
`BOOST_USE_PTHREAD_RECURSIVE_TIMEDLOCK`). `recursive_mutex::lock/unlock/try_lock` of lines 130-168 (used when
the platform has no native recursive mutexes) are the same code without the timed call.

Simplifications: as for `timed_mutex` (one step per critical section, time-outs at any moment). The depth
`unsigned count` is kept modulo 2^32.
-/

namespace Verif.RecursiveMutex

open Verif.TimedMutex (RelTime Kind)

/-- Number of values of `unsigned`. -/
def modulus : Nat := 4294967296

/-- Where a thread is; as in the `timed_mutex` model. -/
inductive PC where
  | idle
  /-- blocked in `pthread_cond_wait`, recursive_mutex.hpp:309, or `pthread_cond_timedwait`, 350 -/
  | asleep (k : Kind)
  /-- back from the wait with result 0 -/
  | woken (k : Kind)
  /-- back from the timed wait with ETIMEDOUT, recursive_mutex.hpp:351-354 -/
  | expired
  /-- between two calls of `do_try_lock_until` in a polling loop, recursive_mutex.hpp:377-382, 401-406 -/
  | polling
deriving DecidableEq, Repr

def PC.isAsleep : PC → Bool
  | .asleep _ => true
  | _ => false

inductive Event where
  | locked (t : Nat)
  | tryLocked (t : Nat) (result : Bool)
  | timedLocked (t : Nat) (result : Bool)
  | unlocked (t : Nat)
deriving DecidableEq, Repr

/-- The event with which a call of kind `k` reports success. -/
def acquired (t : Nat) : Kind → Event
  | .lock => .locked t
  | .lockInf => .timedLocked t true
  | .timed => .timedLocked t true

/-- The members, recursive_mutex.hpp:186-189; `owner` is meaningless while `is_locked` is false. -/
structure State where
  isLocked : Bool
  owner : Nat
  count : Nat
  ts : List PC
deriving DecidableEq, Repr

/-- Constructor, recursive_mutex.hpp:216-230. -/
def init (n : Nat) : State := { isLocked := false, owner := 0, count := 0, ts := List.replicate n .idle }

inductive Label where
  | lock (t : Nat)
  | tryLock (t : Nat)
  | timedLock (t : Nat)
  | timedLockRel (t : Nat) (d : RelTime)
  | unlock (t : Nat) (w : Option Nat)
  | spurious (t : Nat)
  | timeout (t : Nat)
  | resume (t : Nat) (poll : Bool)
  | poll (t : Nat) (giveUp : Bool)
deriving DecidableEq, Repr

/-- `is_locked=true; ++count; owner=pthread_self()`, recursive_mutex.hpp:311-313, 333-335, 362-364. -/
def State.take (s : State) (t : Nat) : State :=
  { isLocked := true, owner := t, count := (s.count + 1) % modulus, ts := s.ts.set t .idle }

/-- The waiting loop, recursive_mutex.hpp:307-313 and 348-365 (after the ownership test). -/
def acquireOrSleep (s : State) (t : Nat) (k : Kind) : Option (State × List Event) :=
  if s.isLocked then some ({ s with ts := s.ts.set t (.asleep k) }, [])
  else some (s.take t, [acquired t k])

/-- `lock()` from its first line, recursive_mutex.hpp:298-314, and `do_try_lock_until`, 340-366. -/
def enter (s : State) (t : Nat) (k : Kind) : Option (State × List Event) :=
  if s.isLocked && s.owner == t then
    some ({ s with count := (s.count + 1) % modulus, ts := s.ts.set t .idle }, [acquired t k])
  else acquireOrSleep s t k

/-- `pthread_cond_signal(&cond)`, recursive_mutex.hpp:323. -/
def signal (ts : List PC) : Option Nat → Option (List PC)
  | none => if ts.any PC.isAsleep then none else some ts
  | some u =>
    match ts[u]? with
    | some (.asleep k) => some (ts.set u (.woken k))
    | some .expired => some ts
    | _ => none

/-- One atomic step. -/
def step (s : State) : Label → Option (State × List Event)
  | .lock t =>                                   -- recursive_mutex.hpp:298-314
    match s.ts[t]? with
    | some .idle => enter s t .lock
    | _ => none
  | .tryLock t =>                                -- recursive_mutex.hpp:326-336
    match s.ts[t]? with
    | some .idle =>
      if s.isLocked && !(s.owner == t) then some (s, [.tryLocked t false])
      else some (s.take t, [.tryLocked t true])
    | _ => none
  | .timedLock t =>                              -- recursive_mutex.hpp:340-366 via 371-416
    match s.ts[t]? with
    | some .idle => enter s t .timed
    | _ => none
  | .timedLockRel t d =>                         -- recursive_mutex.hpp:242-267
    match s.ts[t]? with
    | some .idle =>
      if d.isPosInfinity then enter s t .lockInf
      else if d.isSpecial then some (s, [.timedLocked t true])
      else enter s t .timed
    | _ => none
  | .unlock t w =>                               -- recursive_mutex.hpp:316-324
    match s.ts[t]? with
    | some .idle =>
      match signal s.ts w with
      | some ts =>
        let c := (s.count + (modulus - 1)) % modulus
        some ({ s with isLocked := if c = 0 then false else s.isLocked, count := c, ts := ts }, [.unlocked t])
      | none => none
    | _ => none
  | .spurious t =>
    match s.ts[t]? with
    | some (.asleep k) => some ({ s with ts := s.ts.set t (.woken k) }, [])
    | _ => none
  | .timeout t =>
    match s.ts[t]? with
    | some (.asleep .timed) => some ({ s with ts := s.ts.set t .expired }, [])
    | _ => none
  | .resume t poll =>
    match s.ts[t]? with
    | some (.woken k) => acquireOrSleep s t k
    | some .expired =>                           -- recursive_mutex.hpp:351-365
      if s.isLocked then
        if poll then some ({ s with ts := s.ts.set t .polling }, [])
        else some ({ s with ts := s.ts.set t .idle }, [.timedLocked t false])
      else some (s.take t, [.timedLocked t true])
    | _ => none
  | .poll t giveUp =>                            -- recursive_mutex.hpp:379-381, 403-405
    match s.ts[t]? with
    | some .polling =>
      if giveUp then some ({ s with ts := s.ts.set t .idle }, [.timedLocked t false])
      else enter s t .timed
    | _ => none

end Verif.RecursiveMutex
