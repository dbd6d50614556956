import Verif.Core.Run
import Verif.Core.Threads
/-!
# Model of `boost::timed_mutex`

Models `/repo/include/boost/thread/pthread/mutex.hpp` lines 99-319, the variant without
`BOOST_THREAD_USES_PTHREAD_TIMEDLOCK` (the default when the internal clock is monotonic).

Simplifications: each critical section on the internal `pthread_mutex_t m` is one step; deadlines are
not numbers here: a time-out may fire at any moment (this includes every real behaviour of the clock).
`pthread_cond_signal` may pick any thread blocked on the condition, and may also be consumed by one whose
time-out has just fired.
-/

namespace Verif.TimedMutex

/-- A relative time of Boost.Date_Time as seen by `timed_lock` (mutex.hpp:136-147): three special values
or a finite count. -/
inductive RelTime where
  | notADateTime
  | negInfinity
  | posInfinity
  | finite (ns : Int)
deriving DecidableEq, Repr

/-- `TimeDuration::is_pos_infinity()`, used at mutex.hpp:138. -/
def RelTime.isPosInfinity : RelTime → Bool
  | .posInfinity => true
  | _ => false

/-- `TimeDuration::is_special()`, used at mutex.hpp:143. -/
def RelTime.isSpecial : RelTime → Bool
  | .finite _ => false
  | _ => true

/-- Which API call a blocked thread is in. -/
inductive Kind where
  /-- `lock()` mutex.hpp:204-212 -/
  | lock
  /-- `timed_lock(+infinity)`, which calls `lock()` and returns true, mutex.hpp:138-142 -/
  | lockInf
  /-- `do_try_lock_until`, mutex.hpp:233-250, called by every other timed call -/
  | timed
deriving DecidableEq, Repr

/-- Where a thread is. -/
inductive PC where
  /-- not inside a call on this mutex -/
  | idle
  /-- blocked in `pthread_cond_wait` (mutex.hpp:209) or `pthread_cond_timedwait` (mutex.hpp:238) -/
  | asleep (k : Kind)
  /-- the wait has returned 0 (signalled or spurious); about to re-acquire `m` and re-test `is_locked` -/
  | woken (k : Kind)
  /-- the timed wait has returned ETIMEDOUT; about to re-acquire `m`, break and re-test, mutex.hpp:239-247 -/
  | expired
  /-- `do_try_lock_until` returned false inside a polling loop (mutex.hpp:263-268 and 285-290): about to read the clock -/
  | polling
deriving DecidableEq, Repr

/-- Blocked on the condition. -/
def PC.isAsleep : PC → Bool
  | .asleep _ => true
  | _ => false

/-- Observable events: a call on the mutex takes effect and returns. -/
inductive Event where
  | locked (t : Nat)
  | tryLocked (t : Nat) (result : Bool)
  | timedLocked (t : Nat) (result : Bool)
  | unlocked (t : Nat)
deriving DecidableEq, Repr

/-- The event announcing that a blocked call of kind `k` returns with the mutex taken. -/
def Kind.acquired (t : Nat) : Kind → Event
  | .lock => .locked t
  | .lockInf => .timedLocked t true
  | .timed => .timedLocked t true

/-- `is_locked` (mutex.hpp:105) and the threads. -/
structure State where
  isLocked : Bool
  ts : List PC
deriving DecidableEq, Repr

/-- The constructor, mutex.hpp:109-125, with `n` threads that have made no call yet. -/
def init (n : Nat) : State := { isLocked := false, ts := List.replicate n .idle }

inductive Label where
  /-- call `lock()` -/
  | lock (t : Nat)
  /-- call `try_lock()` -/
  | tryLock (t : Nat)
  /-- call `try_lock_until`/`try_lock_for`/`timed_lock(abs_time)` -/
  | timedLock (t : Nat)
  /-- call `timed_lock(relative_time)` -/
  | timedLockRel (t : Nat) (d : RelTime)
  /-- call `unlock()`; `w` is the thread picked by `pthread_cond_signal`, if any is blocked -/
  | unlock (t : Nat) (w : Option Nat)
  /-- spurious wake-up -/
  | spurious (t : Nat)
  /-- the deadline handed to `pthread_cond_timedwait` passes -/
  | timeout (t : Nat)
  /-- a thread back from the wait re-acquires `m` and goes on; `poll` says whether an expired wait is inside a
  polling loop (mutex.hpp:263, 285) or was called directly (mutex.hpp:272, 294-298) -/
  | resume (t : Nat) (poll : Bool)
  /-- the polling loop reads its clock: give up (deadline reached) or call `do_try_lock_until` again -/
  | poll (t : Nat) (giveUp : Bool)
deriving DecidableEq, Repr

/-- The loop head `while(is_locked) wait; is_locked=true`, mutex.hpp:207-211 and 236-249. -/
def acquireOrSleep (s : State) (t : Nat) (k : Kind) : Option (State × List Event) :=
  if s.isLocked then some ({ s with ts := s.ts.set t (.asleep k) }, [])
  else some ({ isLocked := true, ts := s.ts.set t .idle }, [k.acquired t])

/-- `pthread_cond_signal(&cond)`, mutex.hpp:218. -/
def signal (ts : List PC) : Option Nat → Option (List PC)
  | none => if ts.any PC.isAsleep then none else some ts
  | some u =>
    match ts[u]? with
    | some (.asleep k) => some (ts.set u (.woken k))
    | some .expired => some ts
    | _ => none

/-- One atomic step. -/
def step (s : State) : Label → Option (State × List Event)
  | .lock t =>                                   -- mutex.hpp:204-212
    match s.ts[t]? with
    | some .idle => acquireOrSleep s t .lock
    | _ => none
  | .tryLock t =>                                -- mutex.hpp:221-230
    match s.ts[t]? with
    | some .idle =>
      if s.isLocked then some (s, [.tryLocked t false])
      else some ({ s with isLocked := true }, [.tryLocked t true])
    | _ => none
  | .timedLock t =>                              -- mutex.hpp:233-250 via 255-299
    match s.ts[t]? with
    | some .idle => acquireOrSleep s t .timed
    | _ => none
  | .timedLockRel t d =>                         -- mutex.hpp:136-161
    match s.ts[t]? with
    | some .idle =>
      if d.isPosInfinity then acquireOrSleep s t .lockInf          -- 138-142
      else if d.isSpecial then some (s, [.timedLocked t true])     -- 143-146
      else acquireOrSleep s t .timed                               -- 147-161
    | _ => none
  | .unlock t w =>                               -- mutex.hpp:214-219
    match s.ts[t]? with
    | some .idle =>
      match signal s.ts w with
      | some ts => some ({ isLocked := false, ts := ts }, [.unlocked t])
      | none => none
    | _ => none
  | .spurious t =>
    match s.ts[t]? with
    | some (.asleep k) => some ({ s with ts := s.ts.set t (.woken k) }, [])
    | _ => none
  | .timeout t =>
    match s.ts[t]? with
    | some (.asleep .timed) => some ({ s with ts := s.ts.set t .expired }, [])
    | _ => none
  | .resume t poll =>
    match s.ts[t]? with
    | some (.woken k) => acquireOrSleep s t k
    | some .expired =>                           -- mutex.hpp:239-249
      if s.isLocked then
        if poll then some ({ s with ts := s.ts.set t .polling }, [])
        else some ({ s with ts := s.ts.set t .idle }, [.timedLocked t false])
      else some ({ isLocked := true, ts := s.ts.set t .idle }, [.timedLocked t true])
    | _ => none
  | .poll t giveUp =>                            -- mutex.hpp:265-267, 287-289
    match s.ts[t]? with
    | some .polling =>
      if giveUp then some ({ s with ts := s.ts.set t .idle }, [.timedLocked t false])
      else acquireOrSleep s t .timed
    | _ => none

end Verif.TimedMutex
