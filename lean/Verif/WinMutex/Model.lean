import Verif.Core.Run
import Verif.Core.Threads
/-!
# Model of `boost::mutex` / `timed_mutex` on Windows

Models `/repo/include/boost/thread/win32/basic_timed_mutex.hpp` lines 33-288 (`detail::basic_timed_mutex`).

One label is one atomic operation on `active_count` or one operation on the event, so threads interleave between
any two of them.

Simplifications
* `active_count` is kept as its three fields: bit 31 (lock), bit 30 (event set) and the 30 low bits (number of waiters).
  `Word.lean` proves that the 32-bit arithmetic of the code acts on the packed word exactly like the field updates
  used here, as long as there are fewer than 2^30 waiters.
* `get_event()` (258-286) creates the event on first use; here the one event exists from the start.
* The auto-reset event is a flag: `SetEvent` sets it, a wait that returns 0 clears it. A timed wait may give up at any moment.
* Interlocked operations are sequentially consistent.
-/

namespace Verif.WinMutex

/-- The fields of `active_count`, basic_timed_mutex.hpp:35-39. -/
structure Word where
  locked : Bool
  eventSet : Bool
  waiters : Nat
deriving DecidableEq, Repr

/-- The value `mark_waiting_and_try_lock` tries to store, basic_timed_mutex.hpp:100-101. -/
def Word.mark (w : Word) : Word :=
  if w.locked then { w with waiters := w.waiters + 1 } else { w with locked := true }

/-- The value `clear_waiting_and_try_lock` starts from, basic_timed_mutex.hpp:122-123. -/
def Word.clearGuess (w : Word) : Word := { w with locked := false, eventSet := true }

/-- The value `clear_waiting_and_try_lock` tries to store, basic_timed_mutex.hpp:126. -/
def Word.clear (w : Word) : Word :=
  if w.locked then { w with eventSet := false }
  else { locked := true, eventSet := false, waiters := w.waiters - 1 }

/-- Where a thread is. `timed` tells `do_lock_until` (154-193) from `lock` (70-92). `old` is the local
variable `old_count`. -/
inductive PC where
  | idle
  /-- `try_lock()` failed, about to read `active_count` (76, 162) -/
  | reading (timed : Bool)
  /-- inside the loop of `mark_waiting_and_try_lock` (98-113) -/
  | marking (timed : Bool) (old : Word)
  /-- waiting for the event (85, 185) -/
  | waiting (timed : Bool) (old : Word)
  /-- inside the loop of `clear_waiting_and_try_lock` (124-139) -/
  | clearing (timed : Bool) (old : Word)
  /-- `unlock()`: lock flag cleared, about to set the event flag (249) -/
  | unlocking
  /-- `unlock()`: about to call `SetEvent` (251) -/
  | setting
deriving DecidableEq, Repr

/-- Observable events. -/
inductive Event where
  | locked (t : Nat)
  | tryLocked (t : Nat) (result : Bool)
  | timedLocked (t : Nat) (result : Bool)
  | unlocked (t : Nat)
deriving DecidableEq, Repr

/-- How a (timed) lock call reports success. -/
def acquired (t : Nat) (timed : Bool) : Event := if timed then .timedLocked t true else .locked t

structure State where
  word : Word
  /-- the auto-reset event is signalled -/
  signalled : Bool
  ts : List PC
deriving DecidableEq, Repr

/-- `initialize()`, basic_timed_mutex.hpp:42-46. -/
def init (n : Nat) : State :=
  { word := { locked := false, eventSet := false, waiters := 0 }, signalled := false, ts := List.replicate n .idle }

inductive Label where
  /-- call `lock()` (`timed = false`) or a timed form, and perform its first `try_lock()` -/
  | call (t : Nat) (timed : Bool)
  | tryLock (t : Nat)
  | unlock (t : Nat)
  /-- the next operation of a thread inside a function -/
  | next (t : Nat)
  /-- a timed waiter finds that its deadline has passed -/
  | giveUp (t : Nat)
deriving DecidableEq, Repr

/-- The steps of threads that are already inside a function and are not giving up. -/
def Label.isNext : Label → Bool
  | .next _ => true
  | _ => false

/-- One atomic step. -/
def step (s : State) : Label → Option (State × List Event)
  | .call t timed =>                                             -- 72-75, 157-160 with try_lock 65-68
    match s.ts[t]? with
    | some .idle =>
      if s.word.locked then some ({ s with ts := s.ts.set t (.reading timed) }, [])
      else some ({ s with word := { s.word with locked := true } }, [acquired t timed])
    | _ => none
  | .tryLock t =>                                                -- 65-68
    match s.ts[t]? with
    | some .idle =>
      if s.word.locked then some (s, [.tryLocked t false])
      else some ({ s with word := { s.word with locked := true } }, [.tryLocked t true])
    | _ => none
  | .unlock t =>                                                 -- 241-247
    match s.ts[t]? with
    | some .idle =>
      -- adding 1<<31 flips the lock flag
      let s' := { s with word := { s.word with locked := !s.word.locked } }
      if s.word.eventSet = false && decide (0 < s.word.waiters) then
        some ({ s' with ts := s.ts.set t .unlocking }, [.unlocked t])
      else some (s', [.unlocked t])
    | _ => none
  | .next t =>
    match s.ts[t]? with
    | some (.reading timed) => some ({ s with ts := s.ts.set t (.marking timed s.word) }, [])   -- 76, 162
    | some (.marking timed old) =>                               -- 98-113
      if s.word = old then
        if old.locked then some ({ s with word := old.mark, ts := s.ts.set t (.waiting timed old.mark) }, [])
        else some ({ s with word := old.mark, ts := s.ts.set t .idle }, [acquired t timed])
      else some ({ s with ts := s.ts.set t (.marking timed s.word) }, [])
    | some (.waiting timed old) =>                               -- 85-87, 185-187, 122-123
      if s.signalled then
        some ({ s with signalled := false, ts := s.ts.set t (.clearing timed old.clearGuess) }, [])
      else none
    | some (.clearing timed old) =>                              -- 124-139, 90, 190
      if s.word = old then
        if old.locked then some ({ s with word := old.clear, ts := s.ts.set t (.waiting timed old) }, [])
        else some ({ s with word := old.clear, ts := s.ts.set t .idle }, [acquired t timed])
      else some ({ s with ts := s.ts.set t (.clearing timed s.word) }, [])
    | some .unlocking =>                                         -- 249
      if s.word.eventSet then some ({ s with ts := s.ts.set t .idle }, [])
      else some ({ s with word := { s.word with eventSet := true }, ts := s.ts.set t .setting }, [])
    | some .setting => some ({ s with signalled := true, ts := s.ts.set t .idle }, [])   -- 251
    | _ => none
  | .giveUp t =>                                                 -- 175-180
    match s.ts[t]? with
    | some (.waiting true _) =>
      some ({ s with word := { s.word with waiters := s.word.waiters - 1 }, ts := s.ts.set t .idle },
        [.timedLocked t false])
    | _ => none

end Verif.WinMutex
