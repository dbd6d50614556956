import Verif.WinMutexLife.Spec
import Verif.WinMutex.Model
/-!
# Model of `boost::mutex` / `timed_mutex` on Windows with its event and its destructor

Models `/repo/include/boost/thread/win32/basic_timed_mutex.hpp` lines 33-288, as `Verif.WinMutex` does, and in addition `get_event` (258-286), which creates the event on first use, and `destroy` (48-62), which
closes it. One label is one atomic operation on `active_count` or `event`, or one call of the system.

Simplifications: as in `Verif.WinMutex`, but the event is not there from the start; creating an event does not fail. Handles are numbered in the order in which they are obtained.
-/

namespace Verif.WinMutexLife
open WinMutex (Word)

inductive PC where
  | idle
  /-- `try_lock()` failed, about to read `active_count` (76, 162) -/
  | reading (timed : Bool)
  /-- inside the loop of `mark_waiting_and_try_lock` (98-113) -/
  | marking (timed : Bool) (old : Word)
  /-- before the first line of `get_event` (81, 167, 261) -/
  | getW (timed : Bool) (old : Word)
  /-- in `get_event`, has created event `h` (265), before the exchange (271) -/
  | madeW (timed : Bool) (old : Word) (h : Nat)
  /-- `sem` is `h`: waits for it (85, 185) -/
  | waiting (timed : Bool) (old : Word) (h : Nat)
  /-- inside the loop of `clear_waiting_and_try_lock` (124-139) -/
  | clearing (timed : Bool) (old : Word) (h : Nat)
  /-- `unlock()`: lock flag cleared, about to set the event flag (249) -/
  | unlocking
  /-- `unlock()`: before the first line of `get_event` (251, 261) -/
  | getS
  | madeS (h : Nat)
  /-- `unlock()`: about to call `SetEvent(h)` (251) -/
  | setting (h : Nat)
deriving DecidableEq, Repr

structure State where
  word : Word
  /-- the member `event` -/
  event : Option Nat
  /-- number of events created so far -/
  made : Nat
  /-- which events are signalled -/
  sig : Nat → Bool
  dead : Bool
  ts : List PC

/-- `initialize()`, basic_timed_mutex.hpp:42-46. -/
def init (n : Nat) : State :=
  { word := { locked := false, eventSet := false, waiters := 0 }, event := none, made := 0, sig := fun _ => false, dead := false, ts := List.replicate n .idle }

inductive Label where
  /-- call `lock()` (`timed = false`) or a timed form, and perform its first `try_lock()` -/
  | call (t : Nat) (timed : Bool)
  | tryLock (t : Nat)
  | unlock (t : Nat)
  /-- the next operation of a thread inside a function -/
  | next (t : Nat)
  /-- a timed waiter finds that its deadline has passed -/
  | giveUp (t : Nat)
  | destroy
deriving DecidableEq, Repr

def State.pc (s : State) (t : Nat) (p : PC) : State := { s with ts := s.ts.set t p }

/-- The next operation of the thread is on `active_count` or `event`. Waiting for the event and signalling it need the handle only. -/
def PC.member : PC → Bool
  | .idle => false
  | .waiting _ _ _ => false
  | .setting _ => false
  | _ => true

/-- First part of `get_event`, 261-265: `k` goes on with the event there is, `c` with a new one. -/
def getEvent (s : State) (t : Nat) (k c : Nat → PC) : State × List Event :=
  match s.event with
  | some h => (s.pc t (k h), [])
  | none => ({ s.pc t (c s.made) with made := s.made + 1 }, [.opened s.made])

/-- Second part of `get_event`, 271-283, with the new event `h`. -/
def offerEvent (s : State) (t : Nat) (h : Nat) (k : Nat → PC) : State × List Event :=
  match s.event with
  | some h' => (s.pc t (k h'), [.closed h])
  | none => ({ s.pc t (k h) with event := some h }, [])

def go (s : State) (t : Nat) : PC → Option (State × List Event)
  | .idle => none
  | .reading timed => some (s.pc t (.marking timed s.word), [])                                -- 76, 162
  | .marking timed old =>                                                                      -- 98-113
    if s.word = old then
      if old.locked then some ({ s.pc t (.getW timed old.mark) with word := old.mark }, [])
      else some ({ s.pc t .idle with word := old.mark }, [.owned t true])
    else some (s.pc t (.marking timed s.word), [])
  | .getW timed old => some (getEvent s t (.waiting timed old) (.madeW timed old))
  | .madeW timed old h => some (offerEvent s t h (.waiting timed old))
  | .waiting timed old h =>                                                                    -- 85-87, 185-187, 122-123
    if s.sig h then some ({ s.pc t (.clearing timed old.clearGuess h) with sig := upd s.sig h false }, [.used h]) else none
  | .clearing timed old h =>                                                                   -- 124-139, 90, 190
    if s.word = old then
      if old.locked then some ({ s.pc t (.waiting timed old h) with word := old.clear }, [])
      else some ({ s.pc t .idle with word := old.clear }, [.owned t true])
    else some (s.pc t (.clearing timed s.word h), [])
  | .unlocking =>                                                                              -- 249
    if s.word.eventSet then some (s.pc t .idle, [.done t])
    else some ({ s.pc t .getS with word := { s.word with eventSet := true } }, [])
  | .getS => some (getEvent s t .setting .madeS)
  | .madeS h => some (offerEvent s t h .setting)
  | .setting h => some ({ s.pc t .idle with sig := upd s.sig h true }, [.used h, .done t])     -- 251

def step (s : State) : Label → Option (State × List Event)
  | .call t timed =>                                                                           -- 72-75, 157-160 with try_lock 65-68
    match s.ts[t]? with
    | some .idle =>
      if s.dead then some (s, [.call t, .stale])
      else if s.word.locked then some (s.pc t (.reading timed), [.call t])
      else some ({ s with word := { s.word with locked := true } }, [.call t, .owned t true])
    | _ => none
  | .tryLock t =>                                                                              -- 65-68
    match s.ts[t]? with
    | some .idle =>
      if s.dead then some (s, [.call t, .stale])
      else if s.word.locked then some (s, [.call t, .owned t false])
      else some ({ s with word := { s.word with locked := true } }, [.call t, .owned t true])
    | _ => none
  | .unlock t =>                                                                               -- 241-247
    match s.ts[t]? with
    | some .idle =>
      if s.dead then some (s, [.release t, .stale])
      else if s.word.eventSet = false && decide (0 < s.word.waiters) then
        some ({ s.pc t .unlocking with word := { s.word with locked := !s.word.locked } }, [.release t])
      else some ({ s with word := { s.word with locked := !s.word.locked } }, [.release t, .done t])
    | _ => none
  | .next t =>
    match s.ts[t]? with
    | some p => if s.dead && p.member then some (s, [.stale]) else go s t p
    | none => none
  | .giveUp t =>                                                                               -- 175-180
    match s.ts[t]? with
    | some (.waiting true _ _) =>
      if s.dead then some (s, [.stale])
      else some ({ s.pc t .idle with word := { s.word with waiters := s.word.waiters - 1 } }, [.owned t false])
    | _ => none
  | .destroy =>                                                                                -- 48-62
    some ({ s with dead := true, event := none }, .destroyed :: match s.event with
      | some h => [.closed h]
      | none => [])

end Verif.WinMutexLife
