import Verif.Core.Run
/-!
# Model of the timed waits of `condition_variable`

Models `/repo/include/boost/thread/pthread/condition_variable_fwd.hpp` lines 88-322 (`wait`, `timed_wait`, `wait_until`, `wait_for`, with and without predicate) for
`BOOST_THREAD_INTERNAL_CLOCK_IS_MONO` (Linux, `detail/config.hpp` 426-443), and the result handling of `do_wait_until`,
`/repo/include/boost/thread/pthread/condition_variable.hpp` lines 105-142. `condition_variable_any` has the same code (condition_variable.hpp 187-448).

On Windows (`windows = true`) the same functions stand in `/repo/include/boost/thread/win32/condition_variable.hpp` lines 334-514 (`condition_variable_any`: 516-717), over the `do_wait_until` of
lines 252-275: a time that has passed is no error there. That the wait in it does not end before its time is part of `Verif.WinThread`.

One waiting thread; everything else is the environment: it notifies (or wakes spuriously) at any time, lets both clocks run, adjusts the user's clock in any direction, and changes
the predicate while the lock is not held. Times are in nanoseconds since the epoch of the clock, as unbounded integers; additions and subtractions that leave the range of
`time_max_t` (64 bits) are undefined behaviour (`chrono` and platform_time.hpp 278-288, 382-392). `pthread_cond_timedwait` fails with `EINVAL` when the
nanosecond field is not in `[0, 10^9)` (POSIX); `ns_to_timespec` (platform_time.hpp 117-124) produces negative ones for negative times.

Interruption, and that no wake-up gets lost, is the subject of `Verif.CondVar`.
-/

namespace Verif.TimedWait

/-- A date-time duration: `timed_wait` treats the special values separately. -/
inductive Dur where
  | posInf
  /-- `neg_infin` or `not_a_date_time` -/
  | special
  | val (d : Int)
deriving DecidableEq, Repr

inductive Call where
  /-- `wait(lock, pred)` -/
  | waitP
  /-- `wait_until(lock, t)`; `internal`: the clock is the library's internal clock (`steady_clock`). With another clock also `timed_wait(lock, abs_time)`. -/
  | waitUntil (internal : Bool) (t : Int)
  | waitUntilP (internal : Bool) (t : Int)
  | waitFor (d : Int)
  | waitForP (d : Int)
  /-- `timed_wait(lock, duration)` -/
  | timedWait (d : Dur)
  | timedWaitP (d : Dur)
deriving DecidableEq, Repr

/-- What happens after `do_wait_until` or `wait`. -/
inductive Kont where
  /-- report its result (condition_variable_fwd.hpp 245-246, 156) -/
  | report
  /-- report whether the user's clock has reached `t` (265-266, 117) -/
  | reportUser (t : Int)
  /-- predicate loop over the internal clock (286-290, 227-232) -/
  | loopInternal (ts : Int)
  /-- predicate loop over the user's clock (304-311, 170-184) -/
  | loopUser (t : Int)
  /-- predicate loop without deadline (91-94; `thenTrue`: 202-206) -/
  | loopForever (thenTrue : Bool)
  /-- 136-137 -/
  | plainTrue
deriving DecidableEq, Repr

inductive PC where
  | idle
  /-- arguments evaluated, function entered -/
  | begin (c : Call)
  /-- `while (!pred())` -/
  | check (k : Kont)
  /-- in the loop over the user's clock, before reading it (306, 176) -/
  | readUser (t : Int)
  /-- before reading the internal clock and adding `d` (264, 309, 116, 156, 179) -/
  | addNow (d : Int) (k : Kont)
  /-- `do_wait_until(m, ts)`; `none`: `wait(m)` -/
  | enter (ts : Option Int) (k : Kont)
  | asleep (ts : Option Int) (k : Kont)
  /-- awake, has to reacquire the lock; `res`: not `ETIMEDOUT` -/
  | relock (res : Bool) (k : Kont)
  | after (res : Bool) (k : Kont)
  /-- `return pred()` -/
  | fin
deriving DecidableEq, Repr

structure State where
  pc : PC
  /-- internal clock -/
  now : Int
  /-- the user's clock -/
  user : Int
  pred : Bool
  /-- the thread owns the lock -/
  held : Bool
  windows : Bool := false
deriving DecidableEq, Repr

def init (now user : Int) (pred : Bool) (windows : Bool := false) : State := { pc := .idle, now := now, user := user, pred := pred, held := true, windows := windows }

inductive Ret where
  /-- a function with predicate returns this value -/
  | val (b : Bool)
  /-- `wait(lock, pred)` returns -/
  | unit
  /-- a function without predicate returns; `true` means `cv_status::timeout` (`timed_wait`: `false`) -/
  | status (timeout : Bool)
  /-- `condition_error` is thrown -/
  | threw
  /-- undefined behaviour: signed overflow -/
  | overflow
deriving DecidableEq, Repr

inductive Event where
  | called (c : Call)
  | returned (r : Ret)
  | clock (now user : Int)
  | predIs (b : Bool)
  | released
  | acquired
deriving DecidableEq, Repr

inductive Label where
  | call (c : Call)
  | go
  /-- time passes; the user's clock may be set to anything -/
  | tick (dn : Nat) (user : Int)
  | setPred (b : Bool)
  /-- a notification or a spurious wake-up -/
  | wake
  /-- `ETIMEDOUT` -/
  | expire
deriving DecidableEq, Repr

/-- In the range of `time_max_t`. -/
def inRange (x : Int) : Bool := decide (-9223372036854775808 ≤ x ∧ x ≤ 9223372036854775807)

/-- `BOOST_THREAD_POLL_INTERVAL_MILLISECONDS`, detail/config.hpp 57-58. -/
def poll : Int := 100000000

/-- The nanosecond field computed by `ns_to_timespec` (platform_time.hpp 117-124) is valid. -/
def validTs (ns : Int) : Bool := decide (0 ≤ ns - ns.tdiv 1000000000 * 1000000000 ∧ ns - ns.tdiv 1000000000 * 1000000000 < 1000000000)

def ret (s : State) (r : Ret) : Option (State × List Event) := some ({ s with pc := .idle }, [.returned r])

def goto (s : State) (p : PC) : Option (State × List Event) := some ({ s with pc := p }, [])

/-- The beginning of each function. -/
def start (s : State) : Call → Option (State × List Event)
  | .waitP => goto s (.check (.loopForever false))
  | .waitUntil true t => goto s (.enter (some t) .report)                                   -- 244-245
  | .waitUntil false t =>                                                                    -- 263 (115)
    if inRange (t - s.user) then goto s (.addNow (t - s.user) (.reportUser t)) else ret s .overflow
  | .waitUntilP true t => goto s (.check (.loopInternal t))                                  -- 285
  | .waitUntilP false t => goto s (.check (.loopUser t))
  | .waitFor d => if inRange (s.now + d) then goto s (.enter (some (s.now + d)) .report) else ret s .overflow          -- 275
  | .waitForP d => if inRange (s.now + d) then goto s (.check (.loopInternal (s.now + d))) else ret s .overflow        -- 321
  | .timedWait .posInf => goto s (.enter none .plainTrue)                                    -- 134-138
  | .timedWait .special => ret s (.status false)                                             -- 139-142
  | .timedWait (.val d) => goto s (.addNow d .report)                                        -- 143, 156
  | .timedWaitP .posInf => goto s (.check (.loopForever true))                               -- 200-207
  | .timedWaitP .special => goto s .fin                                                      -- 208-211
  | .timedWaitP (.val d) => if inRange (s.now + d) then goto s (.check (.loopInternal (s.now + d))) else ret s .overflow    -- 212, 226

def go (s : State) : Option (State × List Event) :=
  match s.pc with
  | .idle => none
  | .begin c => start s c
  | .check k =>
    if s.pred then
      match k with
      | .loopForever thenTrue => ret s (if thenTrue then .val true else .unit)
      | _ => goto s .fin
    else
      match k with
      | .loopInternal ts => goto s (.enter (some ts) k)                                      -- 288 (229)
      | .loopUser t => goto s (.readUser t)
      | .loopForever _ => goto s (.enter none k)                                             -- 93 (204)
      | _ => none
  | .readUser t =>                                                                           -- 306 (176)
    if inRange (t - s.user) then
      if t - s.user ≤ 0 then goto s .fin                                                     -- 307 (177)
      else goto s (.addNow (min (t - s.user) poll) (.loopUser t))                            -- 308 (178)
    else ret s .overflow
  | .addNow d k => if inRange (s.now + d) then goto s (.enter (some (s.now + d)) k) else ret s .overflow
  | .enter (some ts) k =>
    if s.windows || validTs ts then some ({ s with pc := .asleep (some ts) k, held := false }, [.released])
    else ret s .threw                                                                        -- condition_variable.hpp 137-140
  | .enter none k => some ({ s with pc := .asleep none k, held := false }, [.released])
  | .asleep _ _ => none
  | .relock res k => some ({ s with pc := .after res k, held := true }, [.acquired])
  | .after res k =>
    match k with
    | .report => ret s (.status (!res))
    | .reportUser t => ret s (.status (!decide (t > s.user)))                                -- 265-266 (117)
    | .loopInternal _ => if res then goto s (.check k) else goto s .fin                      -- 288 (229)
    | .loopUser _ => goto s (.check k)
    | .loopForever _ => goto s (.check k)
    | .plainTrue => ret s (.status false)                                                    -- 137
  | .fin => ret s (.val s.pred)

def step (s : State) : Label → Option (State × List Event)
  | .call c => if s.pc = .idle ∧ s.held = true then some ({ s with pc := .begin c }, [.called c]) else none
  | .go => go s
  | .tick dn user => some ({ s with now := s.now + dn, user := user }, [.clock (s.now + dn) user])
  | .setPred b => if s.held then none else some ({ s with pred := b }, [.predIs b])
  | .wake =>
    match s.pc with
    | .asleep _ k => some ({ s with pc := .relock true k }, [])
    | _ => none
  | .expire =>
    match s.pc with
    | .asleep (some ts) k => if ts ≤ s.now then some ({ s with pc := .relock false k }, []) else none
    | _ => none

end Verif.TimedWait
