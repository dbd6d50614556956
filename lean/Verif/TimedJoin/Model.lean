import Verif.TimedJoin.Spec
/-!
# Timed joins and their deadlines: model

`/repo/include/boost/thread/detail/thread.hpp` lines 472-537 (`try_join_until`, `try_join_for`, `timed_join`), 758-784 (`join`, `do_try_join_until`), over

* POSIX: `/repo/src/pthread/thread.cpp` lines 195-201 (the end of `thread_proxy`), 315-416 (`join_noexcept`, `do_try_join_until_noexcept`), with `do_wait_until` of
  `/repo/include/boost/thread/pthread/condition_variable.hpp` lines 105-142, which throws `condition_error` when `pthread_cond_timedwait` returns `EINVAL`;
* Windows: `/repo/src/win32/thread.cpp` lines 440-475 and 621-720 (`interruptible_wait`), with a waitable timer.

One thread joins; everything else is the environment: the thread that is joined, other threads that join it through the same data, interruption, clocks, wake-ups. `BOOST_THREAD_INTERNAL_CLOCK_IS_MONO`.
Times are in nanoseconds, as unbounded integers; arithmetic that leaves 64 bits is undefined behaviour.

Not modelled: threads that join themselves, objects without thread (C02), interruption disabled, Windows without waitable timers, the rounding of the time on Windows (C45; that the wait does not end before its
time is part of `Verif.WinThread`).
-/

namespace Verif.TimedJoin

/-- What happens when `do_try_join_until` has returned false. -/
inductive Kont where
  /-- return false (thread.hpp 476, 534) -/
  | report
  /-- look at the user's clock (485-490, 507-512) -/
  | loop (t : Int)
deriving DecidableEq, Repr

inductive PC where
  | idle
  | begin (c : Call)
  /-- before reading the steady clock and adding `d` (485, 507) -/
  | addNow (d : Int) (k : Kont)
  /-- `while(!done)`, with `data_mutex` locked (thread.cpp 322, 372); Windows: before the wait -/
  | enter (ts : Option Int) (k : Kont)
  /-- in the wait (324, 374; win32/thread.cpp 691) -/
  | asleep (ts : Option Int) (k : Kont)
  /-- the wait has timed out, `data_mutex` is locked (376) -/
  | expired (k : Kont)
  /-- in `pthread_join` (344, 398) -/
  | joining
  /-- waits for the thread that is in `pthread_join` (334-337, 389-392) -/
  | waitJoined
  /-- before reading the user's clock (487, 509) -/
  | readUser (t : Int)
deriving DecidableEq, Repr

structure State where
  pc : PC
  now : Int
  user : Int
  /-- `done` of the thread data -/
  done : Bool
  /-- the native thread has ended -/
  gone : Bool
  /-- `join_started`, `joined` -/
  started : Bool
  joined : Bool
  /-- an interruption was requested of the thread that joins -/
  asked : Bool
  /-- the thread object stands for the thread no more -/
  over : Bool
deriving DecidableEq, Repr

def init (now user : Int) : State := { pc := .idle, now, user, done := false, gone := false, started := false, joined := false, asked := false, over := false }

inductive Label where
  | call (c : Call)
  | go
  /-- time passes; the user's clock may be set to anything -/
  | tick (dn : Nat) (user : Int)
  /-- `done=true; done_condition.notify_all()` (thread.cpp 197-199) -/
  | finish
  /-- the native thread ends -/
  | vanish
  /-- a notification, or a spurious wake-up; Windows: the handle is signalled -/
  | wake
  | expire
  | ask
  /-- the request is noticed in the wait -/
  | notice
  /-- another thread sets `join_started`; it comes back from `pthread_join` and sets `joined` -/
  | otherStart
  | otherJoined
deriving DecidableEq, Repr

/-- The nanoseconds made by `ns_to_timespec` (platform_time.hpp 115-122) are valid. -/
def validTs (ns : Int) : Bool := decide (0 ≤ ns - ns.tdiv 1000000000 * 1000000000 ∧ ns - ns.tdiv 1000000000 * 1000000000 < 1000000000)

/-- `internal_platform_timepoint::getMax` (platform_time.hpp 340-343) -/
def maxTime : Int := 9223372036854775807

def ret (s : State) (r : Ret) : Option (State × List Event) := some ({ s with pc := .idle }, [.returned r])
def goto (s : State) (p : PC) : Option (State × List Event) := some ({ s with pc := p }, [])
/-- `thread_info.reset(); return true` (thread.cpp 350-354, 404-409) -/
def done (s : State) : Option (State × List Event) := some ({ s with pc := .idle, over := true }, [.returned (.val true)])

/-- The beginning of each function. -/
def start (s : State) : Call → Option (State × List Event)
  | .until_ true t => goto s (.enter (some t) .report)                                                                   -- thread.hpp 476
  | .until_ false t => if fits (t - s.user) then goto s (.addNow (min (t - s.user) interval) (.loop t)) else ret s .overflow  -- 483-484 (505-506)
  | .for_ d => if fits (s.now + d) then goto s (.enter (some (s.now + d)) .report) else ret s .overflow                  -- 497, 534
  | .join => goto s (.enter none .report)                                                                                -- 758-766

/-- `do_try_join_until` has returned false. -/
def fail (s : State) : Kont → Option (State × List Event)
  | .report => ret s (.val false)
  | .loop t => goto s (.readUser t)

/-- `done` is set: thread.cpp 326-342, 381-396. -/
def claim (s : State) : Option (State × List Event) :=
  if s.started = false then some ({ s with started := true, pc := .joining }, [])
  else if s.joined then done s
  else goto s .waitJoined

def go (c : Sys) (s : State) : Option (State × List Event) :=
  match s.pc with
  | .idle => none
  | .begin a => start s a
  | .addNow d k => if fits (s.now + d) then goto s (.enter (some (s.now + d)) k) else ret s .overflow                     -- thread.hpp 485 (507)
  | .enter ts k =>
    match c with
    | .posix =>
      if s.done then claim s                                                                                             -- thread.cpp 322, 372
      else match ts with
        | none => goto s (.asleep none k)
        | some t => if validTs t then goto s (.asleep (some t) k) else ret s .threw                                      -- 374
    | .windows =>
      match ts with
      | none => goto s (.asleep none k)
      | some t =>
        if t = maxTime then goto s (.asleep none k)                                                                      -- win32/thread.cpp 647
        else if fits (t - s.now) then goto s (.asleep (some t) k) else ret s .overflow                                   -- 649
  | .asleep _ _ => none
  | .expired k => if s.done then claim s else fail s k                                                                   -- thread.cpp 376-381
  | .joining => if s.gone then some ({ s with joined := true, pc := .idle, over := true }, [.returned (.val true)]) else none  -- 398-401
  | .waitJoined => if s.joined then done s else none                                                                     -- 389-392
  | .readUser t =>
    if fits (t - s.user) then                                                                                            -- thread.hpp 487 (509)
      if t - s.user ≤ 0 then ret s (.val false)                                                                          -- 488
      else goto s (.addNow (min (t - s.user) interval) (.loop t))                                                        -- 489
    else ret s .overflow

def step (c : Sys) (s : State) : Label → Option (State × List Event)
  | .call a => if s.pc = .idle ∧ s.over = false then some ({ s with pc := .begin a }, [.called a]) else none
  | .go => go c s
  | .tick dn user => some ({ s with now := s.now + dn, user := user }, [.clock (s.now + dn) user])
  | .finish => if s.done = false then some ({ s with done := true }, [.ended]) else none
  | .vanish => if s.done = true ∧ s.gone = false then some ({ s with gone := true }, [.gone]) else none
  | .wake =>
    match s.pc with
    | .asleep ts k =>
      match c with
      | .posix => goto s (.enter ts k)
      | .windows => if s.gone then done s else none                                                                      -- win32/thread.cpp 694-697, 462-469
    | _ => none
  | .expire =>
    match s.pc with
    | .asleep (some ts) k =>
      if ts ≤ s.now then
        match c with
        | .posix => goto s (.expired k)
        | .windows => if s.gone then none else fail s k                                                                  -- 705-708: the handle of the thread comes first
      else none
    | _ => none
  | .ask => some ({ s with asked := true }, [.asked])
  | .notice =>
    match s.pc with
    | .asleep _ _ | .waitJoined => if s.asked then some ({ s with pc := .idle, asked := false }, [.returned .interrupted]) else none
    | _ => none
  | .otherStart => if s.done = true ∧ s.started = false then some ({ s with started := true }, []) else none
  | .otherJoined => if s.started = true ∧ s.pc ≠ .joining ∧ s.gone = true ∧ s.joined = false then some ({ s with joined := true }, []) else none

end Verif.TimedJoin
