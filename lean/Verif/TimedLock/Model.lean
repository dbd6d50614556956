import Verif.TimedLock.Spec
/-!
# Timed locks and their deadlines: model

POSIX: `/repo/include/boost/thread/pthread/mutex.hpp` lines 134-161 and 232-301 (`timed_mutex`), `pthread/recursive_mutex.hpp` lines 240-267, 340-416 (`recursive_timed_mutex`), the variants without
`BOOST_THREAD_USES_PTHREAD_TIMEDLOCK` and with `BOOST_THREAD_INTERNAL_CLOCK_IS_MONO` (the default on Linux).

Windows: `/repo/include/boost/thread/win32/basic_timed_mutex.hpp` lines 140-241 (`do_lock_until` and its callers); `win32/basic_recursive_mutex.hpp` puts the test for the owner before it.

One thread makes the timed calls; everything else is the environment: other threads lock and unlock the mutex, wake-ups come at any time, the clocks run. How threads are woken and that there is one owner
at most is the subject of `Verif.TimedMutex`, `RecursiveMutex`, `WinMutex`, `WinRecursiveMutex`, where time-outs come at any moment; here are the deadlines.

Times are in nanoseconds, as unbounded integers; arithmetic that leaves 64 bits is undefined behaviour. `pthread_cond_timedwait` fails with `EINVAL`, without waiting, when the nanoseconds of its time
are not in `[0, 10^9)`, and `ns_to_timespec` (platform_time.hpp 115-122) makes negative ones of negative times.

Not modelled: special durations other than `pos_infin` (C04), special durations on Windows.
-/

namespace Verif.TimedLock

/-- What happens when `do_try_lock_until` has failed. -/
inductive Kont where
  /-- return false (pthread/mutex.hpp 160, 297-298) -/
  | report
  /-- look at the user's clock (263-268, 285-290) -/
  | loop (t : Int)
  /-- Windows: the loop of `do_lock_until` on the steady clock, on the user's clock (win32/basic_timed_mutex.hpp 172-190) -/
  | winSteady (t : Int)
  | winUser (t : Int)
deriving DecidableEq, Repr

def Kont.isWin : Kont → Bool
  | .winSteady _ | .winUser _ => true
  | _ => false

inductive PC where
  | idle
  /-- called, arguments evaluated -/
  | begin (c : Call)
  /-- before reading the steady clock and adding `d` (pthread/mutex.hpp 160, 263, 285) -/
  | addNow (d : Int) (k : Kont)
  /-- `do_try_lock_until`, before locking `m`, or back from the wait with `m` locked (235-236); `none`: `lock()` -/
  | enter (ts : Option Int) (k : Kont)
  /-- in the wait (238); Windows: in `WaitForSingleObjectEx` (185) -/
  | asleep (ts : Option Int) (k : Kont)
  /-- the wait has timed out, `m` is locked (239-247) -/
  | expired (k : Kont)
  /-- before reading the user's clock (265, 287) -/
  | readUser (t : Int)
  /-- `pthread_cond_timedwait` returns `EINVAL` again and again, `m` stays locked (236-244) -/
  | spin
  /-- the program was aborted -/
  | dead
  /-- Windows: try to take the lock flag (157-166, 187) -/
  | winTry (k : Kont)
  /-- Windows: read the clock (174) -/
  | winRead (k : Kont)
  /-- Windows: about to wait for `d` (185) -/
  | winWait (d : Int) (k : Kont)
deriving DecidableEq, Repr

structure State where
  pc : PC
  now : Int
  user : Int
  mine : Nat
  other : Bool
deriving DecidableEq, Repr

def init (now user : Int) : State := { pc := .idle, now, user, mine := 0, other := false }

inductive Label where
  | call (c : Call)
  | go
  | unlock
  /-- time passes; the user's clock may be set to anything -/
  | tick (dn : Nat) (user : Int)
  /-- a signal, an event, or a spurious wake-up -/
  | wake
  /-- the wait times out -/
  | expire
  | otherLock
  | otherUnlock
deriving DecidableEq, Repr

/-- `is_locked`, the lock flag -/
def State.locked (s : State) : Bool := s.other || decide (0 < s.mine)

/-- The nanoseconds made by `ns_to_timespec` (platform_time.hpp 115-122) are valid. -/
def validTs (ns : Int) : Bool := decide (0 ≤ ns - ns.tdiv 1000000000 * 1000000000 ∧ ns - ns.tdiv 1000000000 * 1000000000 < 1000000000)

def ret (s : State) (r : Ret) : Option (State × List Event) := some ({ s with pc := .idle }, [.returned r])
def goto (s : State) (p : PC) : Option (State × List Event) := some ({ s with pc := p }, [])
/-- `is_locked = true; return true` (pthread/mutex.hpp 249-250; recursive_mutex.hpp 343-347, 361-364) -/
def take (s : State) : Option (State × List Event) := some ({ s with pc := .idle, mine := s.mine + 1 }, [.returned (.val true)])

/-- `getMs` (win32/basic_timed_mutex.hpp 142-151, platform_time.hpp 169-183) of a positive duration: rounded up, then cut to `unsigned long` -/
def getMs (d : Int) : Int := ((d + 999999) / 1000000) % 4294967296

/-- The beginning of each function. -/
def start (c : Cfg) (s : State) (a : Call) : Option (State × List Event) :=
  match c.sys, a with
  -- pthread/mutex.hpp 294-298
  | .posix _, .until_ true t => goto s (.enter (some t) .report)
  -- 283-284 (261-262)
  | .posix _, .until_ false t => if fits (t - s.user) then goto s (.addNow (min (t - s.user) interval) (.loop t)) else ret s .overflow
  -- 275 (160)
  | .posix _, .for_ d => if fits (s.now + d) then goto s (.enter (some (s.now + d)) .report) else ret s .overflow
  -- 138-142
  | .posix _, .forever => goto s (.enter none .report)
  -- win32/basic_timed_mutex.hpp 226-231
  | .windows, .until_ true t => goto s (.winTry (.winSteady t))
  -- 198-202, 233-237
  | .windows, .until_ false t => goto s (.winTry (.winUser t))
  -- 204-210, 217-224
  | .windows, .for_ d => if fits (s.now + d) then goto s (.winTry (.winSteady (s.now + d))) else ret s .overflow
  | .windows, .forever => none

/-- `do_try_lock_until` has failed. -/
def fail (s : State) : Kont → Option (State × List Event)
  | .report => ret s (.val false)
  | .loop t => goto s (.readUser t)
  | _ => none

/-- The clock of the loop and its time point. -/
def Kont.left (s : State) : Kont → Int
  | .winSteady t => t - s.now
  | .winUser t => t - s.user
  | _ => 0

def go (c : Cfg) (s : State) : Option (State × List Event) :=
  match s.pc with
  | .idle => none
  | .begin a => start c s a
  | .addNow d k => if fits (s.now + d) then goto s (.enter (some (s.now + d)) k) else ret s .overflow
  | .enter ts k =>
    if s.mine ≠ 0 ∧ c.recursive = true then take s                            -- recursive_mutex.hpp 343-347
    else if s.locked then                                                      -- pthread/mutex.hpp 236
      match ts with
      | none => goto s (.asleep none k)
      | some ts =>
        if validTs ts then goto s (.asleep (some ts) k)
        else if c.sys = .posix true then some ({ s with pc := .dead }, [.returned .aborted])   -- 243
        else goto s .spin                                                      -- 236-244, for ever
    else take s                                                                -- 249-250
  | .asleep _ _ => none
  | .expired k => if s.locked then fail s k else take s                        -- 245-250
  | .readUser t =>                                                             -- 287 (265)
    if fits (t - s.user) then
      if t - s.user ≤ 0 then ret s (.val false)                                -- 288
      else goto s (.addNow (min (t - s.user) interval) (.loop t))              -- 289, 285
    else ret s .overflow
  | .spin => none
  | .dead => none
  | .winTry k => if (s.mine ≠ 0 ∧ c.recursive = true) ∨ s.locked = false then take s else goto s (.winRead k)
  | .winRead k =>                                                              -- win32/basic_timed_mutex.hpp 174-184
    if fits (k.left s) then
      if k.left s ≤ 0 then ret s (.val false)
      else match k with
        | .winUser _ => goto s (.winWait (min (k.left s) interval) k)
        | _ => goto s (.winWait (k.left s) k)
    else ret s .overflow
  | .winWait d k => goto s (.asleep (if getMs d = 4294967295 then none else some (s.now + getMs d * 1000000)) k)   -- 185; 0xFFFFFFFF is INFINITE

def step (c : Cfg) (s : State) : Label → Option (State × List Event)
  | .call a => if s.pc = .idle then some ({ s with pc := .begin a }, [.called a]) else none
  | .go => go c s
  | .unlock => if s.pc = .idle ∧ 0 < s.mine then some ({ s with mine := s.mine - 1 }, [.unlocked]) else none
  | .tick dn user => some ({ s with now := s.now + dn, user := user }, [.clock (s.now + dn) user])
  | .wake =>
    match s.pc with
    | .asleep ts k => goto s (if k.isWin then .winTry k else .enter ts k)
    | _ => none
  | .expire =>
    match s.pc with
    | .asleep (some ts) k => if ts ≤ s.now then goto s (if k.isWin then .winRead k else .expired k) else none
    | _ => none
  -- the other threads need `m`
  | .otherLock => if s.locked = false ∧ s.pc ≠ .spin ∧ s.pc ≠ .dead then some ({ s with other := true }, [.otherLocked]) else none
  | .otherUnlock => if s.other = true ∧ s.pc ≠ .spin ∧ s.pc ≠ .dead then some ({ s with other := false }, [.otherUnlocked]) else none

end Verif.TimedLock
