import Verif.WinThread.Spec
/-!
# Model of joining, sleeping and interruption on Windows

src/win32/thread.cpp 433-501 (`joinable`, `join_noexcept`, `do_try_join_until_noexcept`, `detach`, `interrupt`, `interruption_requested`), 621-725
(`interruptible_wait`), 729-816 (`non_interruptible_wait`), 836-893 (interruption), include/boost/thread/win32/thread_data.hpp 221-318 (sleeps),
include/boost/thread/detail/thread.hpp 470-537, 759-785 (joins).

* The thread that an object refers to is known by its number. A thread object is joined or detached by one thread at a time (`joiner`); in C++ anything
  else is a data race. Moving, swapping and destroying thread objects is the subject of C39.
* A thread without thread data and one whose data was made by `make_external_thread_data` (363-406) behave alike: interruption is not enabled. No thread
  object refers to such a thread.
* `WaitForMultipleObjectsEx` returns the lowest index of a signalled handle, at some time after there is one; `WAIT_TIMEOUT` not before its time, and only if no
  handle is signalled. A waitable timer is not signalled before its time (the tolerable delay only makes it later). These functions do not
  fail otherwise. The operating system's time and the steady clock run at the same speed.
* Times are integers; arithmetic that leaves 64 bits is undefined behaviour (`overflow`).
* The end of a thread is one step: exit functions are the subject of C40.
-/

namespace Verif.WinThread

/-- A `disable_interruption` object with its member `interruption_was_enabled`, or a `restore_interruption` object. -/
inductive Obj where
  | dis (was : Bool)
  | res
deriving DecidableEq, Repr

/-- What a thread does next. `tgt`: the thread to join with; `intr`: `interruptible_wait`, or the interruption handle is among the handles;
`k`: the time to reach on the user's clock, for the functions that look at it again and again. -/
inductive Pc where
  | idle
  /-- before reading the user's clock -/
  | look (tgt : Option Nat) (intr : Bool) (t : Int) (first : Bool)
  /-- before reading the steady clock and adding `d` -/
  | add (tgt : Option Nat) (intr : Bool) (d : Int) (k : Option Int)
  /-- at the beginning of the wait (621, 729); `dl`: until when (`none`: `getMax()`) -/
  | arm (tgt : Option Nat) (intr : Bool) (dl : Option Int) (k : Option Int)
  /-- in `WaitForMultipleObjectsEx` or `Sleep`; `due`: the time of the timer, if there is one; `til`: the time-out of the call, if there is one -/
  | blocked (tgt : Option Nat) (intr : Bool) (dl due til : Option Int) (k : Option Int)
  /-- the wait has returned `b` -/
  | got (tgt : Option Nat) (intr : Bool) (b : Bool) (k : Option Int)
  /-- before `ResetEvent` and `throw thread_interrupted()` (703-704, 840-841) -/
  | reset
  /-- in `interruption_point` (838) -/
  | point
deriving DecidableEq, Repr

structure Thr where
  lib : Bool := false
  /-- the thread has ended: its handle is signalled -/
  fin : Bool := false
  /-- the object's `thread_info` is not null -/
  obj : Bool := false
  /-- the thread that is joining -/
  joiner : Option Nat := none
  /-- `interruption_handle` is signalled -/
  event : Bool := false
  /-- `interruption_enabled` -/
  en : Bool := false
  objs : List Obj := []
  pc : Pc := .idle

structure St where
  n : Nat
  t : Nat → Thr
  now : Int
  user : Int

def init (n : Nat) (now user : Int) : St := { n := n, t := fun _ => {}, now := now, user := user }

inductive Label where
  | start (w : Nat)
  | finish (w : Nat)
  | call (w : Nat) (c : Call)
  /-- the next step inside a call -/
  | go (w : Nat)
  /-- the beginning of the wait; `ok`: a timer could be made and set -/
  | arm (w : Nat) (ok : Bool)
  | detach (w u : Nat)
  | joinable (w u : Nat)
  | interrupt (w u : Nat)
  | asked (w u : Nat)
  | requested (w : Nat)
  | enabled (w : Nat)
  | disable (w : Nat)
  | restore (w i : Nat)
  | close (w : Nat)
  | tick (d : Nat) (user : Int)
deriving DecidableEq, Repr

def St.set (s : St) (w : Nat) (x : Thr) : St := { s with t := upd s.t w x }

def St.goto (s : St) (w : Nat) (p : Pc) : St := s.set w { s.t w with pc := p }

/-- In the range of `time_max_t`. -/
def inRange (x : Int) : Bool := decide (-9223372036854775808 ≤ x ∧ x ≤ 9223372036854775807)

/-- `BOOST_THREAD_POLL_INTERVAL_MILLISECONDS`, detail/config.hpp 57-58. -/
def poll : Int := 100000000

/-- `getMs` (platform_time.hpp 169-183): away from zero. -/
def ms (ns : Int) : Int := if 0 ≤ ns then (ns + 999999).tdiv 1000000 else (ns - 999999).tdiv 1000000

/-- The subtraction and `getMs` stay in range. -/
def msOk (ns : Int) : Bool := inRange ns && inRange (ns + 999999) && inRange (ns - 999999)

/-- `INFINITE`. -/
def infinite : Int := 4294967295

/-- `static_cast<DWORD>(time_left_msec)` as the time-out of a wait that begins at `now`: `none` for `INFINITE` (693, 715). -/
def tilOf (now left : Int) : Option Int :=
  if left % 4294967296 = infinite then none else some (now + left % 4294967296 * 1000000)

/-- A time on the steady clock that is not `getMax()` (platform_time.hpp 340-351), which stands for no limit. Simplification: a call with this
very time as its limit counts as one whose time cannot be represented. -/
def fits (x : Int) : Bool := decide (-9223372036854775808 ≤ x ∧ x < 9223372036854775807)

/-- The end of a call with thread `tgt`. -/
def St.unuse (s : St) : Option Nat → St
  | none => s
  | some u => s.set u { s.t u with joiner := none }

def overflow (s : St) (w : Nat) (tgt : Option Nat) : Option (St × List Event) := some ((s.unuse tgt).goto w .idle, [.overflow w])

/-- The time has come: a join returns `false`, a sleep returns. -/
def giveUp (s : St) (w : Nat) (tgt : Option Nat) : Option (St × List Event) :=
  some ((s.unuse tgt).goto w .idle, [match tgt with | none => .slept w | some _ => .timedOut w])

/-- The handle of the thread (if any) is signalled. -/
def St.signalled (s : St) : Option Nat → Bool
  | some u => (s.t u).fin
  | none => false

/-- The time (if any) has come. -/
def over (now : Int) : Option Int → Bool
  | some e => decide (e ≤ now)
  | none => false

/-- How each function begins. -/
def firstPc (now : Int) : Call → Pc
  | .join u => .arm (some u) true none none                                            -- thread.cpp 447
  | .tryJoinUntil u true t => .arm (some u) true (some t) none                        -- thread.hpp 476, thread.cpp 462
  | .tryJoinUntil u false t => .look (some u) true t true                              -- thread.hpp 483, 505
  | .tryJoinFor u d => .add (some u) true d none                                       -- thread.hpp 497, 534
  | .sleepFor quiet d => .add none (!quiet) d none                                     -- thread_data.hpp 245, 225, 296, 276
  | .sleepUntil quiet true t => .add none (!quiet) (t - now) none                      -- thread_data.hpp 251, 302
  | .sleepUntil quiet false t => .look none (!quiet) t false                           -- thread_data.hpp 258, 231, 309, 282
  | .point => .point

/-- The arguments of the call make sense as they are: thread_data.hpp 251, 302; thread.hpp 476. -/
def argsOk (now : Int) : Call → Bool
  | .tryJoinUntil _ true t => fits t
  | .sleepUntil _ true t => inRange (t - now)
  | _ => true

/-- A call begins. Joins: `this_thread::get_id() == get_id()` (thread.hpp 760, 770), `local_thread_info` (thread.cpp 444, 459). -/
def begin (s : St) (w : Nat) (c : Call) : Option (St × List Event) :=
  match c.target with
  | none => if argsOk s.now c then some (s.goto w (firstPc s.now c), [.called w c]) else some (s, [.overflow w])
  | some u =>
    if (s.t u).obj then
      if u = w then some (s, [.selfJoin w u])
      else if (s.t u).joiner.isSome then none
      else if argsOk s.now c then some ((s.set u { s.t u with joiner := some w }).goto w (firstPc s.now c), [.called w c])
      else some (s, [.overflow w])
    else some (s, [.notJoinable w u])

/-- The next step inside a call. -/
def go (s : St) (w : Nat) : Option (St × List Event) :=
  match (s.t w).pc with
  | .idle => none
  -- thread.hpp 483-489, 505-511: the first wait takes place in any case; thread_data.hpp 231-237, 258-264
  | .look tgt intr t first =>
    if inRange (t - s.user) then
      if (first && tgt.isSome) || decide (0 < t - s.user) then some (s.goto w (.add tgt intr (min (t - s.user) poll) (some t)), [])
      else giveUp s w tgt
    else overflow s w tgt
  -- thread.hpp 485, 497, 507, 534; thread_data.hpp 225, 235, 245, 276, 286, 296
  | .add tgt intr d k =>
    if fits (s.now + d) then some (s.goto w (.arm tgt intr (some (s.now + d)) k), []) else overflow s w tgt
  | .arm _ _ _ _ => none
  -- 689-724, 787-815: the thread comes first, the timer last
  | .blocked tgt intr dl due til k =>
    if s.signalled tgt then some (s.goto w (.got tgt intr true k), [])
    else if intr && (s.t w).event then some ((s.unuse tgt).goto w .reset, [])
    else if over s.now due then some (s.goto w (.got tgt intr false k), [])
    else if over s.now til then
      match dl with
      | some x =>
        if msOk (x - s.now) then
          if ms (x - s.now) = infinite ∨ 0 < ms (x - s.now) then
            some (s.goto w (.blocked tgt intr dl due (tilOf s.now (ms (x - s.now))) k), [])
          else some (s.goto w (.got tgt intr false k), [])
        else overflow s w tgt
      | none => some (s, [])
    else none
  -- 447-449, 462-469; `release_handle` (482-485)
  | .got tgt intr b k =>
    match tgt, b with
    | some u, true => some ((s.set u { s.t u with obj := false, joiner := none }).goto w .idle, [.joined w])
    | _, _ =>
      match k with
      | none => giveUp s w tgt
      | some t => some (s.goto w (.look tgt intr t false), [])
  | .reset => some (s.set w { s.t w with event := false, pc := .idle }, [.interrupted w])
  | .point => if (s.t w).en && (s.t w).event then some (s.goto w .reset, []) else some (s.goto w .idle, [.passed w])

/-- The beginning of a wait (623-687, 731-785). -/
def armStep (s : St) (w : Nat) (ok : Bool) : Option (St × List Event) :=
  match (s.t w).pc with
  | .arm tgt intr dl k =>
    match dl with
    | none => some (s.goto w (.blocked tgt (intr && (s.t w).en) none none none k), [])
    | some x =>
      if msOk (x - s.now) then
        let left := ms (x - s.now)
        if ok then
          -- 649-674; the handle of the timer is the last one
          some (s.goto w (.blocked tgt (intr && (s.t w).en) dl (some (s.now + (if 0 < left then left * 1000000 else 0))) none k), [])
        else
          -- 678-687
          some (s.goto w (.blocked tgt (intr && (s.t w).en) dl none (tilOf s.now (if left < 0 then 0 else left)) k), [])
      else overflow s w tgt
  | _ => none

def step (s : St) : Label → Option (St × List Event)
  | .start w =>
    if (s.t w).pc = .idle then
      some ({ s.set s.n { lib := true, obj := true, en := true } with n := s.n + 1 }, [.start w s.n])
    else none
  | .finish w => if (s.t w).pc = .idle then some (s.set w { s.t w with fin := true }, [.ended w]) else none
  | .call w c => if (s.t w).pc = .idle ∧ w < s.n then begin s w c else none
  | .go w => go s w
  | .arm w ok => armStep s w ok
  -- 477-485
  | .detach w u =>
    if (s.t w).pc = .idle ∧ (s.t u).joiner = none then some (s.set u { s.t u with obj := false }, [.detached w u]) else none
  -- 433-441
  | .joinable w u => if (s.t w).pc = .idle then some (s, [.joinable w u (s.t u).obj]) else none
  -- 488-495, thread_data.hpp 171-174
  | .interrupt w u =>
    if (s.t w).pc = .idle then
      if (s.t u).obj then some (s.set u { s.t u with event := true }, [.interrupt w u]) else some (s, [.interrupt w u])
    else none
  -- 497-501
  | .asked w u => if (s.t w).pc = .idle then some (s, [.asked w u ((s.t u).obj && (s.t u).event)]) else none
  -- 850-853
  | .requested w => if (s.t w).pc = .idle then some (s, [.requested w (s.t w).event]) else none
  -- 845-848
  | .enabled w => if (s.t w).pc = .idle then some (s, [.enabled w (s.t w).en]) else none
  -- 862-869
  | .disable w =>
    if (s.t w).pc = .idle then
      some (s.set w { s.t w with objs := .dis (s.t w).en :: (s.t w).objs, en := if (s.t w).en then false else (s.t w).en }, [.disable w])
    else none
  -- 879-885
  | .restore w i =>
    if (s.t w).pc = .idle then
      match (s.t w).objs[i]? with
      | some (.dis was) => some (s.set w { s.t w with objs := .res :: (s.t w).objs, en := if was then true else (s.t w).en }, [.restore w i])
      | _ => none
    else none
  -- 871-877, 887-893; without thread data nothing happens, and interruption was not enabled before
  | .close w =>
    if (s.t w).pc = .idle then
      match (s.t w).objs with
      | .dis was :: r => some (s.set w { s.t w with objs := r, en := was }, [.close w])
      | .res :: r => some (s.set w { s.t w with objs := r, en := false }, [.close w])
      | [] => none
    else none
  | .tick d user => some ({ s with now := s.now + d, user := user }, [.clock (s.now + d) user])

end Verif.WinThread
