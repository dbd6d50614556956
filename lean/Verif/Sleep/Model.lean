import Verif.TimedWait.Model
/-!
# Model of the sleep functions

Models `/repo/include/boost/thread/pthread/thread_data.hpp` lines 253-364 (`this_thread::sleep`, `sleep_until`, `sleep_for` and their namesakes in
`this_thread::no_interruption_point`, with `BOOST_THREAD_SLEEP_FOR_IS_STEADY`) and `/repo/src/pthread/thread.cpp` lines 440-464 (`sleep_for_internal`, with `nanosleep`).

The interruptible functions wait on a condition variable of their own with a predicate that is always false; they are the model of `Verif.TimedWait` with this
predicate. One sleeping thread; the environment lets the clocks run, adjusts the user's clock in any direction, wakes the condition variable spuriously and delivers
signals. `nanosleep` returns when the time has passed on the steady clock, and earlier when a signal handler has run; its result is not looked at (459).
Times are integers, in nanoseconds; arithmetic of `chrono` and `platform_time.hpp` that leaves 64 bits is undefined behaviour (`Failure`).

Not modelled: interruption; how much time passes inside `sleep_for_internal` beyond the request; durations coarser than nanoseconds (C45: they are rounded up).
-/

namespace Verif.Sleep

open TimedWait (Dur inRange poll)

inductive Call where
  /-- `sleep_until`; `internal`: `steady_clock`. With another clock also `sleep(abs_time)`. -/
  | sleepUntil (internal : Bool) (t : Int)
  | sleepFor (d : Int)
  /-- `sleep(rel_time)` -/
  | sleepRel (d : Dur)
  /-- `no_interruption_point::sleep_for`, `no_interruption_point::sleep(rel_time)` -/
  | quietFor (d : Int)
  /-- `no_interruption_point::sleep_until` with `steady_clock` -/
  | quietUntilSteady (t : Int)
  /-- the same with another clock, and `no_interruption_point::sleep(abs_time)` -/
  | quietUntil (t : Int)
deriving DecidableEq, Repr

inductive PC where
  | idle
  /-- in the timed wait -/
  | waiting
  | begin (c : Call)
  /-- in `nanosleep` until the steady clock shows `due`; `again`: then look at the user's clock again -/
  | nap (due : Int) (again : Option Int)
  /-- before reading the user's clock (323, 328, 356, 361) -/
  | look (t : Int)
deriving DecidableEq, Repr

structure State where
  /-- the condition variable, and both clocks -/
  tw : TimedWait.State
  pc : PC
deriving DecidableEq, Repr

def init (now user : Int) : State := { tw := TimedWait.init now user false, pc := .idle }

inductive Failure where
  /-- `condition_error` is thrown -/
  | threw
  /-- signed overflow -/
  | overflow
deriving DecidableEq, Repr

inductive Event where
  | called (c : Call)
  | returned
  | failed (f : Failure)
  | clock (now user : Int)
  | signal
deriving DecidableEq, Repr

inductive Label where
  | call (c : Call)
  | go
  | tick (dn : Nat) (user : Int)
  /-- a spurious wake-up -/
  | wake
  | expire
  /-- a signal handler runs in the thread -/
  | signal
deriving DecidableEq, Repr

/-- The timed wait an interruptible sleep consists of: 266-302. -/
def Call.wait? : Call → Option TimedWait.Call
  | .sleepUntil internal t => some (.waitUntilP internal t)                                -- 286-292 (266-272)
  | .sleepFor d => some (.waitForP d)                                                      -- 295-301
  | .sleepRel d => some (.timedWaitP d)                                                    -- 275-281
  | _ => none

def done (s : State) : Option (State × List Event) := some ({ s with pc := .idle }, [.returned])
def goto (s : State) (p : PC) : Option (State × List Event) := some ({ s with pc := p }, [])
def overflow (s : State) : Option (State × List Event) := some ({ s with pc := .idle }, [.failed .overflow])

/-- `sleep_for_internal`, thread.cpp 446-464. -/
def sleepForInternal (s : State) (d : Int) (again : Option Int) : Option (State × List Event) :=
  if d > 0 then goto s (.nap (s.tw.now + d) again)                                         -- 448, 459
  else match again with
    | some t => goto s (.look t)
    | none => done s

/-- What a return from the timed wait means for the caller of the sleep function. -/
def Event.ofWait : TimedWait.Event → List Event
  | .returned .threw => [.failed .threw]
  | .returned .overflow => [.failed .overflow]
  | .returned _ => [.returned]
  | _ => []

/-- A step of the timed wait. -/
def waitStep (s : State) (l : TimedWait.Label) : Option (State × List Event) :=
  if s.pc = .waiting then
    match TimedWait.step s.tw l with
    | some (tw, es) => some ({ tw := tw, pc := if tw.pc = .idle then .idle else .waiting }, es.flatMap Event.ofWait)
    | none => none
  else none

/-- After `nanosleep`. -/
def wakeUp (s : State) : Option Int → State × List Event
  | some t => ({ s with pc := .look t }, [])
  | none => ({ s with pc := .idle }, [.returned])

def step (s : State) : Label → Option (State × List Event)
  | .call c =>
    if s.pc = .idle then
      match c.wait? with
      | some w =>
        match TimedWait.step s.tw (.call w) with
        | some (tw, _) => some ({ tw := tw, pc := .waiting }, [.called c])
        | none => none
      | none => some ({ s with pc := .begin c }, [.called c])
    else none
  | .go =>
    match s.pc with
    | .idle => none
    | .waiting => waitStep s .go
    | .begin (.quietFor d) => sleepForInternal s d none                                    -- 335, 343
    | .begin (.quietUntilSteady t) =>                                                      -- 349
      if inRange (t - s.tw.now) then sleepForInternal s (t - s.tw.now) none else overflow s
    | .begin (.quietUntil t) => goto s (.look t)
    | .begin _ => none
    | .look t =>
      if inRange (t - s.tw.user) then                                                      -- 323, 328, 356, 361
        if t - s.tw.user > 0 then sleepForInternal s (min (t - s.tw.user) poll) (some t)   -- 357-360 (324-327)
        else done s
      else overflow s
    | .nap due again => if due ≤ s.tw.now then some (wakeUp s again) else none
  | .tick dn user =>
    match TimedWait.step s.tw (.tick dn user) with
    | some (tw, _) => some ({ s with tw := tw }, [.clock tw.now tw.user])
    | none => none
  | .wake => waitStep s .wake
  | .expire => waitStep s .expire
  | .signal =>
    match s.pc with
    | .nap _ again => some ((wakeUp s again).1, .signal :: (wakeUp s again).2)             -- thread.cpp 459: EINTR
    | _ => some (s, [.signal])

end Verif.Sleep
