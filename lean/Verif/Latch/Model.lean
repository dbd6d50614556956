import Verif.Core.Run
import Verif.Core.Threads
/-!
# Model of `boost::latch`

Models `/repo/include/boost/thread/latch.hpp` lines 30-53, 58-61, 72-157. One label is one critical section under `mutex_`; line 38
notifies inside it. `cond_.wait(lk, pred)` is the usual loop; the waits may end spuriously, by time-out (the timed ones) or by
interruption.

Simplification: `generation_` (a `size_t`, 64 bits) does not wrap around.
-/

namespace Verif.Latch

inductive Mode where
  | asleep | woken
  /-- the timed wait reported a time-out; the predicate is about to be evaluated one last time -/
  | expired
deriving DecidableEq, Repr

inductive PC where
  | idle
  /-- waiting in line 77, 143 (`timed = false`), 95 or 108 (`timed = true`) with the local `generation` -/
  | inside (timed : Bool) (m : Mode) (generation : Nat)
deriving DecidableEq, Repr

/-- `notify_all` -/
def PC.wake : PC → PC
  | .inside k .asleep g => .inside k .woken g
  | p => p

inductive Event where
  /-- a call of `wait`, `wait_for`, `wait_until` took effect -/
  | began (t : Nat)
  /-- a call of `count_down` or `signal` returned -/
  | counted (t : Nat)
  /-- a call of `count_down_and_wait` or `sync` counted and now waits, or returns at once -/
  | countedAndWaits (t : Nat)
  /-- `try_count_down` returned `b` -/
  | tryCounted (t : Nat) (b : Bool)
  /-- `try_wait` returned `b` -/
  | tryWaited (t : Nat) (b : Bool)
  /-- a wait returned, a timed one with `no_timeout` -/
  | passed (t : Nat)
  /-- a timed wait returned `timeout` -/
  | timedOut (t : Nat)
  | interrupted (t : Nat)
  /-- `reset(n)` -/
  | reset (t n : Nat)
deriving DecidableEq, Repr

structure State where
  count : Nat
  generation : Nat
  ts : List PC
deriving DecidableEq, Repr

/-- 58-61 -/
def init (count threads : Nat) : State := { count, generation := 0, ts := List.replicate threads .idle }

/-- `count_down(lk)`, 30-42: the new state and the result. `--count_` of 0 is 2^64-1. -/
def countDown (s : State) : State × Bool :=
  if s.count = 0 then ({ s with count := 2 ^ 64 - 1 }, false)
  else if s.count = 1 then ({ count := 0, generation := s.generation + 1, ts := s.ts.map PC.wake }, true)
  else ({ s with count := s.count - 1 }, false)

/-- `try_count_down(lk)`, 46-53 -/
def tryCountDown (s : State) : State × Bool :=
  if s.count > 0 then countDown s else (s, true)

inductive Label where
  /-- `wait()` (72-78), or `wait_for`/`wait_until` (90-111) if `timed` -/
  | wait (t : Nat) (timed : Bool)
  | tryWait (t : Nat)                 -- 81-85
  | countDown (t : Nat)               -- 115-119, 127-130
  | tryCountDown (t : Nat)            -- 122-126
  | countDownAndWait (t : Nat)        -- 135-148
  | reset (t n : Nat)                 -- 152-157
  /-- the condition wait returns and the predicate is evaluated -/
  | resume (t : Nat)
  | spurious (t : Nat)
  | timeout (t : Nat)
  | interrupt (t : Nat)
deriving DecidableEq, Repr

def step (s : State) : Label → Option (State × List Event)
  | .wait t timed =>
    match s.ts[t]? with
    | some .idle =>
      if s.count = 0 then some (s, [.began t, .passed t])
      else some ({ s with ts := s.ts.set t (.inside timed .asleep s.generation) }, [.began t])
    | _ => none
  | .tryWait t =>
    match s.ts[t]? with
    | some .idle => some (s, [.tryWaited t (decide (s.count = 0))])
    | _ => none
  | .countDown t =>
    match s.ts[t]? with
    | some .idle => some ((countDown s).1, [.counted t])
    | _ => none
  | .tryCountDown t =>
    match s.ts[t]? with
    | some .idle => some ((tryCountDown s).1, [.tryCounted t (tryCountDown s).2])
    | _ => none
  | .countDownAndWait t =>
    match s.ts[t]? with
    | some .idle =>
      if (countDown s).2 then some ((countDown s).1, [.countedAndWaits t, .passed t])          -- 139-142
      else some ({ (countDown s).1 with ts := (countDown s).1.ts.set t (.inside false .asleep s.generation) },
        [.countedAndWaits t])                                                                   -- 138, 143
    | _ => none
  | .reset t n =>
    match s.ts[t]? with
    | some .idle => some ({ s with count := n }, [.reset t n])
    | _ => none
  | .resume t =>
    match s.ts[t]? with
    | some (.inside k .woken g) =>
      if g ≠ s.generation then some ({ s with ts := s.ts.set t .idle }, [.passed t])
      else some ({ s with ts := s.ts.set t (.inside k .asleep g) }, [])
    | some (.inside _ .expired g) =>
      if g ≠ s.generation then some ({ s with ts := s.ts.set t .idle }, [.passed t])
      else some ({ s with ts := s.ts.set t .idle }, [.timedOut t])
    | _ => none
  | .spurious t =>
    match s.ts[t]? with
    | some (.inside k .asleep g) => some ({ s with ts := s.ts.set t (.inside k .woken g) }, [])
    | _ => none
  | .timeout t =>
    match s.ts[t]? with
    | some (.inside true .asleep g) => some ({ s with ts := s.ts.set t (.inside true .expired g) }, [])
    | some (.inside true .woken g) => some ({ s with ts := s.ts.set t (.inside true .expired g) }, [])
    | _ => none
  | .interrupt t =>
    match s.ts[t]? with
    | some (.inside _ _ _) => some ({ s with ts := s.ts.set t .idle }, [.interrupted t])
    | _ => none

end Verif.Latch
