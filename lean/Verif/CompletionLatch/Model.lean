import Verif.Core.Run
import Verif.Core.Threads
/-!
# Model of `boost::completion_latch`

Models `/repo/include/boost/thread/completion_latch.hpp` lines 44-211 and `/repo/include/boost/thread/detail/counter.hpp` lines 24-87.
One label is everything a thread does from taking `mutex_` (or getting it back after a condition wait) to releasing it; line 75 is a label
of its own. Condition waits may end spuriously, by interruption, and the one in lines 132 and 144 by time-out.

Simplification: counters do not wrap around (except `--count_` at zero, which breaks the precondition).
-/

namespace Verif.CompletionLatch

/-- Which function a waiter is in. -/
inductive Kind where
  /-- `wait` -/
  | wait
  /-- `try_wait` -/
  | try_
  /-- `wait_for`, `wait_until` -/
  | timed
  /-- `count_down_and_wait` -/
  | countDown
deriving DecidableEq, Repr

inductive PC where
  | idle
  /-- line 54; `asleep`: not notified yet -/
  | w1 (k : Kind) (asleep : Bool)
  /-- line 56 -/
  | w2 (k : Kind) (asleep : Bool)
  /-- lines 114, 132, 144, 172 -/
  | w3 (k : Kind) (asleep : Bool)
  /-- the timed wait of line 132 or 144 reported a time-out -/
  | expired
  /-- line 69 -/
  | a1 (asleep : Bool)
  /-- line 72 -/
  | a2 (asleep : Bool)
  /-- line 74 executed; about to call the completion function (75) -/
  | run
deriving DecidableEq, Repr

/-- `leavers_.cond_.notify_all()` -/
def PC.wakeL : PC → PC
  | .w1 k _ => .w1 k false
  | .w2 k _ => .w2 k false
  | p => p
/-- `waiters_.cond_.notify_all()` -/
def PC.wakeW : PC → PC
  | .a1 _ => .a1 false
  | .a2 _ => .a2 false
  | p => p
/-- `count_.cond_.notify_all()` -/
def PC.wakeC : PC → PC
  | .w3 k _ => .w3 k false
  | p => p

inductive Event where
  /-- a `count_down` or `count_down_and_wait` has counted -/
  | counted (t : Nat)
  /-- the completion function `f` was called by `t` inside its `count_down` or `count_down_and_wait` -/
  | completion (t f : Nat)
  /-- `wait` or `count_down_and_wait` returned, `try_wait` returned `true`, a timed wait returned `no_timeout` -/
  | passed (t : Nat)
  /-- `try_wait` returned `false`, a timed wait returned `timeout` -/
  | failed (t : Nat)
  | interrupted (t : Nat)
  /-- `reset(n)` -/
  | reset (t n : Nat)
  /-- `then(f)` returned `old` -/
  | then_ (t f old : Nat)
deriving DecidableEq, Repr

structure State where
  count : Nat
  fct : Nat
  waiters : Nat
  leavers : Nat
  ts : List PC
deriving DecidableEq, Repr

/-- 85-102; completion functions are named by numbers -/
def init (count fct threads : Nat) : State := { count, fct, waiters := 0, leavers := 0, ts := List.replicate threads .idle }

/-- `~around_wait`, 58-61, and the end of the call. -/
def leave (s : State) (t : Nat) (e : Event) : State × List Event :=
  ({ s with waiters := s.waiters - 1, ts := (s.ts.map PC.wakeW).set t .idle }, [e])

/-- After line 56: 114, 122, 132, 144, 172. -/
def go3 (s : State) (t : Nat) (k : Kind) : State × List Event :=
  if s.count = 0 then leave s t (.passed t)
  else if k = .try_ then leave s t (.failed t)
  else ({ s with ts := s.ts.set t (.w3 k true) }, [])

/-- Line 56. -/
def go2 (s : State) (t : Nat) (k : Kind) : State × List Event :=
  if s.leavers ≠ 0 then go3 { s with ts := s.ts.set t (.w3 k false) } t k
  else ({ s with ts := s.ts.set t (.w2 k true) }, [])

/-- Lines 54 and 55. -/
def go1 (s : State) (t : Nat) (k : Kind) : State × List Event :=
  if s.leavers = 0 then go2 { s with waiters := s.waiters + 1, ts := (s.ts.map PC.wakeW).set t (.w2 k false) } t k
  else ({ s with ts := s.ts.set t (.w1 k true) }, [])

/-- Lines 72 to 74. -/
def goA2 (s : State) (t : Nat) : State × List Event :=
  if s.waiters = 0 then ({ s with leavers := 0, ts := (s.ts.map PC.wakeL).set t .run }, [])
  else ({ s with ts := s.ts.set t (.a2 true) }, [])

/-- Lines 69 to 71. -/
def goA1 (s : State) (t : Nat) : State × List Event :=
  if s.waiters ≠ 0 then
    goA2 { s with leavers := s.waiters, ts := ((s.ts.map PC.wakeL).map PC.wakeC).set t (.a2 false) } t
  else ({ s with ts := s.ts.set t (.a1 true) }, [])

/-- `count_down(lk)`, 64-79, for `count_down` (151-159) or `count_down_and_wait` (164-177, if `w`). -/
def countDown (s : State) (t : Nat) (w : Bool) : State × List Event :=
  if s.count = 0 then ({ s with count := 2 ^ 64 - 1 }, [.counted t])
  else if s.count = 1 then
    ((goA1 { s with count := 0, ts := s.ts.set t (.a1 false) } t).1, .counted t :: (goA1 { s with count := 0, ts := s.ts.set t (.a1 false) } t).2)
  else if w then
    ((go1 { s with count := s.count - 1, ts := s.ts.set t (.w1 .countDown false) } t .countDown).1,
      .counted t :: (go1 { s with count := s.count - 1, ts := s.ts.set t (.w1 .countDown false) } t .countDown).2)
  else ({ s with count := s.count - 1 }, [.counted t])

inductive Label where
  /-- 110-147 -/
  | wait (t : Nat) (k : Kind)
  | countDown (t : Nat) (wait : Bool)
  /-- the completion function is called, and `count_down` returns -/
  | complete (t : Nat)
  | reset (t n : Nat)               -- 181-186
  | then_ (t f : Nat)               -- 205-211
  | resume (t : Nat)
  | spurious (t : Nat)
  | timeout (t : Nat)
  | interrupt (t : Nat)
deriving DecidableEq, Repr

def step (s : State) : Label → Option (State × List Event)
  | .wait t k =>
    match s.ts[t]? with
    | some .idle => if k = .countDown then none else some (go1 { s with ts := s.ts.set t (.w1 k false) } t k)
    | _ => none
  | .countDown t w =>
    match s.ts[t]? with
    | some .idle => some (countDown s t w)
    | _ => none
  | .complete t =>
    match s.ts[t]? with
    | some .run => some ({ s with ts := s.ts.set t .idle }, [.completion t s.fct])
    | _ => none
  | .reset t n =>
    match s.ts[t]? with
    | some .idle => some ({ s with count := n }, [.reset t n])
    | _ => none
  | .then_ t f =>
    match s.ts[t]? with
    | some .idle => some ({ s with fct := f }, [.then_ t f s.fct])
    | _ => none
  | .resume t =>
    match s.ts[t]? with
    | some (.w1 k false) => some (go1 s t k)
    | some (.w2 k false) => some (go2 s t k)
    | some (.w3 k false) => some (go3 s t k)
    | some .expired => if s.count = 0 then some (leave s t (.passed t)) else some (leave s t (.failed t))
    | some (.a1 false) => some (goA1 s t)
    | some (.a2 false) => some (goA2 s t)
    | _ => none
  | .spurious t =>
    match s.ts[t]? with
    | some (.w1 k true) => some ({ s with ts := s.ts.set t (.w1 k false) }, [])
    | some (.w2 k true) => some ({ s with ts := s.ts.set t (.w2 k false) }, [])
    | some (.w3 k true) => some ({ s with ts := s.ts.set t (.w3 k false) }, [])
    | some (.a1 true) => some ({ s with ts := s.ts.set t (.a1 false) }, [])
    | some (.a2 true) => some ({ s with ts := s.ts.set t (.a2 false) }, [])
    | _ => none
  | .timeout t =>
    match s.ts[t]? with
    | some (.w3 .timed _) => some ({ s with ts := s.ts.set t .expired }, [])
    | _ => none
  | .interrupt t =>
    match s.ts[t]? with
    | some (.w1 _ _) => some ({ s with ts := s.ts.set t .idle }, [.interrupted t])
    | some (.w2 _ _) => some ({ s with ts := s.ts.set t .idle }, [.interrupted t])   -- the constructor throws: line 60 is not executed
    | some (.w3 _ _) => some (leave s t (.interrupted t))
    | some .expired => some (leave s t (.interrupted t))
    | some (.a1 _) => some ({ s with ts := s.ts.set t .idle }, [.interrupted t])
    | some (.a2 _) => some ({ s with ts := s.ts.set t .idle }, [.interrupted t])
    | _ => none

end Verif.CompletionLatch
