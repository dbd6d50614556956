import Verif.Core.Run
/-!
# Timed locks and their deadlines: specification

One thread makes timed attempts to lock a mutex, other threads lock and unlock it, two clocks run: the steady one, and the user's, which may be set to anything at any time. An attempt that fails does so
because its time has come; one that succeeds does so when nobody else has the mutex.

`strict = true` is the contract: a call returns true or false. `strict = false` is what is proved of the code: a call with extreme times (negative, or outside 64 bits) may also fail otherwise.
-/

namespace Verif.TimedLock

/-- In the range of 64 bits. -/
def fits (x : Int) : Bool := decide (-9223372036854775808 ≤ x ∧ x ≤ 9223372036854775807)

/-- Which implementation: POSIX, with or without assertions, or Windows. -/
inductive Sys where
  | posix (asserts : Bool)
  | windows
deriving DecidableEq, Repr

structure Cfg where
  sys : Sys
  recursive : Bool
deriving DecidableEq, Repr

inductive Call where
  /-- `try_lock_until(t)`; `steady`: of the steady clock. With another clock also `timed_lock(abs_time)`. -/
  | until_ (steady : Bool) (t : Int)
  /-- `try_lock_for(d)`, `timed_lock(relative_time)` with a finite time -/
  | for_ (d : Int)
  /-- `timed_lock(pos_infin)` -/
  | forever
deriving DecidableEq, Repr

inductive Ret where
  | val (b : Bool)
  /-- undefined behaviour: signed overflow -/
  | overflow
  /-- an assertion fails -/
  | aborted
deriving DecidableEq, Repr

inductive Event where
  | called (c : Call)
  | returned (r : Ret)
  | unlocked
  | clock (now user : Int)
  | otherLocked
  | otherUnlocked
deriving DecidableEq, Repr

structure Spec where
  /-- readings of the clocks -/
  now : Int
  user : Int
  /-- how often the thread has locked the mutex -/
  mine : Nat
  /-- another thread has the mutex -/
  other : Bool
  call : Option Call
  /-- reading of the steady clock when the call began -/
  began : Int
  /-- the largest and the smallest reading of the user's clock during the call -/
  maxUser : Int
  minUser : Int
deriving DecidableEq, Repr

def specInit (now user : Int) : Spec := { now, user, mine := 0, other := false, call := none, began := now, maxUser := user, minUser := user }

/-- The time of the call has come at some moment since it began. -/
def Spec.due (q : Spec) : Call → Bool
  | .until_ true t => decide (t ≤ q.now)
  | .until_ false t => decide (t ≤ q.maxUser)
  | .for_ d => decide (q.began + d ≤ q.now)
  | .forever => false

/-- 100 ms -/
def interval : Int := 100000000

/-- The times of the call, combined with the readings of the clocks, are negative or do not fit. -/
def Spec.extreme (c : Cfg) (q : Spec) : Call → Bool
  | .until_ true t => if c.sys = .windows then !fits (t - q.began) || !fits (t - q.now) else decide (t < 0)
  | .until_ false t =>
    !fits (t - q.maxUser) || !fits (t - q.minUser) || (c.sys != .windows && (decide (q.began + (t - q.maxUser) < 0) || !fits (q.now + interval)))
  | .for_ d => !fits (q.now + d) || !fits (q.began + d) || (c.sys != .windows && decide (q.began + d < 0)) || (c.sys == .windows && !fits (q.began + d - q.now))
  | .forever => false

def check (b : Bool) (q : Spec) : Verdict Spec := if b then .ok q else .illegal

def next (strict : Bool) (c : Cfg) (q : Spec) : Event → Verdict Spec
  | .called a =>
    if q.mine ≠ 0 ∧ c.recursive = false then .undefined
    else check q.call.isNone { q with call := some a, began := q.now, maxUser := q.user, minUser := q.user }
  | .clock n u => .ok { q with now := n, user := u, maxUser := max q.maxUser u, minUser := min q.minUser u }
  | .otherLocked => check (!q.other && q.mine == 0) { q with other := true }
  | .otherUnlocked => check q.other { q with other := false }
  | .unlocked => if q.mine = 0 then .undefined else .ok { q with mine := q.mine - 1 }
  | .returned r =>
    match q.call with
    | none => .illegal
    | some a =>
      match r with
      | .val true => check (!q.other) { q with call := none, mine := q.mine + 1 }
      | .val false => check (q.due a && q.mine == 0) { q with call := none }
      | _ => if !strict && q.extreme c a then .undefined else .illegal

end Verif.TimedLock
