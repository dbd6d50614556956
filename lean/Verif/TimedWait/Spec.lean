import Verif.TimedWait.Model
/-!
# Specification of timed waits

The specification sees the calls, the two clocks, the predicate and who owns the lock.
-/

namespace Verif.TimedWait

inductive Deadline where
  | never
  /-- a special duration: the wait is over at once -/
  | always
  | internal (t : Int)
  | user (t : Int)
deriving DecidableEq, Repr

/-- The deadline of a call made when the internal clock shows `now`, or not known before the clock is read inside the call (`timed_wait` and `wait_for`
count from the moment they read the clock: any reading during the call is as good). -/
inductive Due where
  | at (d : Deadline)
  /-- some reading of the internal clock during the call, plus `d` -/
  | after (d : Int)
deriving DecidableEq, Repr

def dueOf : Call → Due
  | .waitP => .at .never
  | .waitUntil true t => .at (.internal t)
  | .waitUntil false t => .at (.user t)
  | .waitUntilP true t => .at (.internal t)
  | .waitUntilP false t => .at (.user t)
  | .waitFor d => .after d
  | .waitForP d => .after d
  | .timedWait .posInf => .at .never
  | .timedWait .special => .at .always
  | .timedWait (.val d) => .after d
  | .timedWaitP .posInf => .at .never
  | .timedWaitP .special => .at .always
  | .timedWaitP (.val d) => .after d

/-- What kind of result the call has. -/
inductive Shape where
  | unit
  | status
  | val
deriving DecidableEq, Repr

def shapeOf : Call → Shape
  | .waitP => .unit
  | .waitUntil _ _ => .status
  | .waitUntilP _ _ => .val
  | .waitFor _ => .status
  | .waitForP _ => .val
  | .timedWait _ => .status
  | .timedWaitP _ => .val

structure SState where
  now : Int
  user : Int
  pred : Bool
  held : Bool
  /-- the call in progress -/
  call : Option Call
  /-- reading of the internal clock when the call began -/
  began : Int
  /-- the largest reading of the user's clock during the call -/
  maxUser : Int
  /-- the smallest one -/
  minUser : Int
deriving DecidableEq, Repr

def specInit (now user : Int) (pred : Bool) : SState :=
  { now := now, user := user, pred := pred, held := true, call := none, began := now, maxUser := user, minUser := user }

/-- The deadline of the call has been reached at some moment since the call began. (The internal clock never goes back: its largest reading is `now`.) -/
def SState.passed (q : SState) (c : Call) : Bool :=
  match dueOf c with
  | .at .never => false
  | .at .always => true
  | .at (.internal t) => decide (t ≤ q.now)
  | .at (.user t) => decide (t ≤ q.maxUser)
  | .after d => decide (q.began + d ≤ q.now)

def allow (b : Bool) (q : SState) : Verdict SState := if b then .ok q else .illegal

/-- `inRange`, which the specification shares with the model, means: fits in 64 bits. -/
theorem inRange_iff (x : Int) : inRange x = true ↔ -2 ^ 63 ≤ x ∧ x < 2 ^ 63 := by
  simp only [inRange, decide_eq_true_eq]; omega

/-- The call may fail: some time the library may have to compute with, given the readings of the clocks during the call, is negative or outside 64 bits. -/
def SState.extreme (q : SState) (c : Call) : Bool :=
  match dueOf c with
  | .at (.internal t) => decide (t < 0)
  | .at (.user t) => !inRange (t - q.maxUser) || !inRange (t - q.minUser) || decide (q.began + (t - q.maxUser) < 0) || !inRange (q.now + (t - q.minUser))
  | .after d => !inRange (q.now + d) || decide (q.began + d < 0)
  | _ => false

/-- `strict`: a call must not fail. Otherwise a failure of a call with extreme times ends the contract. -/
def next (strict : Bool) (q : SState) : Event → Verdict SState
  | .called c =>
    match q.call with
    | none => .ok { q with call := some c, began := q.now, maxUser := q.user, minUser := q.user }
    | some _ => .illegal
  | .clock n u => .ok { q with now := n, user := u, maxUser := max q.maxUser u, minUser := min q.minUser u }
  | .predIs b => .ok { q with pred := b }
  | .released => .ok { q with held := false }
  | .acquired => .ok { q with held := true }
  | .returned r =>
    match q.call with
    | none => .illegal
    | some c =>
      match r with
      | .unit => allow (q.held && q.pred && shapeOf c == .unit) { q with call := none }
      | .val b => allow (q.held && (b == q.pred) && (b || q.passed c) && shapeOf c == .val) { q with call := none }
      | .status timeout => allow (q.held && (!timeout || q.passed c) && shapeOf c == .status) { q with call := none }
      | .threw => if !strict && q.extreme c then .undefined else .illegal
      | .overflow => if !strict && q.extreme c then .undefined else .illegal

end Verif.TimedWait
