import Verif.Sleep.Model
/-!
# Specification of sleeping

The specification sees the calls, the clocks and the signals.
-/

namespace Verif.Sleep

open TimedWait (Dur inRange)

structure SState where
  now : Int
  user : Int
  /-- the call in progress -/
  call : Option Call
  /-- reading of the steady clock when the call began -/
  began : Int
  /-- the largest and the smallest reading of the user's clock during the call -/
  maxUser : Int
  minUser : Int
  /-- a signal handler has run during the call -/
  hit : Bool
deriving DecidableEq, Repr

def specInit (now user : Int) : SState := { now := now, user := user, call := none, began := now, maxUser := user, minUser := user, hit := false }

/-- The time to sleep is over, or was over at some moment during the call. -/
def SState.over (q : SState) : Call → Bool
  | .sleepUntil true t | .quietUntilSteady t => decide (t ≤ q.now)
  | .sleepUntil false t | .quietUntil t => decide (t ≤ q.maxUser)
  | .sleepFor d | .quietFor d | .sleepRel (.val d) => decide (q.began + d ≤ q.now)
  | .sleepRel .posInf => false
  | .sleepRel .special => true

/-- Sleeps in a single call of `nanosleep`. -/
def Call.cut : Call → Bool
  | .quietFor _ | .quietUntilSteady _ => true
  | _ => false

/-- Some time the library may have to compute with is negative or does not fit in 64 bits. -/
def SState.extreme (q : SState) : Call → Bool
  | .sleepUntil true t => decide (t < 0)
  | .sleepUntil false t =>
    !inRange (t - q.maxUser) || !inRange (t - q.minUser) || decide (q.began + (t - q.maxUser) < 0) || !inRange (q.now + (t - q.minUser))
  | .sleepFor d | .sleepRel (.val d) => !inRange (q.now + d) || decide (q.began + d < 0)
  | .sleepRel _ => false
  | .quietFor _ => false
  | .quietUntilSteady t => !inRange (t - q.began) || !inRange (t - q.now)
  | .quietUntil t => !inRange (t - q.maxUser) || !inRange (t - q.minUser)

/-- `strict`: the contract of the functions. Otherwise two exceptions are made: a call with extreme times may fail, which ends the contract, and a sleep consisting
of one `nanosleep` may end early when a signal handler runs. -/
def next (strict : Bool) (q : SState) : Event → Verdict SState
  | .called c =>
    match q.call with
    | none => .ok { q with call := some c, began := q.now, maxUser := q.user, minUser := q.user, hit := false }
    | some _ => .illegal
  | .clock n u => .ok { q with now := n, user := u, maxUser := max q.maxUser u, minUser := min q.minUser u }
  | .signal => .ok { q with hit := true }
  | .returned =>
    match q.call with
    | none => .illegal
    | some c => if q.over c || (!strict && c.cut && q.hit) then .ok { q with call := none } else .illegal
  | .failed _ =>
    match q.call with
    | none => .illegal
    | some c => if !strict && q.extreme c then .undefined else .illegal

end Verif.Sleep
