import Verif.Core.Run
/-! # What a condition variable promises

Nothing here refers to the model. -/

namespace Verif.WinCondVar

/-- How a wait ends. -/
inductive Outcome where
  | notified
  | timeout
  | interrupted
deriving DecidableEq, Repr

inductive Event where
  /-- thread `t` locked / unlocked the user's mutex by itself -/
  | locked (t : Nat)
  | unlocked (t : Nat)
  /-- `t` called a wait function, with or without a time limit -/
  | entered (t : Nat) (timed : Bool)
  /-- the wait function unlocked the user's mutex -/
  | released (t : Nat)
  /-- `t` called `notify_all` (`all`) or `notify_one`; `posted`: it found somebody to notify -/
  | notify (t : Nat) (all posted : Bool)
  /-- `t` was woken by a notification -/
  | woke (t : Nat)
  /-- the wait function returned, or threw `thread_interrupted` -/
  | returned (t : Nat) (o : Outcome)
  /-- the count of waits overflowed, which is undefined behaviour -/
  | overflow (t : Nat)
deriving DecidableEq, Repr

/-- A thread in a wait function. -/
inductive Phase where
  | away
  /-- not woken yet. `noted`: a notify function was called since; `posts`: how many calls of `notify_one` found somebody to notify since; `wakes`: how many
  threads have been woken since -/
  | inside (timed noted : Bool) (posts wakes : Nat)
  | woken
deriving DecidableEq, Repr

structure Book where
  /-- owner of the user's mutex -/
  owner : Option Nat
  ph : Nat → Phase
  /-- number of waits begun -/
  entered : Nat

def Book.init : Book := { owner := none, ph := fun _ => .away, entered := 0 }

def Phase.isInside : Phase → Bool
  | .inside .. => true
  | _ => false

def Phase.timed : Phase → Bool
  | .inside a _ _ _ => a
  | _ => false

def Phase.noted : Phase → Bool
  | .inside _ b _ _ => b
  | _ => false

/-- The wait may end this way: as notified after being woken, by time-out with a limit only. -/
def Phase.ends (p : Phase) : Outcome → Bool
  | .notified => p = .woken
  | .timeout => p.timed
  | .interrupted => p.isInside

def Phase.note (all posted : Bool) : Phase → Phase
  | .inside a _ p w => .inside a true (if !all && posted then p + 1 else p) w
  | p => p

def Phase.sawWake : Phase → Phase
  | .inside a b p w => .inside a b p (w + 1)
  | p => p

def must (b : Bool) (q : Book) : Verdict Book := if b then .ok q else .illegal

def Book.set (q : Book) (t : Nat) (p : Phase) : Book := { q with ph := fun u => if u = t then p else q.ph u }

def specNext (q : Book) : Event → Verdict Book
  | .locked t => must (q.owner = none) { q with owner := some t }
  | .unlocked t => if q.owner = some t then .ok { q with owner := none } else .undefined
  | .entered t timed =>
    if q.owner = some t ∧ q.ph t = .away then .ok { q.set t (.inside timed false 0 0) with entered := q.entered + 1 } else .undefined
  | .released t => must (q.owner = some t && (q.ph t).isInside) { q with owner := none }
  | .notify _ all posted => .ok { q with ph := fun u => (q.ph u).note all posted }
  | .woke t => must ((q.ph t).noted) { q with ph := fun u => if u = t then .woken else (q.ph u).sawWake }
  | .returned t o =>
    must (q.owner = none && (q.ph t).ends o) { q.set t .away with owner := some t }
  | .overflow _ => .illegal

end Verif.WinCondVar
