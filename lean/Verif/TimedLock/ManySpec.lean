import Verif.TimedLock.Spec
/-!
# Timed locks and their deadlines: specification for any number of threads

Any number of threads make timed attempts to lock one mutex, and unlock it. One of them at most has it; an attempt that fails does so because its time has come.
-/

namespace Verif.TimedLock

inductive MEvent where
  /-- `called`, `returned` or `unlocked`, by thread `t` -/
  | own (t : Nat) (e : Event)
  | clock (now user : Int)
deriving DecidableEq, Repr

/-- The call a thread is in, the reading of the steady clock when it began, the largest and the smallest reading of the user's clock since then. -/
structure Pending where
  call : Option Call
  began : Int
  maxUser : Int
  minUser : Int
deriving DecidableEq, Repr

structure MSpec where
  now : Int
  user : Int
  /-- who has the mutex, and how often they have locked it -/
  owner : Option Nat
  depth : Nat
  calls : Nat → Pending

def mspecInit (now user : Int) : MSpec := { now, user, owner := none, depth := 0, calls := fun _ => { call := none, began := now, maxUser := user, minUser := user } }

/-- What thread `t` has to know. -/
def MSpec.of (q : MSpec) (t : Nat) : Spec :=
  { now := q.now, user := q.user, mine := if q.owner = some t then q.depth else 0, other := decide (q.owner ≠ none ∧ q.owner ≠ some t),
    call := (q.calls t).call, began := (q.calls t).began, maxUser := (q.calls t).maxUser, minUser := (q.calls t).minUser }

def MSpec.ends (q : MSpec) (t : Nat) : Nat → Pending := fun u => if u = t then { q.calls t with call := none } else q.calls u

def mnext (strict : Bool) (c : Cfg) (q : MSpec) : MEvent → Verdict MSpec
  | .clock n u => .ok { q with now := n, user := u, calls := fun t => { q.calls t with maxUser := max (q.calls t).maxUser u, minUser := min (q.calls t).minUser u } }
  | .own t (.called a) =>
    if q.owner = some t ∧ c.recursive = false then .undefined
    else if (q.calls t).call = none then .ok { q with calls := fun u => if u = t then { call := some a, began := q.now, maxUser := q.user, minUser := q.user } else q.calls u }
    else .illegal
  | .own t .unlocked =>
    if q.owner = some t then .ok { q with owner := if q.depth ≤ 1 then none else some t, depth := q.depth - 1 } else .undefined
  | .own t (.returned r) =>
    match (q.calls t).call with
    | none => .illegal
    | some a =>
      match r with
      | .val true => if q.owner = none ∨ q.owner = some t then .ok { q with owner := some t, depth := q.depth + 1, calls := q.ends t } else .illegal
      | .val false => if (q.of t).due a = true ∧ q.owner ≠ some t then .ok { q with calls := q.ends t } else .illegal
      | _ => if !strict && (q.of t).extreme c a then .undefined else .illegal
  | .own _ _ => .illegal

end Verif.TimedLock
