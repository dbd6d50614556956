import Verif.CompletionLatch.Model
/-! # What a completion latch is -/

namespace Verif.CompletionLatch

structure L where
  count : Nat
  /-- the completion function -/
  fct : Nat
  /-- the thread that counted to zero, until it has called the completion function -/
  arriver : Option Nat
deriving DecidableEq, Repr

def L.new (count fct : Nat) : L := { count, fct, arriver := none }

/-- The thread that counts to zero, and only it, calls the completion function, once. A wait succeeds only while the count is zero and fails only
while it is not. Counting below zero, and `reset` or `then` before the completion function has been called, are misuses. -/
def specNext (q : L) : Event → Verdict L
  | .counted t =>
    if q.count = 0 then .undefined
    else .ok { q with count := q.count - 1, arriver := if q.count = 1 then some t else q.arriver }
  | .completion t f => if q.arriver = some t ∧ f = q.fct then .ok { q with arriver := none } else .illegal
  | .passed _ => if q.count = 0 then .ok q else .illegal
  | .failed _ => if q.count ≠ 0 then .ok q else .illegal
  | .interrupted _ => .ok q
  | .reset _ n => if q.arriver = none then .ok { q with count := n } else .undefined
  | .then_ _ f old => if q.arriver = none then (if old = q.fct then .ok { q with fct := f } else .illegal) else .undefined

def Label.isInterrupt : Label → Bool
  | .interrupt _ => true
  | _ => false

/-- Steps of threads that are inside a call. -/
def Label.isInternal : Label → Bool
  | .resume _ => true
  | .complete _ => true
  | _ => false

end Verif.CompletionLatch
