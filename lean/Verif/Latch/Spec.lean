import Verif.Latch.Model
/-! # What a latch is -/

namespace Verif.Latch

structure L where
  /-- how many more times it has to be counted down -/
  count : Nat
  /-- threads that wait for the count to reach zero -/
  waiting : List Nat
  /-- threads inside a wait during which the count has been zero -/
  released : List Nat
deriving DecidableEq, Repr

def L.new (count : Nat) : L := { count, waiting := [], released := [] }

/-- The count becomes `n`; at zero everybody is released. -/
def L.set (q : L) (n : Nat) : L :=
  if n = 0 then { count := 0, waiting := [], released := q.waiting ++ q.released } else { q with count := n }

def L.enter (q : L) (t : Nat) : L :=
  if q.count = 0 then { q with released := t :: q.released } else { q with waiting := t :: q.waiting }

/-- A waiter passes only if the count has been zero since it began, and reports a time-out only if it has not. Counting down below zero
is a misuse. -/
def specNext (q : L) : Event → Verdict L
  | .began t => .ok (q.enter t)
  | .counted _ => if q.count = 0 then .undefined else .ok (q.set (q.count - 1))
  | .countedAndWaits t =>
    if q.count = 0 then .undefined else .ok ({ q with waiting := t :: q.waiting }.set (q.count - 1))
  | .tryCounted _ b =>
    if b = decide (q.count ≤ 1) then .ok (if q.count = 0 then q else q.set (q.count - 1)) else .illegal
  | .tryWaited _ b => if b = decide (q.count = 0) then .ok q else .illegal
  | .passed t => if t ∈ q.released then .ok { q with released := q.released.erase t } else .illegal
  | .timedOut t => if t ∈ q.waiting ∧ t ∉ q.released then .ok { q with waiting := q.waiting.erase t } else .illegal
  | .interrupted t =>
    if t ∈ q.waiting ∨ t ∈ q.released then .ok { q with waiting := q.waiting.erase t, released := q.released.erase t } else .illegal
  | .reset _ n => .ok (q.set n)

/-- `reset(0)` -/
def Label.isResetToZero : Label → Bool
  | .reset _ 0 => true
  | _ => false

end Verif.Latch
