import Verif.Barrier.Model
/-! # What a barrier is -/

namespace Verif.Barrier

structure Bar where
  /-- how many calls make up the current generation -/
  size : Nat
  /-- how many calls have arrived in the current generation -/
  arrived : Nat
  /-- the threads of the current generation that are waiting -/
  waiting : List Nat
  /-- threads of completed generations that have not returned yet, to report `false` -/
  released : List Nat
  /-- threads that completed a generation and have not returned yet, to report `true` -/
  elected : List Nat
  /-- the completion function has thrown: nothing is promised to later arrivals -/
  broken : Bool
deriving DecidableEq, Repr

def Bar.new (size : Nat) : Bar := { size, arrived := 0, waiting := [], released := [], elected := [], broken := false }

/-- A generation ends when all have arrived, by one call of the completion function made by the last to arrive; the others of that
generation, and only they, may then report `false`, and the caller of the completion function `true`. A function returning a zero size
breaks its contract. -/
def specNext (b : Bar) : Event → Verdict Bar
  | .arrived t =>
    if b.broken then .undefined
    else if b.arrived < b.size then .ok { b with arrived := b.arrived + 1, waiting := t :: b.waiting } else .illegal
  | .completed t m =>
    if b.arrived = b.size ∧ b.waiting.head? = some t then
      if m = 0 then .undefined
      else .ok { b with size := m, arrived := 0, waiting := [], released := b.waiting.tail ++ b.released, elected := t :: b.elected }
    else .illegal
  | .threw t =>
    if b.arrived = b.size ∧ b.waiting.head? = some t then
      .ok { b with waiting := [], released := b.waiting.tail ++ b.released, broken := true }
    else .illegal
  | .returned t true => if t ∈ b.elected then .ok { b with elected := b.elected.erase t } else .illegal
  | .returned t false => if t ∈ b.released then .ok { b with released := b.released.erase t } else .illegal
  | .interrupted t =>
    if t ∈ b.waiting ∨ t ∈ b.released then .ok { b with waiting := b.waiting.erase t, released := b.released.erase t } else .illegal

/-- Completed generations. -/
def generations (es : List Event) : Nat :=
  es.countP fun e => match e with
    | .completed _ _ => true
    | .threw _ => true
    | _ => false

/-- Steps inside the library. -/
def Label.isInternal : Label → Bool
  | .notify _ => true
  | .resume _ => true
  | _ => false

end Verif.Barrier
