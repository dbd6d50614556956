import Verif.BoundedQueue.Model
/-! # What a bounded closable queue is: a list of at most `cap` elements and a flag -/

namespace Verif.BoundedQueue

structure Queue (V : Type) where
  items : List V
  closed : Bool
deriving DecidableEq, Repr

def Queue.new (V : Type) : Queue V := { items := [], closed := false }

variable {V : Type} [DecidableEq V]

/-- Two points the documentation promises and the code does not keep; a specification with both flags off tolerates them. -/
structure Promises where
  /-- `size()` is the number of elements -/
  exactSize : Bool
  /-- `wait_push_back` reports a closed queue by its return value, never by an exception -/
  waitPushReturns : Bool

def Promises.all : Promises := { exactSize := true, waitPushReturns := true }
/-- `size()` may be one too small while the queue is neither empty nor full; `wait_push_back` may throw once closed. -/
def Promises.kept : Promises := { exactSize := false, waitPushReturns := false }

/-- Which events a queue of at most `cap` elements allows. -/
def specNext (p : Promises) (cap : Nat) (q : Queue V) : Event V → Verdict (Queue V)
  | .pushed _ v .success =>
    if q.closed = false ∧ q.items.length < cap then .ok { q with items := q.items ++ [v] } else .illegal
  | .waitPushed _ v .success =>
    if q.closed = false ∧ q.items.length < cap then .ok { q with items := q.items ++ [v] } else .illegal
  | .pushed _ _ .full => if q.closed = false ∧ q.items.length = cap then .ok q else .illegal
  | .pushed _ _ .closed => if q.closed then .ok q else .illegal
  | .pushed _ _ .threw => if q.closed then .ok q else .illegal
  | .pushed _ _ .busy => .ok q
  | .pushed _ _ .empty => .illegal
  | .waitPushed _ _ .closed => if q.closed then .ok q else .illegal
  | .waitPushed _ _ .threw => if q.closed ∧ p.waitPushReturns = false then .ok q else .illegal
  | .waitPushed _ _ _ => .illegal
  | .pulled _ v =>
    match q.items with
    | a :: rest => if a = v then .ok { q with items := rest } else .illegal
    | [] => .illegal
  | .noPull _ .empty => if q.items = [] ∧ q.closed = false then .ok q else .illegal
  | .noPull _ .closed => if q.items = [] ∧ q.closed = true then .ok q else .illegal
  | .noPull _ .threw => if q.items = [] ∧ q.closed = true then .ok q else .illegal
  | .noPull _ .busy => .ok q
  | .noPull _ _ => .illegal
  | .garbage _ => .illegal
  | .closed _ => .ok { q with closed := true }
  | .closeReturned _ => if q.closed then .ok q else .illegal
  | .sizeIs _ n =>
    if n = q.items.length ∨ (p.exactSize = false ∧ n + 1 = q.items.length ∧ q.items.length < cap) then .ok q else .illegal
  | .capacityIs _ n => if n = cap then .ok q else .illegal
  | .emptyIs _ b => if b = q.items.isEmpty then .ok q else .illegal
  | .fullIs _ b => if b = decide (q.items.length = cap) then .ok q else .illegal
  | .closedIs _ b => if b = q.closed then .ok q else .illegal
  | .interrupted _ => .ok q

/-- Consumer `t` is blocked in a pull and nothing has woken it. -/
def AsleepE (s : State V) (t : Nat) : Prop := ∃ k, s.ts[t]? = some (.asleepE k)
/-- Producer `t` is blocked in a push of `v` and nothing has woken it. -/
def AsleepF (s : State V) (t : Nat) : Prop := ∃ k v, s.ts[t]? = some (.asleepF k v)

/-- A step of a thread that is already inside a call: it continues after its wait, or delivers a notification it owes. -/
def Label.isInside : Label V → Bool
  | .resume _ => true
  | .notify _ _ => true
  | _ => false

/-- A thread is interrupted between the end of its wait and its return. -/
def Label.isInterruptLate : Label V → Bool
  | .interruptLate _ => true
  | _ => false

end Verif.BoundedQueue
