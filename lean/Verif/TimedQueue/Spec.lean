import Verif.TimedQueue.Model
/-! # What a queue of elements with due times is -/

namespace Verif.TimedQueue

structure Queue (V : Type) where
  items : List (V × Int)
  closed : Bool
deriving DecidableEq, Repr

def Queue.new (V : Type) : Queue V := { items := [], closed := false }

variable {V : Type} [DecidableEq V]

/-- No element is due when the clock reads `now`. -/
def NothingDue (items : List (V × Int)) (now : Int) : Prop := ∀ x ∈ items, now < x.2

instance (items : List (V × Int)) (now : Int) : Decidable (NothingDue items now) := by unfold NothingDue; infer_instance

/-- Which events a timed queue allows. `ubOk` says what to think of undefined behaviour inside the library. -/
def specNext (ubOk : Bool) (q : Queue V) : Event V → Verdict (Queue V)
  | .pushed _ v due true => if q.closed then .illegal else .ok { q with items := q.items ++ [(v, due)] }
  | .pushed _ _ _ false => if q.closed then .ok q else .illegal
  -- a delivered element is in the queue, its time has come, and no element is due earlier
  | .pulled _ v due now =>
    if (v, due) ∈ q.items ∧ due ≤ now ∧ ∀ x ∈ q.items, due ≤ x.2 then .ok { q with items := q.items.erase (v, due) } else .illegal
  | .closedPull _ now => if q.closed = true ∧ NothingDue q.items now then .ok q else .illegal
  | .emptyPull _ _ => if q.closed = false ∧ q.items = [] then .ok q else .illegal
  | .notReadyPull _ now => if q.closed = false ∧ q.items ≠ [] ∧ NothingDue q.items now then .ok q else .illegal
  | .busyPull _ => .ok q
  -- a timed pull gives up only after its deadline, and only if nothing is due
  | .timedOut _ empty tp now late =>
    if q.closed = false ∧ tp ≤ late ∧ NothingDue q.items now ∧ (empty = true ↔ q.items = []) then .ok q else .illegal
  | .garbage _ => if ubOk then .undefined else .illegal
  | .closed _ => .ok { q with closed := true }
  | .closeReturned _ => if q.closed then .ok q else .illegal
  | .interrupted _ => .ok q

/-- Thread `t` is blocked in a pull and nothing has woken it. -/
def Asleep (s : State V) (t : Nat) : Prop :=
  (∃ k, s.ts[t]? = some (.asleepEmpty k)) ∨ ∃ k w, s.ts[t]? = some (.asleepTimed k w)

end Verif.TimedQueue
