import Verif.SyncQueue.Model
/-! # What a closable queue is: a list of elements and a flag -/

namespace Verif.SyncQueue

/-- The abstract queue. -/
structure Queue (V : Type) where
  items : List V
  closed : Bool
deriving DecidableEq, Repr

variable {V : Type} [DecidableEq V]

/-- An order discipline: what remains when `v` is handed out (`none` if `v` is not due), and what the whole contents may look
like when taken out at once. -/
structure Discipline (V : Type) where
  remove : List V → V → Option (List V)
  contents : List V → List V → Bool

/-- First in, first out. -/
def Discipline.fifo : Discipline V where
  remove
    | a :: rest, v => if a = v then some rest else none
    | [], _ => none
  contents a b := a == b

/-- A greatest element first. -/
def Discipline.priority (less : V → V → Bool) : Discipline V where
  remove l v := if v ∈ l ∧ ∀ w ∈ l, less v w = false then some (l.erase v) else none
  contents a b := a.isPerm b

/-- Which events a closable queue allows. -/
def specNext (d : Discipline V) (q : Queue V) : Event V → Verdict (Queue V)
  -- a push succeeds exactly when the queue is open
  | .pushed _ v .success => if q.closed then .illegal else .ok { q with items := q.items ++ [v] }
  | .pushed _ _ .closed => if q.closed then .ok q else .illegal
  | .pushed _ _ .busy => .ok q
  | .pushed _ _ _ => .illegal
  -- a pull hands out an element that is in the queue and due
  | .pulled _ v =>
    match d.remove q.items v with
    | some rest => .ok { q with items := rest }
    | none => .illegal
  -- `empty` exactly when empty and open, `closed` exactly when empty and closed
  | .noPull _ .empty => if q.items = [] ∧ q.closed = false then .ok q else .illegal
  | .noPull _ .closed => if q.items = [] ∧ q.closed = true then .ok q else .illegal
  | .noPull _ .timeout => if q.items = [] ∧ q.closed = false then .ok q else .illegal
  | .noPull _ .busy => .ok q
  | .noPull _ .success => .illegal
  | .closed _ => .ok { q with closed := true }
  | .closeReturned _ => if q.closed then .ok q else .illegal
  -- observers tell the truth
  | .sizeIs _ n => if n = q.items.length then .ok q else .illegal
  | .emptyIs _ b => if b = q.items.isEmpty then .ok q else .illegal
  | .closedIs _ b => if b = q.closed then .ok q else .illegal
  | .fullIs _ b => if b then .illegal else .ok q
  | .taken _ vs => if d.contents vs q.items then .ok { q with items := [] } else .illegal
  | .interrupted _ => .ok q

/-- The empty, open queue. -/
def Queue.new (V : Type) : Queue V := { items := [], closed := false }

/-- Thread `t` is blocked in a pull and nothing has woken it. -/
def Asleep (s : State V) (t : Nat) : Prop := ∃ k, s.ts[t]? = some (.asleep k)

/-- Thread `t` is inside a blocking pull, asleep or on its way out. -/
def InPull (s : State V) (t : Nat) : Prop :=
  Asleep s t ∨ (∃ k, s.ts[t]? = some (.woken k)) ∨ s.ts[t]? = some .expired

end Verif.SyncQueue
