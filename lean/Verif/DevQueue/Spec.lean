import Verif.DevQueue.Model
import Verif.SyncQueue.Spec
/-! # A FIFO queue whose contents may be taken out at once under a condition -/

namespace Verif.DevQueue
open SyncQueue (Event Queue specNext Discipline)
variable {V : Type} [DecidableEq V]

/-- A FIFO queue, and whether an element has been pulled since it was last empty. -/
structure Spec (V : Type) where
  queue : Queue V
  begun : Bool
deriving DecidableEq, Repr

def Spec.new (V : Type) : Spec V := { queue := .new V, begun := false }

/-- What the flag is after an event that leads to the queue `q`. -/
def begunAfter (b : Bool) (q : Queue V) : Event V → Bool
  | .pulled _ _ => !q.items.isEmpty
  | _ => b

/-- The events of a FIFO queue. When its contents are taken out although elements have been pulled since the queue was last empty, the contents are right, and nothing is said about what
follows. -/
def next (σ : Spec V) (e : Event V) : Verdict (Spec V) :=
  match specNext .fifo σ.queue e with
  | .ok q =>
    match e with
    | .taken _ _ => if σ.begun then .undefined else .ok { queue := q, begun := false }
    | e => .ok { queue := q, begun := begunAfter σ.begun q e }
  | .undefined => .undefined
  | .illegal => .illegal

end Verif.DevQueue
