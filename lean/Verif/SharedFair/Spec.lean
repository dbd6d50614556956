import Verif.SharedMutex.Spec
/-!
# Waiting writers hold off new readers

The specification of `Verif.SharedMutex` (who owns what), and on top of it: the writers that have been waiting since the mutex was last free. As long as there is one of them, nobody else is given
shared or upgrade ownership; so the owners there are leave one after the other, and the writer is not starved.

`full = false`: weaker, the gate also opens when a timed `lock` gives up (whoever else is waiting) and when an upgrade owner becomes a shared owner.
-/

namespace Verif.SharedFair
open SharedMutex

structure Gate where
  own : Own := free
  /-- the writers that began to wait after the mutex was last free, or last had a writer that made room for readers, and still wait -/
  waiting : List Nat := []

def isFree (o : Own) : Bool := o.readers.isEmpty && o.upgrader.isNone && o.writer.isNone

/-- Somebody who owned nothing is given shared or upgrade ownership. -/
def admits : Event → Bool
  | .granted _ .shared | .granted _ .upgrade => true
  | .tried _ .shared r => r
  | .tried _ .upgrade r => r
  | _ => false

/-- Who waits after the event. -/
def after (full : Bool) (w : List Nat) : Event → List Nat
  | .blocked t .exclusive => t :: w
  | .granted t .exclusive => w.erase t
  | .timedOut t .exclusive => if full then w.erase t else []
  -- a writer makes room for readers
  | .downgraded _ .exclusiveToShared => []
  | .downgraded _ .exclusiveToUpgrade => []
  | .downgraded _ .upgradeToShared => if full then w else []
  | _ => w

def next (full : Bool) (g : Gate) (e : Event) : Verdict Gate :=
  match specNext g.own e with
  | .illegal => .illegal
  | .undefined => .undefined
  | .ok o => if admits e && !g.waiting.isEmpty then .illegal else .ok { own := o, waiting := if isFree o then [] else after full g.waiting e }

end Verif.SharedFair
