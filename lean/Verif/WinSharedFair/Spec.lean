import Verif.WinSharedMutex.Spec
/-!
# Waiting writers hold off new readers, on Windows

The specification of `Verif.WinSharedMutex` (who owns what), and on top of it: the writers that have been waiting since the mutex was last free. As long as there is one of them, nobody else is given
shared or upgrade ownership; so the owners there are leave one after the other, and the writer is not starved. The reading is that of `Verif.SharedFair`, for the other platform.

`full = false`: weaker, the gate also opens when a writer that had been waiting since before the mutex was last free gives up, and when an upgrade owner becomes a shared owner.
-/

namespace Verif.WinSharedFair
open WinSharedMutex

structure Gate where
  own : Own := free
  /-- the writers that began to wait after the mutex was last free, or last had a writer that made room for readers, and still wait -/
  waiting : List Nat := []
deriving DecidableEq, Repr

/-- Somebody who owned nothing is given shared or upgrade ownership. -/
def admits : Event → Bool
  | .granted _ .shared | .granted _ .upgrade => true
  | _ => false

/-- Who waits after the event. -/
def after (full : Bool) (w : List Nat) : Event → List Nat
  | .blocked t .lock => t :: w
  | .granted t .lock => w.erase t
  | .timedOut t .lock => if full || w.contains t then w.erase t else []
  -- a writer makes room for readers
  | .down _ .exclusiveToShared => []
  | .down _ .exclusiveToUpgrade => []
  | .down _ .upgradeToShared => if full then w else []
  | _ => w

def next (full : Bool) (g : Gate) (e : Event) : Verdict Gate :=
  match WinSharedMutex.next g.own e with
  | .illegal => .illegal
  | .undefined => .undefined
  | .ok o => if admits e && !g.waiting.isEmpty then .illegal else .ok { own := o, waiting := if o.owned then after full g.waiting e else [] }

end Verif.WinSharedFair
