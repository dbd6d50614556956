import Verif.V2Mutex.Spec
/-!
# Waiting writers hold off new readers, for the v2 mutexes

The specification of `Verif.V2Mutex` (who owns what), and on top of it the writers that hold off others. As long as there is one of them, nobody is given shared or upgrade ownership; so the owners
there are leave one after the other, and the writer is not starved.

`full = true`: every waiting request for exclusive ownership holds off others, until it ends or the mutex is free. `full = false`: weaker in that only a request that finds neither a writer, nor an
upgrade owner, nor another waiting writer holds off others (and a conversion of the upgrade owner); stronger in that it does so until it ends, even if the mutex is free.
-/

namespace Verif.V2Fair
open V2Mutex

structure Gate where
  own : Own := free
  /-- who holds off others -/
  waiting : List Nat := []

def isFree (o : Own) : Bool := o.readers.isEmpty && o.upgrader.isNone && o.writer.isNone

/-- Somebody who did not own it is given shared or upgrade ownership. -/
def admits : Event → Bool
  | .granted _ .shared | .granted _ .upgrade | .granted _ .sharedToUpgrade => true
  | .tried _ .shared r => r
  | .tried _ .upgrade r => r
  | .tried _ .sharedToUpgrade r => r
  | _ => false

/-- Nobody stands between the caller and the readers it waits for: no writer, no other waiting writer, and no upgrade owner but the caller; and no earlier timed conversion or interruption has
left the mutex in disorder. -/
def nextInLine (o : Own) (t : Nat) (op : Op) : Bool :=
  o.writer.isNone && o.pending.isEmpty && (o.upgrader.isNone || (op == .upgradeToExclusive && o.upgrader == some t)) && !o.disturbed

/-- Who holds off others after the event. -/
def after (full : Bool) (o : Own) (w : List Nat) : Event → List Nat
  | .blocked t op => if op.exclusive && (full || nextInLine o t op) then t :: w else w
  | .granted t _ | .timedOut t _ | .threw t _ => w.filter (· != t)
  | .down _ .exclusiveToShared => if full then [] else w
  | .down _ .exclusiveToUpgrade => if full then [] else w
  | _ => w

def next (full : Bool) (lim : Nat) (g : Gate) (e : Event) : Verdict Gate :=
  match V2Mutex.next lim g.own e with
  | .illegal => .illegal
  | .undefined => .undefined
  | .ok o => if admits e && !g.waiting.isEmpty then .illegal else .ok { own := o, waiting := if full && isFree o then [] else after full g.own g.waiting e }

end Verif.V2Fair
