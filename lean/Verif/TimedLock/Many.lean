import Verif.TimedLock.Model
import Verif.TimedLock.ManySpec
/-!
# Timed locks and their deadlines: any number of threads

The functions are those of `Verif.TimedLock.Model`; here they are run by any number of threads on one mutex (`is_locked`, `owner` and `count` of /repo/include/boost/thread/pthread/mutex.hpp 109, 232-251 and
recursive_mutex.hpp 228-231, 338-365; `active_count`, `locking_thread_id` and `recursion_count` of win32/basic_timed_mutex.hpp and basic_recursive_mutex.hpp 29-31).
-/

namespace Verif.TimedLock

structure Many where
  now : Int
  user : Int
  /-- who has the mutex, and how often -/
  owner : Option Nat
  depth : Nat
  pc : Nat → PC
  /-- some thread spins with `m` locked (pthread/mutex.hpp 235-244) -/
  stuck : Bool
  /-- an assertion has failed: the program has ended -/
  dead : Bool

def minit (now user : Int) : Many := { now, user, owner := none, depth := 0, pc := fun _ => .idle, stuck := false, dead := false }

inductive MLabel where
  | own (t : Nat) (l : Label)
  | tick (dn : Nat) (user : Int)
deriving DecidableEq, Repr

/-- What a thread does itself. -/
def Label.isOwn : Label → Bool
  | .call _ | .go | .unlock | .wake | .expire => true
  | _ => false

/-- The mutex as thread `t` finds it: `is_locked`, and whether it is locked by the thread itself. -/
def Many.view (s : Many) (t : Nat) : State :=
  { pc := s.pc t, now := s.now, user := s.user, mine := if s.owner = some t then s.depth else 0, other := decide (s.owner ≠ none ∧ s.owner ≠ some t) }

/-- Thread `t` has gone on to `s1`. -/
def Many.put (s : Many) (t : Nat) (s1 : State) : Many :=
  { s with pc := fun u => if u = t then s1.pc else s.pc u
           owner := if s1.mine = (s.view t).mine then s.owner else if s1.mine = 0 then none else some t
           depth := if s1.mine = (s.view t).mine then s.depth else s1.mine
           stuck := s.stuck || s1.pc == .spin
           dead := s.dead || s1.pc == .dead }

/-- The step needs `m` (pthread/mutex.hpp 115, 235, 238: the waits return with `m` locked). -/
def Many.needs (s : Many) (t : Nat) : Label → Bool
  | .unlock | .wake | .expire => true
  | .go => match s.pc t with
    | .enter _ _ | .expired _ | .winTry _ => true
    | _ => false
  | _ => false

def mstep (c : Cfg) (s : Many) : MLabel → Option (Many × List MEvent)
  | .own t l =>
    if l.isOwn = true ∧ s.dead = false ∧ (s.stuck && s.needs t l) = false then
      match step c (s.view t) l with
      | some (s1, es) => some (s.put t s1, es.map (.own t))
      | none => none
    else none
  | .tick dn user => if s.dead = false then some ({ s with now := s.now + dn, user := user }, [.clock (s.now + dn) user]) else none

end Verif.TimedLock
