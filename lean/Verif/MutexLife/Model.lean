import Verif.MutexLife.Spec
/-!
# Model of the POSIX mutexes as objects that are destroyed

Models, operation by operation on their members, `/repo/include/boost/thread/pthread/mutex.hpp` (`timed_mutex`, 204-253, with a condition variable), `pthread/recursive_mutex.hpp`
(`recursive_mutex`, 130-175, and `recursive_timed_mutex`, 298-365), `pthread/shared_mutex.hpp` (160-566) and `v2/shared_mutex.hpp` (`shared_mutex` and `upgrade_mutex`). They are monitors: every function locks the
member mutex (`m`, `state_change`, `mut_`), uses the other members, and unlocks it at the end. One label is one operation on a member.

* When a lock is given to a thread is left open here within the limits of exclusion: the schedule decides (`grant`, `sleep`, `refuse`); the exact conditions are those of
  `Verif.TimedMutex`, `RecursiveMutex`, `SharedMutex` and `V2Mutex`.
* `pthread_mutex_unlock` is one operation: POSIX allows the mutex to be destroyed as soon as it is unlocked. So `mutex` itself, and the timed mutexes over
  `pthread_mutex_timedlock`, whose functions are one such call each, need no model.
* Not modelled: the conversions between ownerships (the calling thread owns the mutex all the time, which forbids the destruction), exceptions.
-/

namespace Verif.MutexLife

inductive Kind where
  | timed
  | recursive
  | sharedV1
  | sharedV2
deriving DecidableEq, Repr

def Kind.recur : Kind → Bool
  | .recursive => true
  | _ => false

/-- An operation on the members in a function that unlocks. -/
inductive Micro where
  /-- lock the member mutex -/
  | enter
  /-- the state of the mutex is changed -/
  | update
  /-- a condition variable is notified -/
  | notify
  /-- unlock the member mutex -/
  | leave
deriving DecidableEq, Repr

/-- The functions that unlock: mutex.hpp 214-219; recursive_mutex.hpp 148-156, 316-324; pthread/shared_mutex.hpp 241-264, 349-357, 437-448 with `release_waiters` 150-154;
v2/shared_mutex.hpp 337-346, 407-425, 715-725, 786-803, 864-876. `last`: the branch in which waiting threads are notified; `up`: the one with `upgrade_cond` as well. -/
def unlockProg (k : Kind) (m : Mode) (last up : Bool) : List Micro :=
  match k with
  | .timed => [.enter, .update, .notify, .leave]
  | .recursive => [.enter, .update, .notify, .leave]
  | .sharedV1 =>
    match m with
    | .exclusive => [.enter, .update, .notify, .notify, .leave]
    | .shared =>
      if last then
        if up then [.enter, .update, .notify, .notify, .notify, .leave]
        else [.enter, .update, .notify, .notify, .leave]
      else [.enter, .update, .leave]
    | .upgrade => if last then [.enter, .update, .notify, .notify, .leave] else [.enter, .update, .notify, .leave]
  | .sharedV2 =>
    match m with
    | .shared => if last then [.enter, .update, .notify, .leave] else [.enter, .update, .leave]
    | _ => [.enter, .update, .notify, .leave]

inductive Stage where
  /-- about to lock the member mutex -/
  | enter
  /-- has locked it -/
  | inside
  /-- waits at a condition variable -/
  | asleep
  /-- about to unlock the member mutex; the result -/
  | leave (b : Bool)
  /-- about to return -/
  | ret (b : Bool)
deriving DecidableEq, Repr

inductive PC where
  | out
  | locking (m : Mode) (st : Stage)
  | unlocking (todo : List Micro)
deriving DecidableEq, Repr

structure State where
  /-- who has locked the member mutex -/
  mtx : Option Nat
  /-- who owns the mutex, as its members have it -/
  held : Nat → Own
  pc : Nat → PC
  dead : Bool

def init : State := ⟨none, fun _ => none, fun _ => .out, false⟩

inductive Label where
  | call (t : Nat) (m : Mode)
  | unlock (t : Nat) (last up : Bool)
  /-- the next operation -/
  | go (t : Nat)
  /-- inside: the lock is taken, the thread goes to sleep, or gives up -/
  | grant (t : Nat)
  | sleep (t : Nat)
  | refuse (t : Nat)
  /-- a timed function that has given up tries again (the loops of mutex.hpp 259-270, 285-292 and their like) -/
  | again (t : Nat)
  | destroy
deriving DecidableEq, Repr

def State.at (s : State) (t : Nat) (p : PC) : State := { s with pc := upd s.pc t p }

/-- Another thread owns the mutex in a way that excludes `m`. -/
def barred (n : Nat) (s : State) (t : Nat) (m : Mode) : Bool :=
  (List.range n).any fun u => decide (u ≠ t) && match s.held u with
    | some (m', _) => conflict m m'
    | none => false

/-- The change of state in a function that unlocks. -/
def give (h : Own) : Own :=
  match h with
  | some (m, d) => drop m d
  | none => none

/-- One operation on a member in a function that unlocks. -/
def micro (s : State) (t : Nat) (r : List Micro) : Micro → Option State
  | .enter => if s.mtx = none then some { s.at t (.unlocking r) with mtx := some t } else none
  | .update => some { s.at t (.unlocking r) with held := upd s.held t (give (s.held t)) }
  | .notify => some (s.at t (.unlocking r))
  | .leave => some { s.at t (.unlocking r) with mtx := none }

/-- One operation on a member, or a return. -/
def goStep (s : State) (t : Nat) : Option (State × List Event) :=
  match s.pc t with
  | .out => none
  | .locking m .enter =>
    if s.dead then some (s, [.stale])
    else if s.mtx = none then some ({ s.at t (.locking m .inside) with mtx := some t }, []) else none
  | .locking _ .inside => none
  | .locking m .asleep =>
    if s.dead then some (s, [.stale])
    else if s.mtx = none then some ({ s.at t (.locking m .inside) with mtx := some t }, []) else none
  | .locking m (.leave b) =>
    if s.dead then some (s, [.stale]) else some ({ s.at t (.locking m (.ret b)) with mtx := none }, [])
  | .locking _ (.ret b) => some (s.at t .out, [.owned t b])
  | .unlocking [] => some (s.at t .out, [.done t])
  | .unlocking (x :: r) => if s.dead then some (s, [.stale]) else (micro s t r x).map fun s' => (s', [])

def step (k : Kind) (n : Nat) (s : State) : Label → Option (State × List Event)
  | .call t m => if t < n ∧ s.pc t = .out then some (s.at t (.locking m .enter), [.call t m]) else none
  | .unlock t last up =>
    if t < n ∧ s.pc t = .out then
      match s.held t with
      | some (m, _) => some (s.at t (.unlocking (unlockProg k m last up)), [.callUnlock t])
      | none => some (s, [.callUnlock t])
    else none
  | .go t => goStep s t
  | .grant t =>
    match s.pc t with
    | .locking m .inside =>
      if s.dead then some (s, [.stale])
      else if barred n s t m || !MutexLife.again k.recur (s.held t) m then none
      else some ({ s.at t (.locking m (.leave true)) with held := upd s.held t (bump (s.held t) m) }, [])
    | _ => none
  | .sleep t =>
    match s.pc t with
    | .locking m .inside => if s.dead then some (s, [.stale]) else some ({ s.at t (.locking m .asleep) with mtx := none }, [])
    | _ => none
  | .refuse t =>
    match s.pc t with
    | .locking m .inside => if s.dead then some (s, [.stale]) else some (s.at t (.locking m (.leave false)), [])
    | _ => none
  | .again t =>
    match s.pc t with
    | .locking m (.ret false) => some (s.at t (.locking m .enter), [])
    | _ => none
  | .destroy => some ({ s with dead := true }, [.destroyed])

end Verif.MutexLife
