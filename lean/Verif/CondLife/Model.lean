import Verif.CondLife.Spec
import Verif.CondVar.Model
import Verif.WinCondVar.Model
/-!
# Models of condition variables that can be destroyed

* `Plain`: POSIX without `BOOST_THREAD_PROVIDES_INTERRUPTIONS`: /repo/include/boost/thread/pthread/condition_variable.hpp 83-84, 126-127, 144-158 (`condition_variable`, `any = false`), 196-201, 438-448, 471-476
  (`condition_variable_any`, `any = true`).
* `Posix`: POSIX with interruption, both classes: the model of `Verif.CondVar`, which has the steps of 64-158, 187-210, 438-490, of `interruption_checker` (thread_data.hpp 186-245) and of `thread::interrupt`
  (src/pthread/thread.cpp 589-602), with destruction added.
* `Win`: Windows, both classes: the model of `Verif.WinCondVar` (win32/condition_variable.hpp 45-319), with destruction added.

In each the destructor may be called at any time; whether it may be is said by the specification. A step that uses a member of a condition variable that has been destroyed gives the event `stale` instead
of what it would do. On POSIX a thread that has been woken is no longer blocked on the `pthread_cond_t`, which may be destroyed then (IEEE Std 1003.1, pthread_cond_destroy).
-/

namespace Verif.CondLife

namespace Plain

inductive PC where
  | idle
  /-- before `pthread_mutex_lock(&internal_mutex)` (196, 471) -/
  | p1 (c m : Nat)
  /-- before `guard.activate(m)` (198, 473); holds `internal_mutex` -/
  | p2 (c m : Nat)
  /-- before `pthread_cond_wait` (199, 474); holds `internal_mutex` -/
  | p3 (c m : Nat)
  | asleep (c m : Nat)
  /-- woken; has to reacquire `internal_mutex`, and releases it again (199-200, 474-475) -/
  | woke (c m : Nat)
  /-- has to reacquire the mutex of the user -/
  | relock (m : Nat)
deriving DecidableEq, Repr

structure State where
  ts : List PC
  /-- owner of `internal_mutex` of a condition variable between steps -/
  im : Nat → Option Nat
  /-- owner of a mutex of the user -/
  mx : Nat → Option Nat
  dead : Nat → Bool

def init (n : Nat) : State := { ts := List.replicate n .idle, im := fun _ => none, mx := fun _ => none, dead := fun _ => false }

inductive Label where
  | lock (t m : Nat)
  | unlock (t m : Nat)
  | wait (t c m : Nat)
  | go (t : Nat)
  /-- a spurious wake-up, or a time-out -/
  | wake (t : Nat)
  | notifyOne (t c : Nat) (w : Option Nat)
  | notifyAll (t c : Nat)
  | destroy (c : Nat)
deriving DecidableEq, Repr

def asleepOn (c : Nat) : PC → Bool
  | .asleep c' _ => c' == c
  | _ => false

/-- What is left to do after `pthread_cond_wait` has been woken: it reacquires the mutex it has been given, `internal_mutex` (199, 474) or that of the user (84, 127). -/
def woken (any : Bool) : PC → PC
  | .asleep c m => if any then .woke c m else .relock m
  | p => p

/-- The condition variable of which the next step of the thread uses a member. -/
def touches : PC → Option Nat
  | .p1 c _ => some c
  | .p3 c _ => some c
  | .woke c _ => some c
  | _ => none

def set (s : State) (t : Nat) (p : PC) : State := { s with ts := s.ts.set t p }

def go (s : State) (t : Nat) : PC → Option (State × List Event)
  | .p1 c m => if s.im c = none then some ({ set s t (.p2 c m) with im := upd s.im c (some t) }, []) else none
  | .p2 c m => some ({ set s t (.p3 c m) with mx := upd s.mx m none }, [.released t])
  | .p3 c m => some ({ set s t (.asleep c m) with im := upd s.im c none }, [])
  | .woke c m => if s.im c = none then some (set s t (.relock m), []) else none
  | .relock m => if s.mx m = none then some ({ set s t .idle with mx := upd s.mx m (some t) }, [.back t]) else none
  | _ => none

def step (any : Bool) (s : State) : Label → Option (State × List Event)
  | .lock t m => if s.ts[t]? = some .idle ∧ s.mx m = none then some ({ s with mx := upd s.mx m (some t) }, []) else none
  | .unlock t m => if s.ts[t]? = some .idle ∧ s.mx m = some t then some ({ s with mx := upd s.mx m none }, []) else none
  | .wait t c m =>
    if s.ts[t]? = some .idle ∧ s.mx m = some t then
      if any then some (set s t (.p1 c m), [.called t c])
      else some ({ set s t (.asleep c m) with mx := upd s.mx m none }, [.called t c, .released t])     -- 83-84, 126-127
    else none
  | .go t =>
    match s.ts[t]? with
    | some p =>
      match touches p with
      | some c => if s.dead c then some (s, [.stale c]) else go s t p
      | none => go s t p
    | none => none
  | .wake t =>
    match s.ts[t]? with
    | some (.asleep c m) => some (set s t (woken any (.asleep c m)), [.woken t])
    | _ => none
  | .notifyOne t c w =>                                                    -- 144-150, 438-442
    if s.ts[t]? = some .idle ∧ (any = true → s.im c = none) then
      match w with
      | none => if s.ts.all (fun p => !asleepOn c p) then some (s, [.notify t c, .notified t]) else none
      | some v =>
        match s.ts[v]? with
        | some p => if asleepOn c p then some (set s v (woken any p), [.notify t c, .woken v, .notified t]) else none
        | none => none
    else none
  | .notifyAll t c =>                                                      -- 152-158, 444-448
    if s.ts[t]? = some .idle ∧ (any = true → s.im c = none) then
      some ({ s with ts := s.ts.map (fun p => if asleepOn c p then woken any p else p) },
        .notify t c :: (((List.range s.ts.length).filter (fun u => (s.ts[u]?).any (asleepOn c))).map .woken ++ [.notified t]))
    else none
  | .destroy c => some ({ s with dead := upd s.dead c true }, [.destroyed c])     -- condition_variable_fwd.hpp 77-85, condition_variable.hpp 181-185

end Plain

namespace Posix

structure State where
  base : CondVar.State
  dead : Nat → Bool

def init (n : Nat) : State := { base := CondVar.init n, dead := fun _ => false }

inductive Label where
  | base (l : CondVar.Label)
  | destroy (c : Nat)
deriving DecidableEq, Repr

/-- The condition variable of which the next step of the thread uses a member: `internal_mutex` (thread_data.hpp 216, 220, 228, 235; thread.cpp 598), `cond` (condition_variable.hpp 79, 122; thread.cpp 599). -/
def touches : CondVar.PC → Option Nat
  | .w1 c _ _ _ => some c
  | .w3 c _ _ _ => some c
  | .woke c _ _ _ => some c
  | .i1 _ c => some c
  | _ => none

/-- The threads that wait on `c`. -/
def waiters (s : CondVar.State) (c : Nat) : List Nat := (List.range s.ts.length).filter (fun u => (s.ts[u]?).any (CondVar.asleepOn c))

/-- What the client sees of an event of the base model. -/
def sees (s : CondVar.State) : CondVar.Event → List Event
  | .waitBegan t _ _ _ => [.released t]
  | .notifiedOne t c none => [.notify t c, .notified t]
  | .notifiedOne t c (some v) => [.notify t c, .woken v, .notified t]
  | .notifiedAll t c => .notify t c :: ((waiters s c).map .woken ++ [.notified t])
  | .spurious t => [.woken t]
  | .timedOut t => [.woken t]
  | .broadcast c => (waiters s c).map .woken
  | .relocked t _ => [.back t]
  | .interrupted t =>
    match s.ts[t]? with
    | some x =>
      match x.pc with
      | .w0 _ _ _ _ => [.back t]
      | _ => []
    | none => []
  | _ => []

def calls : CondVar.Label → List Event
  | .wait t c _ _ => [.called t c]
  | _ => []

def touched (s : CondVar.State) : CondVar.Label → Option Nat
  | .go t =>
    match s.ts[t]? with
    | some x => touches x.pc
    | none => none
  | _ => none

def proceed (s : State) (l : CondVar.Label) : Option (State × List Event) :=
  match CondVar.step s.base l with
  | some (b, es) => some ({ s with base := b }, calls l ++ es.flatMap (sees s.base))
  | none => none

def step (s : State) : Label → Option (State × List Event)
  | .base l =>
    match touched s.base l with
    | some c => if s.dead c then some (s, [.stale c]) else proceed s l
    | none => proceed s l
  | .destroy c => some ({ s with dead := upd s.dead c true }, [.destroyed c])     -- condition_variable_fwd.hpp 77-85, condition_variable.hpp 181-185

end Posix

namespace Win

structure State where
  base : WinCondVar.State
  dead : Bool

def init (n : Nat) : State := { base := WinCondVar.init n, dead := false }

inductive Label where
  | base (l : WinCondVar.Label)
  | destroy
deriving DecidableEq, Repr

/-- The next step of the thread uses a member: `internal_mutex` (220, 282, 303), `total_count`, `generations`, `wake_sem`. The entry, with the semaphores a waiting thread uses, is kept by the thread (203, 259). -/
def touches : WinCondVar.PC → Bool
  | .remove _ _ => true
  | .acting _ => true
  | _ => false

def touched (s : WinCondVar.State) : WinCondVar.Label → Bool
  | .remove t | .act t =>
    match s.ts[t]? with
    | some x => touches x.pc
    | none => false
  | _ => false

def waits : WinCondVar.PC → Bool
  | .sem _ => true
  | .try_ _ => true
  | _ => false

/-- The threads that wait. -/
def waiters (s : WinCondVar.State) : List Nat := (List.range s.ts.length).filter (fun u => (s.ts[u]?).any (fun x => waits x.pc))

/-- What the client sees of a step of the base model. There is one condition variable, number 0. -/
def sees (s : WinCondVar.State) : WinCondVar.Label → WinCondVar.Event → List Event
  | _, .entered t _ => [.called t 0]
  | _, .released t => [.released t]
  | .act _, .notify t all posted => (if all && posted then (waiters s).map .woken else []) ++ [.notified t]
  | _, .notify t _ _ => [.notify t 0, .notified t]
  | _, .woke t => [.woken t]
  | _, .returned t _ => [.back t]
  | _, _ => []

/-- Steps of the base model without an event that the client sees: a time-out, an interruption, the beginning of a notification. -/
def silent (s : WinCondVar.State) : WinCondVar.Label → List Event
  | .timeout t | .interrupt t => [.woken t]
  | .notify t _ => if s.total = 0 then [] else [.notify t 0]
  | _ => []

def step (M : Nat) (s : State) : Label → Option (State × List Event)
  | .base l =>
    if s.dead && touched s.base l then some (s, [.stale 0])
    else
      match WinCondVar.step M s.base l with
      | some (b, es) => some ({ s with base := b }, silent s.base l ++ es.flatMap (sees s.base l))
      | none => none
  | .destroy => some ({ s with dead := true }, [.destroyed 0])             -- 249-250

end Win

end Verif.CondLife
