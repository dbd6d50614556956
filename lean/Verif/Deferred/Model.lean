import Verif.Deferred.Spec
/-!
# Model of a deferred future that threads ask about while its function runs

Models `/repo/include/boost/thread/future.hpp`: `wait_internal` (387-400), `run_if_is_deferred` (362-373, the same section), `timed_wait`, `timed_wait_until`, `wait_until` (415-450),
`has_value`, `has_exception`, `get_state` (487-531), `future_deferred_shared_state` for values (1044-1069), references (1070-1091) and `void` (1093-1118), `relocker` (121-149) and
`mark_finished_internal` (335-345).

* One shared state, any number of threads and calls. The mutex of the state is modelled as held only where a thread keeps it over more than one step: while the function of a future
  for a reference runs. Every other section is one step, which needs the mutex to be free. A thread that has to wait for the mutex stays where it is, even if it holds it itself.
* `S.ref` tells which of the specialisations is in use: 1070-1091, or 1044-1069 and 1093-1118, which differ from each other only in the type of the result.
* The function is anything that comes to an end by `fin`; meanwhile it may make calls on the same future.
* Not modelled: wait callbacks (`Verif.WaitCallback`; no callback can be set through a `future`), continuations (`Verif.Continuation`), interruption, exceptions from copying the result.
-/

namespace Verif.Deferred

/-- Where a thread is in a call. -/
inductive Fr where
  /-- about to lock the mutex -/
  | acq (op : Op)
  /-- in `get`, running the function (1060, 1084, 1109) -/
  | fn
  /-- in `get`, the function has ended; about to lock the mutex again: `relock.lock()` or the destructor of `relocker` (132-146, 1061, 1110) -/
  | relock (o : Out)
  /-- in `get`, waiting on `waiters` (395) -/
  | wait
  /-- in a timed wait, on `waiters` (422, 432, 445) -/
  | twait
deriving DecidableEq, Repr

/-- `is_deferred_`, `done` with the result (159-163), who has the mutex, and the calls each thread is in, the latest first. -/
structure S where
  ref : Bool
  deferred : Bool := true
  done : Option Out := none
  mtx : Option Nat := none
  stk : Nat → List Fr := fun _ => []

/-- The constructors (1049-1053, 1075-1079, 1098-1102). -/
def init (ref : Bool) : S := { ref := ref }

def S.put (s : S) (t : Nat) (l : List Fr) : S := { s with stk := fun u => if u = t then l else s.stk u }

inductive L where
  /-- thread `t` makes a call -/
  | call (t : Nat) (op : Op)
  /-- thread `t` goes on in its call -/
  | go (t : Nat)
  /-- the time of a timed wait of thread `t` is over -/
  | late (t : Nat)
  /-- the function, running in thread `t`, returns or throws -/
  | fin (t : Nat) (o : Out)
deriving DecidableEq, Repr

/-- The section of `wait_internal` up to the function or the wait (389-395). -/
def enterGet (s : S) (t : Nat) (rest : List Fr) : S × List E :=
  if s.deferred then
    -- 390-393; the lock is kept (1084) or released by `relocker` (1059, 1108)
    ({ s.put t (.fn :: rest) with deferred := false, mtx := if s.ref then some t else none }, [.began t])
  else
    match s.done with
    | some o => (s.put t rest, [.got t o])
    | none => (s.put t (.wait :: rest), [])

/-- The section of a timed wait up to the wait (417-422, 427-432, 441-445). -/
def enterTimed (s : S) (t : Nat) (rest : List Fr) : S × List E :=
  if s.deferred then (s.put t rest, [.status t .deferred])
  else if s.done.isSome then (s.put t rest, [.status t .ready])
  else (s.put t (.twait :: rest), [])

/-- One step of thread `t` in a call; it needs the mutex. -/
def go (s : S) (t : Nat) : Option (S × List E) :=
  if s.mtx ≠ none then none else
  match s.stk t with
  | .acq .get :: rest => some (enterGet s t rest)
  | .acq .ask :: rest => some (s.put t rest, [.told t s.done.isSome])   -- 487-531
  | .acq .timed :: rest => some (enterTimed s t rest)
  | .relock o :: rest => some ({ s.put t rest with done := some o }, [.got t o])   -- 1062, 1066, 1111, 1115 and 395-400
  | .wait :: rest => s.done.map fun o => (s.put t rest, [.got t o])
  | .twait :: rest => if s.done.isSome then some (s.put t rest, [.status t .ready]) else none
  | _ => none

def step (s : S) : L → Option (S × List E)
  | .call t op =>
    match s.stk t with
    | [] => some (s.put t [.acq op], [.call t op])
    | .fn :: rest => some (s.put t (.acq op :: .fn :: rest), [.call t op])
    | _ => none
  | .go t => go s t
  | .late t =>
    -- `wait_until` with a predicate returns what the predicate says in the end
    if s.mtx ≠ none then none else
    match s.stk t with
    | .twait :: rest => some (s.put t rest, [.status t (if s.done.isSome then .ready else .timeout)])
    | _ => none
  | .fin t o =>
    match s.stk t with
    | .fn :: rest =>
      -- 1084 and 1088 with the mutex still held, then 395-400; or 1060 and 1109
      if s.ref then some ({ s.put t rest with done := some o, mtx := none }, [.ended t o, .got t o])
      else some (s.put t (.relock o :: rest), [.ended t o])
    | _ => none

end Verif.Deferred
