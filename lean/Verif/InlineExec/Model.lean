import Verif.InlineExec.Spec
/-!
# Model of `include/boost/thread/executors/inline_executor.hpp`

Simplifications. `boost::mutex` is a flag with its owner (its own properties are C01 and its model is in TimedMutex); locking it when it is free does not
fail. The closure is abstract: while it is executed its thread may make any calls, and then it ends or throws. `try_executing_one` (42-45) and
`reschedule_until` (165-169), which return false and do nothing, are not modelled.
-/

namespace Verif.InlineExec

/-- The functions that lock the mutex: `submit` (125-158, three overloads with the same body), `close` (75-79), `close` called by the destructor (68),
`closed` (88-92). -/
inductive Op where
  | submit (c : Nat)
  | close
  | closeD
  | ask
deriving DecidableEq, Repr

inductive Res where
  /-- `submit` goes on to the closure -/
  | go
  /-- `sync_queue_is_closed` is thrown (129, 147) -/
  | refused
  | none
  | is (b : Bool)
deriving DecidableEq, Repr

/-- Where a thread is: in the user's code (outside, or in the innermost of its closures), before the constructor of `lock_guard`, before what follows, before
its destructor, before `closure()` (133, 151), before the end of `submit`. -/
inductive Pc where
  | idle
  | lock (op : Op)
  | act (op : Op)
  | unlock (op : Op) (r : Res)
  | start (c : Nat)
  | ret (c : Nat)
deriving DecidableEq, Repr

inductive Req where
  | submit | close | ask
deriving DecidableEq, Repr

/-- The executor: used, in the body of the destructor (68), its members being destroyed (69), gone. -/
inductive Phase where
  | alive
  | closing (w : Nat)
  | members (w : Nat)
  | gone
deriving DecidableEq, Repr

/-- The members (35, 36) and the threads: the closures that each one is executing, innermost first. -/
structure St where
  closed : Bool
  mtx : Option Nat := none
  phase : Phase := .alive
  nc : Nat := 0
  pc : Nat → Pc := fun _ => .idle
  stack : Nat → List Nat := fun _ => []
  dead : Bool := false

/-- The constructor (56-59). -/
def init : St := { closed := false }

inductive Label where
  | call (w : Nat) (r : Req)
  | lock (w : Nat)
  | act (w : Nat)
  | unlock (w : Nat)
  /-- the closure is called -/
  | start (w : Nat)
  /-- the innermost closure of `w` ends -/
  | finish (w : Nat)
  /-- it throws -/
  | throw (w : Nat)
  /-- `submit` returns -/
  | ret (w : Nat)
  | destroy (w : Nat)
  | destroyMutex
deriving DecidableEq, Repr

def St.goto (s : St) (w : Nat) (p : Pc) : St := { s with pc := upd s.pc w p }

/-- A function is called. -/
def stepCall (s : St) (w : Nat) : Req → St × List Event
  | .submit => ({ s.goto w (.lock (.submit s.nc)) with nc := s.nc + 1 }, [.submits w s.nc])
  | .close => (s.goto w (.lock .close), [.closes w])
  | .ask => (s.goto w (.lock .ask), [.asks w])

/-- What is done with the mutex locked: `submit` (129, 147), `close` (78), `closed` (86, 91). -/
def stepAct (s : St) (w : Nat) : Op → St
  | .submit c => if s.closed then s.goto w (.unlock (.submit c) .refused) else s.goto w (.unlock (.submit c) .go)
  | .close => { s.goto w (.unlock .close .none) with closed := true }
  | .closeD => { s.goto w (.unlock .closeD .none) with closed := true }
  | .ask => s.goto w (.unlock .ask (.is s.closed))

def after : Op → Res → Pc
  | .submit c, .go => .start c
  | _, _ => .idle

def returned (w : Nat) : Op → Res → List Event
  | .submit c, .refused => [.refused w c]
  | .close, _ => [.hasClosed w]
  | .ask, .is b => [.says w b]
  | _, _ => []

/-- The end of the body of the destructor (69). -/
def Phase.after (p : Phase) : Op → Phase
  | .closeD => match p with
    | .closing w => .members w
    | p => p
  | _ => p

/-- The destructor of `lock_guard` (79, 92, 130, 148). -/
def stepUnlock (s : St) (w : Nat) (op : Op) (r : Res) : St × List Event :=
  ({ s.goto w (after op r) with mtx := none, phase := s.phase.after op }, returned w op r)

def step (s : St) (l : Label) : Option (St × List Event) :=
  if s.dead then none
  else
    match l with
    | .call w r => if s.pc w = .idle then some (stepCall s w r) else none
    | .lock w =>
      match s.pc w with
      | .lock op =>
        if s.phase = .gone then some ({ s with dead := true }, [.broken w])
        else if s.mtx = none then some ({ s.goto w (.act op) with mtx := some w }, [])
        else none
      | _ => none
    | .act w =>
      match s.pc w with
      | .act op => some (stepAct s w op, [])
      | _ => none
    | .unlock w =>
      match s.pc w with
      | .unlock op r => some (stepUnlock s w op r)
      | _ => none
    -- 133, 151
    | .start w =>
      match s.pc w with
      | .start c => some ({ s.goto w .idle with stack := upd s.stack w (c :: s.stack w) }, [.began w c])
      | _ => none
    | .finish w =>
      if s.pc w = .idle then
        match s.stack w with
        | c :: rest => some ({ s.goto w (.ret c) with stack := upd s.stack w rest }, [.ended w c])
        | [] => none
      else none
    -- 135-139, 153-157
    | .throw w =>
      if s.pc w = .idle then
        match s.stack w with
        | c :: _ => some ({ s with dead := true }, [.threw w c])
        | [] => none
      else none
    -- 140, 158
    | .ret w =>
      match s.pc w with
      | .ret c => some (s.goto w .idle, [.accepted w c])
      | _ => none
    -- 65-69
    | .destroy w => if s.pc w = .idle then some ({ s.goto w (.lock .closeD) with phase := .closing w }, [.destroys w]) else none
    | .destroyMutex =>
      match s.phase with
      | .members w => if s.mtx = none then some ({ s with phase := .gone }, [.destroyed w]) else some ({ s with dead := true }, [.broken w])
      | _ => none

end Verif.InlineExec
