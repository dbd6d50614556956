import Verif.ThreadExec.Spec
/-!
# Model of `thread_executor`

include/boost/thread/executors/thread_executor.hpp. `submit` has three overloads with the same body (116-142).

* A mutex that can be locked by one thread at a time; locking, the body and unlocking are separate steps.
* The members are destroyed in the reverse order of their declaration (38-42): `mtx_` first, then `threads_`, whose scoped threads are joined
  (scoped_thread.hpp 194-203, with interruption disabled; C50).
* The destructor is called by a thread that is not one of the executor's.
-/

namespace Verif.ThreadExec

inductive Op where
  | submit (c : Nat)
  | close
  /-- `close` called by the destructor -/
  | closeD
  | ask
deriving DecidableEq, Repr

inductive Res where
  | accepted | refused | failed | none | is (b : Bool)
deriving DecidableEq, Repr

inductive Pc where
  | idle
  | lock (op : Op)
  | act (op : Op)
  | unlock (op : Op) (r : Res)
deriving DecidableEq, Repr

/-- What a client may call. -/
inductive Req where
  | submit | close | ask
deriving DecidableEq, Repr

inductive CSt where
  | absent
  /-- its thread has been started -/
  | created
  | running
  | over
deriving DecidableEq, Repr

inductive Phase where
  | alive
  /-- in the destructor's `close` (75) -/
  | closing (i : Nat)
  /-- its body has ended -/
  | members (i : Nat)
  /-- `mtx_` is destroyed; the threads that are still to be joined -/
  | joining (i : Nat) (l : List Nat)
  | gone
deriving DecidableEq, Repr

structure St where
  closed : Bool := false
  threads : List Nat := []
  mtx : Option Who := none
  phase : Phase := .alive
  nc : Nat := 0
  cst : Nat → CSt := fun _ => .absent
  pc : Who → Pc := fun _ => .idle
  /-- the program has ended -/
  dead : Bool := false

def init : St := {}

inductive Label where
  | call (w : Who) (r : Req)
  | lock (w : Who)
  /-- `fails`: `reserve` or the constructor of `thread` throws (139-140) -/
  | act (w : Who) (fails : Bool)
  | unlock (w : Who)
  | destroy (i : Nat)
  | destroyMutex
  | join
  | begin (c : Nat)
  | finish (c : Nat)
  | throw (c : Nat)
deriving DecidableEq, Repr

def Phase.mutexGone : Phase → Bool
  | .joining _ _ | .gone => true
  | _ => false

/-- Thread `w` executes user code. -/
def St.user (s : St) (w : Who) : Bool :=
  decide (s.pc w = .idle) && match w with
    | .client _ => decide (s.phase = .alive)
    | .closure c => decide (s.cst c = .running)

def St.goto (s : St) (w : Who) (p : Pc) : St := { s with pc := updW s.pc w p }

def stepCall (s : St) (w : Who) : Req → St × List Event
  | .submit => ({ s.goto w (.lock (.submit s.nc)) with nc := s.nc + 1 }, [.submits w s.nc])
  | .close => (s.goto w (.lock .close), [.closes w])
  | .ask => (s.goto w (.lock .ask), [.asks w])

/-- The bodies of `submit` (138-141), `close` (86), `closed` (94, 99). -/
def stepAct (s : St) (w : Who) (fails : Bool) : Op → St
  | .submit c =>
    if s.closed then s.goto w (.unlock (.submit c) .refused)
    else if fails then s.goto w (.unlock (.submit c) .failed)
    else { s.goto w (.unlock (.submit c) .accepted) with threads := s.threads ++ [c], cst := upd s.cst c .created }
  | .close => { s.goto w (.unlock .close .none) with closed := true }
  | .closeD => { s.goto w (.unlock .closeD .none) with closed := true }
  | .ask => s.goto w (.unlock .ask (.is s.closed))

def returned (w : Who) : Op → Res → List Event
  | .submit c, .accepted => [.accepted w c]
  | .submit c, .refused => [.refused w c]
  | .submit c, .failed => [.failed w c]
  | .close, _ => [.hasClosed w]
  | .ask, .is b => [.says w b]
  | _, _ => []

/-- The end of the body of the destructor (76). -/
def Phase.after (p : Phase) : Op → Phase
  | .closeD => match p with
    | .closing i => .members i
    | p => p
  | _ => p

/-- The end of `lock_guard`. -/
def stepUnlock (s : St) (w : Who) (op : Op) (r : Res) : St × List Event :=
  ({ s.goto w .idle with mtx := none, phase := s.phase.after op }, returned w op r)

def step (s : St) (l : Label) : Option (St × List Event) :=
  if s.dead then none
  else
    match l with
    | .call w r => if s.user w then some (stepCall s w r) else none
    | .lock w =>
      match s.pc w with
      | .lock op =>
        if s.phase.mutexGone then some ({ s with dead := true }, [.broken w])
        else if s.mtx = none then some ({ s.goto w (.act op) with mtx := some w }, [])
        else none
      | _ => none
    | .act w fails =>
      match s.pc w with
      | .act op => some (stepAct s w fails op, [])
      | _ => none
    | .unlock w =>
      match s.pc w with
      | .unlock op r => some (stepUnlock s w op r)
      | _ => none
    -- 72-77
    | .destroy i =>
      if s.phase = .alive ∧ s.pc (.client i) = .idle then some ({ s.goto (.client i) (.lock .closeD) with phase := .closing i }, [.destroys i]) else none
    | .destroyMutex =>
      match s.phase with
      | .members i =>
        if s.mtx = none then some ({ s with phase := .joining i s.threads }, []) else some ({ s with dead := true }, [.broken (.client i)])
      | _ => none
    | .join =>
      match s.phase with
      | .joining i (c :: l) => if s.cst c = .over then some ({ s with phase := .joining i l }, []) else none
      | .joining i [] => some ({ s with phase := .gone }, [.destroyed i])
      | _ => none
    | .begin c => if s.cst c = .created then some ({ s with cst := upd s.cst c .running }, [.began c]) else none
    | .finish c => if s.cst c = .running ∧ s.pc (.closure c) = .idle then some ({ s with cst := upd s.cst c .over }, [.ended c]) else none
    | .throw c => if s.cst c = .running ∧ s.pc (.closure c) = .idle then some ({ s with dead := true }, [.threw c]) else none

end Verif.ThreadExec
