import Verif.SerialExecutor.Model
/-! # What a serial executor promises -/

namespace Verif.SerialExecutor

/-- What is known about an accepted closure. -/
inductive St where
  | waiting
  | running
  | done
deriving DecidableEq, Repr

structure Spec where
  /-- number of closures accepted; they are numbered in that order -/
  acc : Nat
  st : Nat → St
  closed : Bool
  /-- the threads and closures that are inside `try_executing_one` -/
  helpers : List Caller
  /-- how often `try_executing_one` has returned true -/
  helped : Nat
  /-- how many closures have ended -/
  ended : Nat
  exClosed : Bool
  /-- the program has to end now -/
  crash : Bool
  dying : Bool

def Spec.init : Spec :=
  { acc := 0, st := fun _ => .waiting, closed := false, helpers := [], helped := 0, ended := 0, exClosed := false, crash := false, dying := false }

/-- The closures that run, or wait and have been accepted before `c`. -/
def Spec.before (σ : Spec) (c : Nat) : Nat :=
  ((List.range σ.acc).filter fun d => d ≠ c ∧ (σ.st d = .running ∨ d < c ∧ σ.st d = .waiting)).length

/-- The closures that have not ended. -/
def Spec.left (σ : Spec) : Nat := ((List.range σ.acc).filter fun c => σ.st c ≠ .done).length

/-- A thread of the client, not a closure, that has no business with an executor that is being destroyed. -/
def Spec.late (σ : Spec) : Caller → Bool
  | .client _ => σ.dying
  | _ => false

/-- Some thread of the client is inside `try_executing_one`. -/
def Spec.clientHelps (σ : Spec) : Bool := σ.helpers.any fun k => match k with | .client _ => true | _ => false

/-- What may be seen next of an executor. -/
def live (σ : Spec) : Event → Verdict Spec
  -- `submit` accepts exactly while the executor is open
  | .submitted k c =>
    if σ.late k then .undefined
    else if c = σ.acc ∧ σ.closed = false then .ok { σ with acc := σ.acc + 1, st := upd σ.st c .waiting } else .illegal
  | .refused k => if σ.late k then .undefined else if σ.closed then .ok σ else .illegal
  | .closeReturned k => if σ.late k then .undefined else .ok { σ with closed := true }
  | .closedIs k b => if σ.late k then .undefined else if b = σ.closed then .ok σ else .illegal
  | .tryCalled k => if σ.late k then .undefined else .ok { σ with helpers := k :: σ.helpers }
  -- true: a closure has been carried out for this call; false: whatever has not ended is in the hands of others
  | .tryReturned k b =>
    if k ∈ σ.helpers ∧ (if b then σ.helped < σ.ended else σ.left ≤ σ.helpers.length) then
      .ok { σ with helpers := σ.helpers.erase k, helped := if b then σ.helped + 1 else σ.helped }
    else .illegal
  -- a closure is invoked once; and while nobody helps with `try_executing_one`, no other closure is running, and none of the closures accepted before it is still waiting;
  -- each helper can make one exception
  | .started c =>
    if c < σ.acc ∧ σ.st c = .waiting ∧ σ.before c ≤ σ.helpers.length then .ok { σ with st := upd σ.st c .running } else .illegal
  -- a closure that throws makes no difference
  | .ended c _ => if c < σ.acc ∧ σ.st c = .running then .ok { σ with st := upd σ.st c .done, ended := σ.ended + 1 } else .illegal
  | .underlyingClosed => .ok { σ with exClosed := true }
  | .interrupted k => if k ∈ σ.helpers then .ok { σ with crash := true } else .illegal
  | .terminated => if σ.exClosed then .ok σ else .illegal
  | .destroyCalled t => if σ.late (.client t) ∨ σ.clientHelps then .undefined else .ok { σ with dying := true, closed := true }
  -- the destructor returns when every accepted closure has ended
  | .destroyed _ => if σ.dying ∧ σ.left = 0 then .ok σ else .illegal

def next (σ : Spec) (e : Event) : Verdict Spec :=
  if σ.crash then (if e = .terminated then .ok σ else .illegal) else live σ e

end Verif.SerialExecutor
