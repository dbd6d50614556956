import Verif.Core.Run
/-!
# What a user of `serial_executor_cont` may rely on

Written without reference to the model. Closures are numbered in the order in which `submit` takes them in.
-/

namespace Verif.SerialCont

/-- Who calls the executor: a thread of the client, or a closure that is being carried out. -/
inductive Caller where
  | client (t : Nat)
  | closure (c : Nat)
deriving DecidableEq, Repr

inductive Op where
  | submit
  | close
  | closed
deriving DecidableEq, Repr

inductive Event where
  /-- `k` has called a function of the executor -/
  | called (k : Caller) (o : Op)
  /-- within `submit`: closure `c` has been taken in -/
  | queued (k : Caller) (c : Nat)
  /-- `submit` has returned -/
  | submitted (k : Caller) (c : Nat)
  /-- `submit` has thrown `sync_queue_is_closed` because the executor is closed -/
  | refused (k : Caller)
  /-- `submit` has thrown what the underlying executor has thrown -/
  | failed (k : Caller) (c : Nat)
  /-- `submit` has used a future that is not valid: undefined behaviour, or `future_uninitialized` -/
  | invalid (k : Caller)
  | closeReturned (k : Caller)
  | closedIs (k : Caller) (b : Bool)
  /-- closure `c` has been called, has returned -/
  | started (c : Nat)
  | ended (c : Nat)
  /-- closure `c` has thrown: `std::terminate` -/
  | terminated (c : Nat)
  /-- the underlying executor has thrown when it was given closure `c` after the end of the previous closure -/
  | lost (c : Nat)
  /-- thread `t` has begun to destroy the executor; the destructor has returned -/
  | destroyCalled (t : Nat)
  | destroyed (t : Nat)
  /-- access to a destroyed object -/
  | bad
deriving DecidableEq, Repr

/-- What has become of a closure. -/
inductive St where
  | waiting
  | running
  | done
  | dropped
deriving DecidableEq, Repr

structure Spec where
  /-- number of closures taken in -/
  n : Nat := 0
  st : Nat → St := fun _ => .waiting
  closed : Bool := false
  /-- the underlying executor has thrown in `submit` -/
  failed : Bool := false
  /-- calls that have not returned -/
  calls : List Caller := []
  dying : Bool := false

def Spec.set (σ : Spec) (c : Nat) (x : St) : Spec := { σ with st := fun d => if d = c then x else σ.st d }

/-- Every closure taken in has ended or has been given up. -/
def Spec.idle (σ : Spec) : Bool := (List.range σ.n).all fun c => σ.st c == .done || σ.st c == .dropped

/-- The calls after one by `k` has returned. -/
def Spec.without (σ : Spec) (k : Caller) : List Caller := σ.calls.filter (· ≠ k)

/-- The contract. A closure is called only when all closures taken in before it have ended; `submit` accepts exactly while the executor is open. The destructor returns only when all closures
have ended. With `wait = true` the client sees to this itself: it destroys the executor only when no closure is left. -/
def next (wait : Bool) (σ : Spec) : Event → Verdict Spec
  | .called (.client t) _ => if σ.dying = true then .undefined else .ok { σ with calls := .client t :: σ.calls }
  | .called (.closure c) _ => if c < σ.n ∧ σ.st c = .running then .ok { σ with calls := .closure c :: σ.calls } else .illegal
  | .queued _ c => if c = σ.n ∧ σ.closed = false then .ok { σ with n := σ.n + 1 } else .illegal
  | .submitted k c => if c < σ.n then .ok { σ with calls := σ.without k } else .illegal
  | .refused k => if σ.closed = true then .ok { σ with calls := σ.without k } else .illegal
  | .failed k c => if c < σ.n ∧ σ.st c = .waiting then .ok { σ.set c .dropped with calls := σ.without k, failed := true } else .illegal
  | .invalid k => if σ.failed = true then .ok { σ with calls := σ.without k } else .illegal
  | .closeReturned k => .ok { σ with calls := σ.without k, closed := true }
  | .closedIs k b => if b = σ.closed then .ok { σ with calls := σ.without k } else .illegal
  | .started c => if c < σ.n ∧ σ.st c = .waiting ∧ (List.range c).all (fun d => σ.st d == .done) = true then .ok (σ.set c .running) else .illegal
  | .ended c => if c < σ.n ∧ σ.st c = .running then .ok (σ.set c .done) else .illegal
  | .terminated c => if c < σ.n ∧ σ.st c = .running then .ok σ else .illegal
  | .lost c => if c < σ.n ∧ σ.st c = .waiting then .ok (σ.set c .dropped) else .illegal
  | .destroyCalled _ => if σ.dying = true ∨ σ.calls ≠ [] ∨ (wait = true ∧ σ.idle = false) then .undefined else .ok { σ with dying := true, closed := true }
  | .destroyed _ => if σ.dying = true ∧ σ.idle = true then .ok σ else .illegal
  | .bad => .illegal

def start : Spec := {}

/-- The beginnings and ends of closures. -/
def isRun : Event → Bool
  | .started _ | .ended _ => true
  | _ => false

/-- One after the other, in the order of submission. -/
def serial (n : Nat) : List Event := (List.range n).flatMap fun c => [.started c, .ended c]

/-- What is seen of the closures is a beginning of that. -/
def Serial (es : List Event) : Prop := ∃ n, es.filter isRun <+: serial n

end Verif.SerialCont
