import Verif.ThreadPool.Model
/-! # What a thread pool promises -/

namespace Verif.ThreadPool

/-- What is known about an accepted closure. -/
inductive St where
  | waiting
  | running (t : Nat)
  | done
deriving DecidableEq, Repr

structure Spec where
  /-- number of closures accepted; they are numbered in that order -/
  acc : Nat
  st : Nat → St
  closed : Bool
  /-- threads inside a `try_executing_one` that has found a closure and not yet invoked it -/
  pend : List Nat
  /-- threads whose `try_executing_one` has carried out its closure and has to return true now -/
  owe : Nat → Bool
  /-- no worker has been asked to stop and no closure has thrown `thread_interrupted` -/
  clean : Bool
  /-- a `join` has returned: there are no workers any more -/
  joined : Bool
  /-- the destructor has been called -/
  dying : Bool
  /-- the program has to end now -/
  crash : Bool
  /-- a thread could not be created -/
  failed : Bool

def Spec.init : Spec :=
  { acc := 0, st := fun _ => .waiting, closed := false, pend := [], owe := fun _ => false, clean := true, joined := false, dying := false, crash := false, failed := false }

/-- Thread `t` runs no closure. -/
def Spec.idle (σ : Spec) (t : Nat) : Bool := (List.range σ.acc).all fun c => σ.st c ≠ .running t

/-- The closures numbered below `c` that have not been invoked. -/
def Spec.behind (σ : Spec) (c : Nat) : Nat := ((List.range c).filter fun d => σ.st d = .waiting).length

/-- How many threads other than `t` may be about to invoke a closure: the idle workers, and the threads in a `try_executing_one` that has found one. -/
def Spec.hands (n : Nat) (σ : Spec) (t : Nat) : Nat :=
  ((List.range n).filter fun w => w ≠ t ∧ σ.idle w).length + (σ.pend.filter fun u => u ≠ t).length

/-- No worker runs a closure. -/
def Spec.quiet (n : Nat) (σ : Spec) : Bool := (List.range n).all fun w => σ.idle w

/-- Everything accepted has been carried out, apart from what threads of the client have taken on themselves. -/
def Spec.carriedOut (n : Nat) (σ : Spec) : Bool :=
  σ.closed && σ.behind σ.acc ≤ (σ.pend.filter fun u => n ≤ u).length &&
    (List.range σ.acc).all fun c => match σ.st c with | .running t => decide (n ≤ t) | _ => true

/-- The thread an event belongs to. -/
def Event.by : Event → Option Nat
  | .submitted t _ | .refused t | .closeReturned t | .closedIs t _ | .tryFound t | .tryNone t | .started t _ | .ended t _ _ | .interruptCalled t
  | .interruptReturned t | .joinCalled t | .joinReturned t | .interruptJoinCalled t | .interruptJoinReturned t | .destroyCalled t | .destroyed t => some t
  | _ => none

/-- The thread of the event, which is not the return of `try_executing_one`, should be returning from `try_executing_one`. -/
def Spec.due (σ : Spec) (e : Event) : Bool := match e.by with | some t => σ.owe t | none => false

/-- Which events a pool with `n` workers allows. `strict`: the destructor, too, carries out every accepted closure, and a failing constructor throws. -/
def next (strict : Bool) (n : Nat) (σ : Spec) (e : Event) : Verdict Spec :=
  if σ.crash then (if e = .terminated then .ok σ else .illegal) else
  if σ.due e then .illegal else
  match e with
  | .constructed => if σ.failed then .illegal else .ok σ
  | .spawnFailed => .ok { σ with failed := true, closed := true }
  | .ctorThrew => if σ.failed then .ok σ else .illegal
  -- the program ends only because of an exception that leaves a closure
  | .terminated => if σ.failed ∧ strict = false then .ok σ else .illegal
  -- `submit` accepts exactly while the pool is open
  | .submitted t c =>
    if σ.dying ∧ n ≤ t then .undefined
    else if c = σ.acc ∧ σ.closed = false then .ok { σ with acc := σ.acc + 1, st := upd σ.st c .waiting } else .illegal
  | .refused t => if σ.dying ∧ n ≤ t then .undefined else if σ.closed then .ok σ else .illegal
  | .closeReturned _ => .ok { σ with closed := true }
  | .closedIs _ b => if b = σ.closed then .ok σ else .illegal
  | .tryFound t => if σ.dying ∧ n ≤ t then .undefined else .ok { σ with pend := t :: σ.pend }
  -- whatever has not been invoked is in the hands of other threads
  | .tryNone t => if σ.dying ∧ n ≤ t then .undefined else if σ.behind σ.acc ≤ σ.hands n t then .ok σ else .illegal
  | .tryDone t => if σ.owe t then .ok { σ with owe := upd σ.owe t false } else .illegal
  -- a closure is invoked once, by a worker with nothing else to do or in a `try_executing_one`; it can overtake only what is in the hands of other threads; after `join` no worker invokes anything
  | .started t c =>
    if c < σ.acc ∧ σ.st c = .waiting ∧ σ.behind c ≤ σ.hands n t ∧ (σ.joined → n ≤ t) ∧ (t ∈ σ.pend ∨ t < n ∧ σ.idle t) then
      .ok { σ with st := upd σ.st c (.running t), pend := σ.pend.filter fun u => u ≠ t }
    else .illegal
  | .ended t c how =>
    if σ.st c = .running t then
      let σ' := { σ with st := upd σ.st c .done }
      match how with
      | .ok => .ok { σ' with owe := upd σ.owe t (decide (n ≤ t) || !σ'.idle t) }
      | .interrupted => .ok { σ' with clean := false, crash := decide (n ≤ t) || !σ'.idle t }
      | .threw => .ok { σ' with crash := true }
    else .illegal
  | .interruptCalled t => if σ.dying ∧ n ≤ t then .undefined else .ok { σ with clean := false }
  | .interruptReturned _ => .ok σ
  | .joinCalled t => if σ.dying ∧ n ≤ t then .undefined else .ok σ
  -- `join` returns when the workers have finished, having carried out everything
  | .joinReturned _ =>
    if σ.quiet n ∧ (n ≠ 0 → σ.clean → σ.carriedOut n) then .ok { σ with joined := true } else .illegal
  | .interruptJoinCalled t => if σ.dying ∧ n ≤ t then .undefined else .ok { σ with clean := false }
  | .interruptJoinReturned _ => if σ.quiet n then .ok { σ with joined := true } else .illegal
  | .destroyCalled t => if σ.dying ∧ n ≤ t then .undefined else .ok { σ with dying := true, closed := true, clean := σ.clean && strict }
  | .destroyed _ =>
    if σ.quiet n ∧ (n ≠ 0 → σ.clean → σ.carriedOut n) then .ok { σ with joined := true } else .illegal

/-- The closures that have been accepted and have not ended. -/
def Spec.left (σ : Spec) : Nat := ((List.range σ.acc).filter fun c => σ.st c ≠ .done).length

end Verif.ThreadPool
