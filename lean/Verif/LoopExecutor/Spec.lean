import Verif.LoopExecutor.Model
/-! # What `loop_executor` and `user_scheduler` promise -/

namespace Verif.LoopExecutor

inductive Call where
  | one
  | loop
  | run
deriving DecidableEq, Repr

/-- A call in progress: the closures it has taken and not yet invoked, and the closure it is running. -/
structure Open where
  call : Call
  todo : List Nat
  cur : Option Nat
  /-- a `loop` whose last closure has thrown -/
  hurt : Bool
deriving DecidableEq, Repr

structure Spec where
  /-- number of closures accepted; they are numbered in that order -/
  acc : Nat
  /-- how many of them have been taken; the others are queued -/
  taken : Nat
  closed : Bool
  /-- the calls in progress in each thread, innermost first -/
  calls : Nat → List Open
  /-- what a thread has to report next -/
  due : Option Event
  /-- a closure has been taken out of the queue with `try_executing_one` or `loop` since the queue was last empty -/
  begun : Bool
  /-- `run_queued_closures` has been called in that situation -/
  broken : Bool

def Spec.init : Spec := { acc := 0, taken := 0, closed := false, calls := fun _ => [], due := none, begun := false, broken := false }

def Spec.queue (σ : Spec) : List Nat := List.range' σ.taken (σ.acc - σ.taken)

/-- Thread `t` runs client code: it is in no call, or its innermost call is running a closure. -/
def Spec.outside (σ : Spec) (t : Nat) : Bool :=
  match σ.calls t with
  | [] => true
  | o :: _ => o.cur.isSome

/-- Which events are allowed. `us`: what `user_scheduler` does. `strict`: it, too, obeys its documentation. -/
def live (us strict : Bool) (σ : Spec) : Event → Verdict Spec
  -- `submit` accepts exactly while the executor is open
  | .submitted _ c => if c = σ.acc ∧ σ.closed = false then .ok { σ with acc := σ.acc + 1 } else .illegal
  | .refused _ => if σ.closed then .ok σ else .illegal
  | .closeReturned _ => .ok { σ with closed := true }
  | .closedIs _ b => if b = σ.closed then .ok σ else .illegal
  -- closures are taken in the order in which they were accepted
  | .tryTook t c => if c = σ.taken ∧ c < σ.acc ∧ σ.outside t then .ok { σ with taken := c + 1, begun := decide (c + 1 < σ.acc), calls := upd σ.calls t (⟨.one, [c], none, false⟩ :: σ.calls t) } else .illegal
  -- `try_executing_one` returns without having taken anything if and only if nothing is queued
  | .tryReturned _ b => if b = false ∧ σ.taken = σ.acc then .ok σ else .illegal
  | .loopCalled t => if σ.outside t then .ok { σ with calls := upd σ.calls t (⟨.loop, [], none, false⟩ :: σ.calls t) } else .illegal
  -- `loop` takes a closure when it has nothing else to do
  | .loopTook t c =>
    match σ.calls t with
    | ⟨.loop, [], none, _⟩ :: rest => if c = σ.taken ∧ c < σ.acc then .ok { σ with taken := c + 1, begun := decide (c + 1 < σ.acc), calls := upd σ.calls t (⟨.loop, [c], none, false⟩ :: rest) } else .illegal
    | _ => .illegal
  -- `loop` returns only when the executor is closed and nothing is queued; that of `user_scheduler` also after a closure that has thrown
  | .loopReturned t =>
    match σ.calls t with
    | ⟨.loop, [], none, hurt⟩ :: rest => if σ.closed ∧ (σ.taken = σ.acc ∨ hurt) then .ok { σ with calls := upd σ.calls t rest } else .illegal
    | _ => .illegal
  -- `run_queued_closures` takes everything that is queued
  | .runCalled t =>
    if us ∧ strict = false then .undefined
    else if σ.outside t then .ok { σ with taken := σ.acc, begun := false, broken := σ.begun, calls := upd σ.calls t (⟨.run, σ.queue, none, false⟩ :: σ.calls t) } else .illegal
  -- and returns when it has carried it out
  | .runReturned t =>
    match σ.calls t with
    | ⟨.run, [], none, _⟩ :: rest => .ok { σ with calls := upd σ.calls t rest }
    | _ => .illegal
  | .runThrew _ => .illegal
  -- a call invokes what it has taken in order
  | .started t c =>
    match σ.calls t with
    | ⟨k, d :: todo, none, _⟩ :: rest => if c = d then .ok { σ with calls := upd σ.calls t (⟨k, todo, some c, false⟩ :: rest) } else .illegal
    | _ => .illegal
  -- `try_executing_one` returns true after its closure has returned
  | .ended t c =>
    match σ.calls t with
    | ⟨k, todo, some d, _⟩ :: rest =>
      if c = d then
        if k = .one then .ok { σ with calls := upd σ.calls t rest, due := some (.tryReturned t true) } else .ok { σ with calls := upd σ.calls t (⟨k, todo, none, false⟩ :: rest) }
      else .illegal
    | _ => .illegal
  -- an exception leaves `run_queued_closures`; otherwise it ends the program
  | .threw t c =>
    match σ.calls t with
    | ⟨k, _, some d, _⟩ :: rest =>
      if c = d then
        if k = .run then .ok { σ with calls := upd σ.calls t rest, due := some (.runThrew t) }
        else if us ∧ strict = false then
          if k = .one then .ok { σ with calls := upd σ.calls t rest, due := some (.tryReturned t false) }
          else .ok { σ with calls := upd σ.calls t (⟨k, [], none, true⟩ :: rest) }
        else .ok { σ with due := some .terminated }
      else .illegal
    | _ => .illegal
  | .terminated => .illegal
  -- the destructor waits for the closures
  | .destroyed _ => if strict = false ∨ σ.taken = σ.acc then .ok { σ with closed := true, taken := σ.acc } else .illegal
  | .undefinedBehaviour => .illegal

/-- Events that tell what is in the queue. -/
def touches : Event → Bool
  | .tryTook _ _ | .tryReturned _ _ | .loopTook _ _ | .loopReturned _ | .runCalled _ | .undefinedBehaviour => true
  | _ => false

/-- Once `run_queued_closures` has been called while a closure had been taken since the queue was last empty, nothing is said about the calls that look at the queue, except in the strict
version. -/
def next (us strict : Bool) (σ : Spec) (e : Event) : Verdict Spec :=
  match σ.due with
  | none => if σ.broken ∧ touches e ∧ strict = false then .undefined else live us strict σ e
  | some d =>
    if e = d then .ok { σ with due := none } else .illegal

end Verif.LoopExecutor
