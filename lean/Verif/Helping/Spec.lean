import Verif.Helping.Model
/-! # What `reschedule_until` promises -/

namespace Verif.Helping

/-- A call in progress. -/
inductive Open where
  /-- a `reschedule_until` that has to take a closure or to give up -/
  | helping
  /-- a closure has been taken and has to be invoked; `h`: by a `reschedule_until` -/
  | given (c : Nat) (h : Bool)
  /-- a closure is running -/
  | inside (c : Nat) (h : Bool)
  /-- a `reschedule_until` whose predicate has to be asked -/
  | asking
deriving DecidableEq, Repr

structure Spec where
  /-- number of closures accepted; they are numbered in that order -/
  acc : Nat
  /-- how many of them have been taken -/
  taken : Nat
  closed : Bool
  calls : Nat → List Open
  /-- what has to happen next -/
  due : Option Event

def Spec.init : Spec := { acc := 0, taken := 0, closed := false, calls := fun _ => [], due := none }

/-- Thread `t` runs client code. -/
def Spec.outside (σ : Spec) (t : Nat) : Bool :=
  match σ.calls t with
  | [] | .inside _ _ :: _ | .asking :: _ => true
  | _ => false

/-- `strict`: what a closure throws never makes `reschedule_until` report that nothing is queued. -/
def live (strict : Bool) (σ : Spec) : Event → Verdict Spec
  | .submitted t c => if c = σ.acc ∧ σ.closed = false ∧ σ.outside t then .ok { σ with acc := σ.acc + 1 } else .illegal
  | .refused t => if σ.closed ∧ σ.outside t then .ok σ else .illegal
  | .closeReturned t => if σ.outside t then .ok { σ with closed := true } else .illegal
  | .called t => if σ.outside t then .ok { σ with calls := upd σ.calls t (.helping :: σ.calls t) } else .illegal
  -- closures are taken in the order in which they were accepted, each once
  | .took t c =>
    if c = σ.taken ∧ c < σ.acc then
      match σ.calls t with
      | .helping :: rest => .ok { σ with taken := c + 1, calls := upd σ.calls t (.given c true :: rest) }
      | os => if σ.outside t then .ok { σ with taken := c + 1, calls := upd σ.calls t (.given c false :: os) } else .illegal
    else .illegal
  -- and invoked by the thread that has taken them
  | .started t c =>
    match σ.calls t with
    | .given d h :: rest => if c = d then .ok { σ with calls := upd σ.calls t (.inside c h :: rest) } else .illegal
    | _ => .illegal
  -- after every closure the predicate is asked
  | .ended t c =>
    match σ.calls t with
    | .inside d h :: rest => if c = d then .ok { σ with calls := upd σ.calls t (if h then .asking :: rest else rest) } else .illegal
    | _ => .illegal
  -- an exception of a closure ends the program
  | .threw t c =>
    match σ.calls t with
    | .inside d h :: rest =>
      if c = d then
        if strict then .ok { σ with due := some .terminated }
        else .ok { σ with calls := upd σ.calls t rest, due := if h then some (.returned t false) else none }
      else .illegal
    | _ => .illegal
  -- true is returned as soon as the predicate holds, and only then
  | .predIs t b =>
    match σ.calls t with
    | .asking :: rest => if b then .ok { σ with calls := upd σ.calls t rest, due := some (.returned t true) } else .ok { σ with calls := upd σ.calls t (.helping :: rest) }
    | _ => .illegal
  | .predThrew t =>
    match σ.calls t with
    | .asking :: rest => .ok { σ with calls := upd σ.calls t rest }
    | _ => .illegal
  -- false is returned only when nothing is queued
  | .returned t b =>
    match σ.calls t with
    | .helping :: rest => if b = false ∧ σ.taken = σ.acc then .ok { σ with calls := upd σ.calls t rest } else .illegal
    | _ => .illegal
  | .terminated => .illegal

def next (strict : Bool) (σ : Spec) (e : Event) : Verdict Spec :=
  match σ.due with
  | some d => if e = d then .ok { σ with due := none } else .illegal
  | none => live strict σ e

end Verif.Helping
