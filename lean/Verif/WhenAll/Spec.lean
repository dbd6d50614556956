import Verif.WhenAll.Model
/-!
# Specification of when_all and when_any

* The future of `when_all` becomes ready when all inputs are ready, that of `when_any` when one is ready; the result is the list of the inputs, in order.
* A deferred input is executed at most once.
* If an input is invalid, the result may be an exception, and the behaviour may be undefined.
-/

namespace Verif.WhenAll

structure Spec where
  done : Nat → Bool := fun _ => false
  taken : Nat → Bool := fun _ => false
  call : Nat → Option (Which × List (Option Nat)) := fun _ => none
  ready : Nat → Bool := fun _ => false
  /-- the call has returned or thrown -/
  over : Nat → Bool := fun _ => false

def Spec.init : Spec := {}

/-- May the future of a call become ready with these inputs? -/
def mayBeReady (done : Nat → Bool) (w : Which) (fs : List (Option Nat)) : Bool :=
  if w.all then fs.all (fun x => match x with
    | some i => done i
    | none => false)
  else fs.isEmpty || fs.any (fun x => match x with
    | some i => done i
    | none => false)

def next (σ : Spec) : Event → Verdict Spec
  | .call c w fs => if σ.call c = none then .ok { σ with call := upd σ.call c (some (w, fs)) } else .illegal
  | .took c i =>
    match σ.call c with
    | some (_, fs) => if some i ∈ fs ∧ σ.taken i = false ∧ σ.done i = false then .ok { σ with taken := upd σ.taken i true } else .illegal
    | none => .illegal
  | .done i => if σ.done i then .illegal else .ok { σ with done := upd σ.done i true }
  | .ready c (.futures gs) =>
    match σ.call c with
    | some (w, fs) => if gs = fs ∧ mayBeReady σ.done w fs ∧ σ.ready c = false then .ok { σ with ready := upd σ.ready c true } else .illegal
    | none => .illegal
  | .ready c .exception =>
    match σ.call c with
    | some (_, fs) => if none ∈ fs ∧ σ.ready c = false then .ok { σ with ready := upd σ.ready c true } else .illegal
    | none => .illegal
  | .ret c => if (σ.call c).isSome ∧ σ.over c = false then .ok { σ with over := upd σ.over c true } else .illegal
  | .threw c => if (σ.call c).isSome ∧ σ.over c = false ∧ σ.ready c = false then .ok { σ with over := upd σ.over c true } else .illegal
  | .crash c =>
    match σ.call c with
    | some (_, fs) => if none ∈ fs then .ok σ else .illegal
    | none => .illegal

end Verif.WhenAll
