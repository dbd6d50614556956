import Verif.WaitAny.Model
/-!
# Specification of wait_for_any

A call returns a position at which there is a future that is ready, or throws `thread_interrupted` after a request that has not been used yet. `strict`: the position counts all arguments. Otherwise, in a range, it counts only the valid ones: this is what the code does.
-/

namespace Verif.WaitAny

structure Spec where
  ready : Nat → Bool := fun _ => false
  call : Nat → Option (Bool × List (Option Nat)) := fun _ => none
  /-- requests for interruption that have not been used -/
  req : Nat → Nat := fun _ => 0

def Spec.init : Spec := {}

/-- Is position `k` a right answer? -/
def right (strict : Bool) (ready : Nat → Bool) (seq : Bool) (fs : List (Option Nat)) (k : Nat) : Bool :=
  if fs = [] then k == 0
  else if strict || !seq then
    match fs[k]? with
    | some (some i) => ready i
    | _ => false
  else
    match (fs.filterMap id)[k]? with
    | some i => ready i
    | none => false

def next (strict : Bool) (σ : Spec) : Event → Verdict Spec
  | .call t seq fs => if σ.call t = none then .ok { σ with call := upd σ.call t (some (seq, fs)) } else .illegal
  | .ready i => if σ.ready i then .illegal else .ok { σ with ready := upd σ.ready i true }
  | .ret t k =>
    match σ.call t with
    | some (seq, fs) => if right strict σ.ready seq fs k then .ok { σ with call := upd σ.call t none } else .illegal
    | none => .illegal
  | .request t => .ok { σ with req := upd σ.req t (σ.req t + 1) }
  | .interrupted t => if σ.call t ≠ none ∧ 0 < σ.req t then .ok { σ with call := upd σ.call t none, req := upd σ.req t (σ.req t - 1) } else .illegal

end Verif.WaitAny
