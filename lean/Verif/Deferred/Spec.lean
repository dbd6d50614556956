import Verif.Core.Run
/-!
# What asking about a deferred future means

A future from `async(launch::deferred, f)`, shared by any number of threads. `get` (and `wait`) runs `f` in the calling thread if nobody has done so; `is_ready` (and `has_value`,
`has_exception`, `valid`) only asks, and so do `wait_for`/`wait_until`/`timed_wait`. `f` may itself ask about the future it computes. Thread and value names are numbers.
-/

namespace Verif.Deferred

/-- What `f` comes to. -/
inductive Out where
  | value (v : Nat)
  | threw (e : Nat)
deriving DecidableEq, Repr

inductive Op where
  /-- `get`, `wait` -/
  | get
  /-- `is_ready` and the like -/
  | ask
  /-- a timed wait -/
  | timed
deriving DecidableEq, Repr

inductive Status where
  | ready | timeout | deferred
deriving DecidableEq, Repr

inductive E where
  /-- thread `t` makes a call -/
  | call (t : Nat) (op : Op)
  /-- `f` begins in thread `t` -/
  | began (t : Nat)
  /-- `f` returns or throws -/
  | ended (t : Nat) (o : Out)
  /-- `get` returns (or throws) -/
  | got (t : Nat) (o : Out)
  /-- `is_ready` returns -/
  | told (t : Nat) (b : Bool)
  /-- a timed wait returns -/
  | status (t : Nat) (st : Status)
deriving DecidableEq, Repr

/-- What has become of `f`. -/
inductive Phase where
  | notRun
  | running (t : Nat)
  | ended (o : Out)
deriving DecidableEq, Repr

def Phase.over : Phase → Bool
  | .ended _ => true
  | _ => false

structure Spec where
  phase : Phase := .notRun
  /-- the calls a thread is in, the latest first: a second one is made by `f` -/
  calls : Nat → List Op := fun _ => []
  /-- somebody has been told that the future is ready -/
  shown : Bool := false

def Spec.pop (σ : Spec) (t : Nat) : Spec := { σ with calls := fun u => if u = t then (σ.calls t).tail else σ.calls u }

/-- `f` runs only in a `get`, once; `get` returns what it came to; nobody is told that the future is ready before `f` has ended, and nobody that it is not after somebody has been told
that it is; a timed wait says that `f` has not begun exactly if it has not. -/
def next (σ : Spec) : E → Verdict Spec
  | .call t op =>
    if σ.calls t = [] ∨ (σ.phase = .running t ∧ (σ.calls t).length = 1) then .ok { σ with calls := fun u => if u = t then op :: σ.calls t else σ.calls u } else .illegal
  | .began t => if σ.phase = .notRun ∧ σ.calls t = [.get] then .ok { σ with phase := .running t } else .illegal
  | .ended t o => if σ.phase = .running t ∧ (σ.calls t).length = 1 then .ok { σ with phase := .ended o } else .illegal
  | .got t o => if σ.phase = .ended o ∧ (σ.calls t).head? = some .get then .ok { σ.pop t with shown := true } else .illegal
  | .told t true => if σ.phase.over ∧ (σ.calls t).head? = some .ask then .ok { σ.pop t with shown := true } else .illegal
  | .told t false => if σ.shown = false ∧ (σ.calls t).head? = some .ask then .ok (σ.pop t) else .illegal
  | .status t .ready => if σ.phase.over ∧ (σ.calls t).head? = some .timed then .ok { σ.pop t with shown := true } else .illegal
  | .status t .timeout => if σ.phase ≠ .notRun ∧ σ.shown = false ∧ (σ.calls t).head? = some .timed then .ok (σ.pop t) else .illegal
  | .status t .deferred => if σ.phase = .notRun ∧ (σ.calls t).head? = some .timed then .ok (σ.pop t) else .illegal

end Verif.Deferred
