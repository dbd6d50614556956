import Verif.Core.Run
/-! # What `call_once` promises about one flag

Used for both implementations of `call_once`. Nothing here refers to a model. -/

namespace Verif.Once

/-- What can be observed of `call_once`: thread `t`, flag `k`. -/
inductive Event where
  /-- `call_once(k, f)` starts the function `f` it was given -/
  | started (t k : Nat)
  /-- that call of `f` ended: normally or with an exception -/
  | finished (t k : Nat) (ok : Bool)
  /-- `call_once(k, f)` returned normally -/
  | returned (t k : Nat)
  /-- `call_once(k, f)` threw what `f` threw -/
  | raised (t k : Nat)
deriving DecidableEq, Repr

structure Flag where
  /-- the thread whose call of the function is running -/
  running : Option Nat
  /-- a call has completed normally -/
  done : Bool
  /-- threads whose own call of the function threw and whose `call_once` has not passed that on yet -/
  throwing : List Nat
deriving DecidableEq, Repr

def Flag.fresh : Flag := { running := none, done := false, throwing := [] }

/-- One flag `k`; events of other flags do not matter. -/
def specNext (k : Nat) (q : Flag) : Event → Verdict Flag
  | .started t j =>
    if j ≠ k then .ok q
    else if q.running = none ∧ q.done = false then .ok { q with running := some t } else .illegal
  | .finished t j ok =>
    if j ≠ k then .ok q
    else if q.running = some t then
      .ok (if ok then { q with running := none, done := true } else { q with running := none, throwing := t :: q.throwing })
    else .illegal
  | .returned t j =>
    if j ≠ k then .ok q
    else if q.done = true ∧ t ∉ q.throwing then .ok q else .illegal
  | .raised t j =>
    if j ≠ k then .ok q
    else if t ∈ q.throwing then .ok { q with throwing := q.throwing.erase t } else .illegal

/-- How many calls of functions (for any flag) completed normally. -/
def completions (es : List Event) : Nat :=
  es.countP fun e => match e with
    | .finished _ _ true => true
    | _ => false

/-- How many calls of the function of flag `k` completed normally. -/
def completionsOf (k : Nat) (es : List Event) : Nat :=
  es.countP fun e => match e with
    | .finished _ j true => j == k
    | _ => false

end Verif.Once
