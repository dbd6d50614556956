import Verif.ThreadExit.Model
/-!
# What the library promises about the end of a thread
-/

namespace Verif.ThreadExit

structure Sp where
  /-- callbacks registered and not yet run, the last one first -/
  cbs : List Nat := []
  /-- the value each slot holds; 0 once it has been handed to the cleanup function -/
  slot : Nat → Nat := fun _ => 0
  /-- the slots whose cleanup function is running -/
  busy : List Nat := []
  /-- the calls of `reset` in progress -/
  pend : Nat → Option Nat := fun _ => none
  /-- the function of the thread has returned -/
  returned : Bool := false

/-- `v` may be read from slot `k`: it is the value stored there; or it is null, there is no cleanup function to call, and the thread is at its end. -/
def Reads (fn : Nat → Bool) (σ : Sp) (k v : Nat) : Prop := σ.slot k = v ∨ (σ.returned = true ∧ fn k = false ∧ v = 0)

instance (fn : Nat → Bool) (σ : Sp) (k v : Nat) : Decidable (Reads fn σ k v) := by unfold Reads; infer_instance

/-- Slots are the numbers below `nk`, `fn k`: slot `k` has a cleanup function. A cleanup function that changes the slot it was called for is outside the contract
(`strict = false`). -/
def next (strict : Bool) (nk : Nat) (fn : Nat → Bool) (σ : Sp) : Event → Verdict Sp
  | .registered n => .ok { σ with cbs := n :: σ.cbs }
  -- the last one registered, and never again
  | .ran n => if σ.returned ∧ σ.cbs.head? = some n then .ok { σ with cbs := σ.cbs.tail } else .illegal
  | .got k v => if k ∈ σ.busy ∨ Reads fn σ k v then .ok σ else .illegal
  | .released k v =>
    if k ∈ σ.busy ∧ strict = false then .undefined
    else if Reads fn σ k v then .ok { σ with slot := upd σ.slot k 0 } else .illegal
  | .resetCall k v => if k ∈ σ.busy ∧ strict = false then .undefined else .ok { σ with pend := upd σ.pend k (some v) }
  -- the old value has been cleaned up, unless there was none, or it is also the new one, or there is no cleanup function
  | .resetRet k v =>
    if σ.pend k = some v ∧ (σ.slot k = 0 ∨ σ.slot k = v ∨ fn k = false) then .ok { σ with slot := upd σ.slot k v, pend := upd σ.pend k none } else .illegal
  -- the value is in the slot, has not been cleaned up, and either it is being replaced or the thread is at its end
  | .cleaned k v =>
    if fn k = true ∧ v ≠ 0 ∧ σ.slot k = v ∧ ((σ.pend k ≠ none ∧ σ.pend k ≠ some v) ∨ (σ.pend k = none ∧ σ.returned)) then
      .ok { σ with slot := upd σ.slot k 0, busy := k :: σ.busy } else .illegal
  | .cleanRet k => if σ.busy.head? = some k then .ok { σ with busy := σ.busy.tail } else .illegal
  | .bodyRet => if σ.returned then .illegal else .ok { σ with returned := true }
  -- nothing is left to be done
  | .ended => if σ.returned ∧ σ.cbs = [] ∧ σ.busy = [] ∧ ∀ k < nk, fn k = true → σ.slot k = 0 then .ok σ else .illegal
  | .ub => .illegal

end Verif.ThreadExit
