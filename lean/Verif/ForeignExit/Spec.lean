import Verif.ForeignExit.Model
/-! # What the library promises about the end of a thread it did not start -/

namespace Verif.ForeignExit
open ThreadExit (State Op Event Node Sp upd)

structure FSp where
  /-- the callbacks and values since the last round, under the rules of `Verif.ThreadExit` -/
  now : Sp := {}
  /-- callbacks and values of before it, still to be run and cleaned up -/
  cbs : List Nat := []
  left : Nat → Nat := fun _ => 0
  /-- one of the callbacks or cleanup functions is running -/
  running : Bool := false
  returned : Bool := false
  rounds : Nat := 0
  over : Bool := false

/-- Everything of before the round has been run and cleaned up. -/
def FSp.done (nk : Nat) (fn : Nat → Bool) (σ : FSp) : Prop := σ.running = false ∧ σ.cbs = [] ∧ ∀ k < nk, fn k = true → σ.left k = 0

/-- There is nothing new either. -/
def FSp.idle (nk : Nat) (fn : Nat → Bool) (σ : FSp) : Prop := σ.now.cbs = [] ∧ ∀ k < nk, fn k = true → σ.now.slot k = 0

instance (nk : Nat) (fn : Nat → Bool) (σ : FSp) : Decidable (σ.done nk fn) := by unfold FSp.done; infer_instance
instance (nk : Nat) (fn : Nat → Bool) (σ : FSp) : Decidable (σ.idle nk fn) := by unfold FSp.idle; infer_instance

def next (it nk : Nat) (fn : Nat → Bool) (σ : FSp) : FEvent → Verdict FSp
  | .now e =>
    if e = .bodyRet ∨ σ.over = true then .illegal
    else match ThreadExit.next false nk fn σ.now e with
      | .ok τ => .ok { σ with now := τ }
      | .undefined => .undefined
      | .illegal => .illegal
  | .bodyRet => if σ.returned = false ∧ σ.now.busy = [] then .ok { σ with returned := true } else .illegal
  -- what the last round was to do has been done; from now on the slots read as null
  | .round =>
    if σ.returned = true ∧ σ.over = false ∧ σ.now.busy = [] ∧ σ.rounds < it ∧ σ.done nk fn then
      .ok { σ with now := { σ.now with cbs := [], slot := fun _ => 0 }, cbs := σ.now.cbs, left := σ.now.slot, rounds := σ.rounds + 1 } else .illegal
  -- the last one registered, and never again
  | .ran n => if σ.running = false ∧ σ.now.busy = [] ∧ σ.cbs.head? = some n then .ok { σ with cbs := σ.cbs.tail, running := true } else .illegal
  -- a value that was there when the round began, once
  | .cleaned k v =>
    if σ.running = false ∧ σ.now.busy = [] ∧ k < nk ∧ fn k = true ∧ v ≠ 0 ∧ σ.left k = v then .ok { σ with left := upd σ.left k 0, running := true } else .illegal
  | .back => if σ.running = true ∧ σ.now.busy = [] then .ok { σ with running := false } else .illegal
  -- nothing is left to be done, or the rounds are used up
  | .ended =>
    if σ.returned = true ∧ σ.over = false ∧ σ.now.busy = [] ∧ σ.done nk fn ∧ (σ.rounds = it ∨ σ.idle nk fn) then .ok { σ with over := true } else .illegal

end Verif.ForeignExit
