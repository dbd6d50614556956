import Verif.SyncValue.Model
/-!
# What `synchronized_value` promises

The operations happen one at a time; while a thread is in a section with an object no other thread reads or changes it.
-/

namespace Verif.SyncValue

structure Sp where
  val : Nat → Nat
  /-- the thread in a section with the object -/
  held : Nat → Option Nat := fun _ => none
  /-- the objects of the section a thread is in -/
  sect : Nat → List Nat := fun _ => []

/-- Nobody else is in a section with `k`. -/
def Sp.may (σ : Sp) (t k : Nat) : Prop := σ.held k = none ∨ σ.held k = some t

instance (σ : Sp) (t k : Nat) : Decidable (σ.may t k) := by unfold Sp.may; infer_instance

/-- What the operators mean. -/
def Cmp.holds : Cmp → Nat → Nat → Prop
  | .eq, x, y => x = y
  | .ne, x, y => x ≠ y
  | .lt, x, y => x < y
  | .gt, x, y => y < x
  | .le, x, y => x ≤ y
  | .ge, x, y => y ≤ x

instance (c : Cmp) (x y : Nat) : Decidable (c.holds x y) := by cases c <;> unfold Cmp.holds <;> infer_instance

def next (σ : Sp) : Event → Verdict Sp
  | .got t k v => if σ.may t k ∧ v = σ.val k then .ok σ else .illegal
  | .set t k v => if σ.may t k then .ok { σ with val := upd σ.val k v } else .illegal
  | .cmp1 t k left c v r => if σ.may t k ∧ r = (if left then decide (c.holds v (σ.val k)) else decide (c.holds (σ.val k) v)) then .ok σ else .illegal
  | .assigned t a b => if (a = b ∨ (σ.may t a ∧ σ.may t b)) then .ok { σ with val := upd σ.val a (σ.val b) } else .illegal
  | .swapped t a b => if (a = b ∨ (σ.may t a ∧ σ.may t b)) then .ok { σ with val := upd (upd σ.val a (σ.val b)) b (σ.val a) } else .illegal
  | .compared t a b c r => if σ.may t a ∧ σ.may t b ∧ r = decide (c.holds (σ.val a) (σ.val b)) then .ok σ else .illegal
  | .entered t ks =>
    if ∀ k ∈ ks, σ.held k = none then .ok { σ with held := fun k => if k ∈ ks then some t else σ.held k, sect := upd σ.sect t ks } else .illegal
  | .read t k v => if σ.held k = some t ∧ v = σ.val k then .ok σ else .illegal
  | .wrote t k v => if σ.held k = some t then .ok { σ with val := upd σ.val k v } else .illegal
  | .left t => .ok { σ with held := fun k => if k ∈ σ.sect t then none else σ.held k, sect := upd σ.sect t [] }

end Verif.SyncValue
