import Verif.ThreadGroup.Model
/-!
# What a `thread_group` promises
-/

namespace Verif.ThreadGroup

/-- The members, and the thread each object holds. -/
structure Grp where
  members : List Nat := []
  tid : Nat → Option Nat := fun _ => none

/-- `exact`: membership is reported exactly, of every object; otherwise only of objects that hold a thread. Adding a member again, and giving a member another
thread to hold, are outside the contract. -/
def next (exact : Bool) (σ : Grp) : Event → Verdict Grp
  | .made p t => .ok { σ with tid := upd σ.tid p (some t) }
  | .madeEmpty p => .ok { σ with tid := upd σ.tid p none }
  | .released p => .ok { σ with tid := upd σ.tid p none }
  | .moved d s => if d ∈ σ.members then .undefined else .ok { σ with tid := upd (upd σ.tid d (σ.tid s)) s none }
  | .created _ p t => if p ∈ σ.members then .illegal else .ok { members := σ.members ++ [p], tid := upd σ.tid p (some t) }
  | .added _ p => if p ∈ σ.members then .undefined else .ok { σ with members := σ.members ++ [p] }
  | .refused _ p => if p ∈ σ.members ∨ (exact = false ∧ σ.tid p = none) then .ok σ else .illegal
  | .removed _ p => .ok { σ with members := σ.members.filter (· ≠ p) }
  | .isIn _ p b => if b = decide (p ∈ σ.members) ∨ (exact = false ∧ σ.tid p = none) then .ok σ else .illegal
  | .selfIn c b => if b = decide (∃ p ∈ σ.members, σ.tid p = some c) then .ok σ else .illegal
  | .size _ k => if k = σ.members.length then .ok σ else .illegal
  | .interruptAll _ ts => if ts = σ.members.filterMap σ.tid then .ok σ else .illegal
  | .joined _ p => if p ∈ σ.members ∧ σ.tid p ≠ none then .ok { σ with tid := upd σ.tid p none } else .illegal
  | .joinAllRet _ => if ∀ p ∈ σ.members, σ.tid p = none then .ok σ else .illegal
  | .joinAllThrew _ => .ok σ
  -- each member is deleted once, and then none is left
  | .deleted _ p => if p ∈ σ.members then .ok { σ with members := σ.members.filter (· ≠ p) } else .illegal
  | .destroyed _ => if σ.members = [] then .ok σ else .illegal

end Verif.ThreadGroup
