import Verif.Testable.Model
/-! # What `testable_mutex` promises -/

namespace Verif.Testable

structure Spec where
  /-- who holds the mutex, how often: since the lock has returned, until the unlock begins -/
  holder : Option (Nat × Nat) := none
  /-- who is in which call -/
  busy : Nat → Option Op := fun _ => none
  /-- the program has been ended by an assertion -/
  ended : Bool := false

def Spec.holds (σ : Spec) (t : Nat) : Bool :=
  match σ.holder with
  | some (u, _) => u == t
  | none => false

def Spec.begin (σ : Spec) (t : Nat) (op : Op) : Spec := { σ with busy := upd σ.busy t (some op) }

def Spec.drop (σ : Spec) : Spec :=
  match σ.holder with
  | some (u, d) => { σ with holder := if d ≤ 1 then none else some (u, d - 1) }
  | none => σ

/-- `strict`: the mutex may be locked recursively if it is recursive. -/
def nextLive (c : Cfg) (strict : Bool) (σ : Spec) : Event → Verdict Spec
  | .began t .unlock =>
    if σ.busy t ≠ none then .illegal
    else if σ.holds t then .ok (σ.drop.begin t .unlock)
    -- with assertions this does not happen
    else if c.asserts then .illegal
    else .undefined
  | .began t op =>
    if σ.busy t ≠ none then .illegal
    else if σ.holds t = false then .ok (σ.begin t op)
    else if strict ∧ c.recursive then .ok (σ.begin t op)
    else if c.asserts then .illegal
    else .undefined
  -- an assertion fails only if the precondition is violated
  | .assertion t .unlock => if σ.busy t = none ∧ σ.holds t = false then .ok { σ with ended := true } else .illegal
  | .assertion t _ => if σ.busy t = none ∧ σ.holds t ∧ ¬ (strict ∧ c.recursive) then .ok { σ with ended := true } else .illegal
  | .did t .unlock => if σ.busy t = some .unlock then .ok { σ with busy := upd σ.busy t none } else .illegal
  -- mutual exclusion
  | .did t op =>
    if σ.busy t ≠ some op then .illegal
    else
      match σ.holder with
      | none => .ok { σ with busy := upd σ.busy t none, holder := some (t, 1) }
      | some (u, d) => if u = t ∧ c.recursive then .ok { σ with busy := upd σ.busy t none, holder := some (t, d + 1) } else .illegal
  -- a try fails only if someone else has the mutex or is locking or unlocking it
  | .failed t op =>
    if σ.busy t = some op ∧ (op = .tryFor ∨ op = .tryLock ∧ (σ.holder ≠ none ∧ σ.holds t = false ∨ ∃ u, u < c.n ∧ u ≠ t ∧ σ.busy u ≠ none)) then .ok { σ with busy := upd σ.busy t none } else .illegal
  -- the truth
  | .mine t b => if σ.busy t = none ∧ b = σ.holds t then .ok σ else .illegal
  -- the truth, except while some thread is locking or unlocking
  | .isLocked t b => if σ.busy t = none ∧ (σ.holder ≠ none → b = true) ∧ (σ.holder = none ∧ (∀ u, u < c.n → σ.busy u = none) → b = false) then .ok σ else .illegal
  | .gotId t r =>
    if σ.busy t = none ∧ (∀ h, σ.holder = some h → r = some h.1) ∧ (σ.holder = none → ∀ u, r = some u → σ.busy u ≠ none) then .ok σ else .illegal
  | .undefinedBehaviour => .illegal

/-- After an assertion nothing happens. -/
def next (c : Cfg) (strict : Bool) (σ : Spec) (e : Event) : Verdict Spec := if σ.ended then .illegal else nextLive c strict σ e

end Verif.Testable
