import Verif.Core.Run
/-!
# When a mutex may be destroyed, and what becomes of the handles it owns: specification
-/

namespace Verif.WinMutexLife

inductive Event where
  /-- thread `t` calls `lock`, `try_lock` or a timed lock -/
  | call (t : Nat)
  /-- that call returns; `b`: with the mutex locked -/
  | owned (t : Nat) (b : Bool)
  /-- thread `t`, in `unlock`, gives up the mutex -/
  | release (t : Nat)
  /-- that call returns -/
  | done (t : Nat)
  /-- the destructor is called -/
  | destroyed
  /-- a handle is obtained from the system -/
  | opened (h : Nat)
  | closed (h : Nat)
  /-- a handle is given to the system to wait for it or to signal it -/
  | used (h : Nat)
  /-- a member of the mutex is used after its destruction -/
  | stale
deriving DecidableEq, Repr

inductive Phase where
  | out
  | locking
  /-- in `unlock`, after the mutex has been given up -/
  | leaving
deriving DecidableEq, Repr

structure Spec where
  /-- number of threads -/
  n : Nat
  ph : Nat → Phase
  owner : Option Nat
  isOpen : Nat → Bool
  dead : Bool

def start (n : Nat) : Spec := { n := n, ph := fun _ => .out, owner := none, isOpen := fun _ => false, dead := false }

def upd {α : Type} (f : Nat → α) (i : Nat) (x : α) : Nat → α := fun j => if j = i then x else f j

/-- A thread in this phase forbids the destruction; one that has given up the mutex only by the strict rule. -/
def Phase.forbids (strict : Bool) : Phase → Bool
  | .out => false
  | .locking => true
  | .leaving => strict

/-- The rules. `undefined`: the client has broken them: it uses a mutex that it has destroyed, unlocks one it has not locked, or destroys one that is locked or in use.
`illegal`: two threads own the mutex; a handle is used or closed that is not open; a member is used after the destruction. -/
def next (strict : Bool) (σ : Spec) : Event → Verdict Spec
  | .call t => if σ.dead then .undefined else if σ.ph t = .out then .ok { σ with ph := upd σ.ph t .locking } else .illegal
  | .owned t b =>
    if σ.ph t = .locking then
      if b then
        if σ.owner = none then .ok { σ with ph := upd σ.ph t .out, owner := some t } else .illegal
      else .ok { σ with ph := upd σ.ph t .out }
    else .illegal
  | .release t =>
    if σ.dead then .undefined
    else if σ.owner = some t then
      if σ.ph t = .out then .ok { σ with ph := upd σ.ph t .leaving, owner := none } else .illegal
    else .undefined
  | .done t => if σ.ph t = .leaving then .ok { σ with ph := upd σ.ph t .out } else .illegal
  | .destroyed =>
    if σ.dead || σ.owner.isSome || (List.range σ.n).any (fun t => (σ.ph t).forbids strict) then .undefined else .ok { σ with dead := true }
  | .opened h => if σ.isOpen h then .illegal else .ok { σ with isOpen := upd σ.isOpen h true }
  | .closed h => if σ.isOpen h then .ok { σ with isOpen := upd σ.isOpen h false } else .illegal
  | .used h => if σ.isOpen h then .ok σ else .illegal
  | .stale => .illegal

end Verif.WinMutexLife
