import Verif.Core.Run
/-!
# What a user of `thread_executor` may rely on

Written without reference to the model. One executor; closures are numbered in the order in which `submit` is called.
-/

namespace Verif.ThreadExec

/-- Threads that have nothing to do with the executor, and the threads that execute closures. -/
inductive Who where
  | client (i : Nat)
  | closure (c : Nat)
deriving DecidableEq, Repr

inductive Event where
  /-- `submit` is called with closure `c` -/
  | submits (w : Who) (c : Nat)
  /-- it has returned -/
  | accepted (w : Who) (c : Nat)
  /-- it has thrown `sync_queue_is_closed` -/
  | refused (w : Who) (c : Nat)
  /-- it has thrown something else -/
  | failed (w : Who) (c : Nat)
  /-- `close` is called -/
  | closes (w : Who)
  | hasClosed (w : Who)
  /-- `closed` is called -/
  | asks (w : Who)
  | says (w : Who) (b : Bool)
  /-- the destructor is called -/
  | destroys (i : Nat)
  | destroyed (i : Nat)
  | began (c : Nat)
  | ended (c : Nat)
  /-- the closure has thrown: the program ends -/
  | threw (c : Nat)
  /-- a mutex was used that does not exist, or destroyed while locked -/
  | broken (w : Who)
deriving DecidableEq, Repr

inductive Sub where
  | offered | accepted | dead
deriving DecidableEq, Repr

inductive Exec where
  | fresh | running | over
deriving DecidableEq, Repr

/-- A call in progress; `late`: `close` had returned before it began. -/
inductive Call where
  | submit (c : Nat) (late : Bool)
  | close
  | ask (late : Bool)
deriving DecidableEq, Repr

structure Sys where
  nc : Nat := 0
  sub : Nat → Sub := fun _ => .offered
  exec : Nat → Exec := fun _ => .fresh
  call : Who → Option Call := fun _ => none
  /-- clients with calls in progress -/
  inside : List Nat := []
  /-- `close`, or the destructor, has been called -/
  asked : Bool := false
  /-- `close` has returned -/
  closed : Bool := false
  dying : Option Nat := none
  gone : Bool := false

def upd {α : Type} (f : Nat → α) (i : Nat) (x : α) : Nat → α := fun j => if j = i then x else f j
def updW {α : Type} (f : Who → α) (w : Who) (x : α) : Who → α := fun v => if v = w then x else f v

/-- Who may call: a closure while it is executed, clients until they call the destructor. -/
inductive May where
  | yes | undefined | no

def Sys.may (σ : Sys) : Who → May
  | .client i => if σ.call (.client i) = none then (if σ.dying = none then .yes else .undefined) else .no
  | .closure c => if σ.call (.closure c) = none ∧ σ.exec c = .running ∧ σ.gone = false then .yes else .no

def Sys.enter (σ : Sys) (w : Who) (x : Call) : Sys :=
  { σ with call := updW σ.call w (some x), inside := match w with | .client i => i :: σ.inside | .closure _ => σ.inside }

def Sys.leave (σ : Sys) (w : Who) : Sys :=
  { σ with call := updW σ.call w none, inside := match w with | .client i => σ.inside.filter (· ≠ i) | .closure _ => σ.inside }

def Sys.begins (σ : Sys) (w : Who) (σ' : Sys) : Verdict Sys :=
  match σ.may w with
  | .yes => .ok σ'
  | .undefined => .undefined
  | .no => .illegal

def next (σ : Sys) : Event → Verdict Sys
  | .submits w c => if c = σ.nc then σ.begins w { σ.enter w (.submit c σ.closed) with nc := c + 1 } else .illegal
  -- not after `close` has returned
  | .accepted w c => if σ.call w = some (.submit c false) then .ok { σ.leave w with sub := upd σ.sub c .accepted } else .illegal
  -- only if somebody has called `close`; the closure is not executed
  | .refused w c =>
    if (σ.call w = some (.submit c false) ∨ σ.call w = some (.submit c true)) ∧ σ.asked = true ∧ σ.exec c = .fresh then
      .ok { σ.leave w with sub := upd σ.sub c .dead }
    else .illegal
  | .failed w c =>
    if σ.call w = some (.submit c false) ∧ σ.exec c = .fresh then .ok { σ.leave w with sub := upd σ.sub c .dead } else .illegal
  | .closes w => σ.begins w { σ.enter w .close with asked := true }
  | .hasClosed w => if σ.call w = some .close then .ok { σ.leave w with closed := true } else .illegal
  | .asks w => σ.begins w (σ.enter w (.ask σ.closed))
  | .says w b =>
    if (σ.call w = some (.ask false) ∧ b = false) ∨ (σ.asked = true ∧ b = true ∧ (σ.call w = some (.ask false) ∨ σ.call w = some (.ask true))) then .ok (σ.leave w)
    else .illegal
  -- by one client, when no other uses the executor
  | .destroys i => if σ.inside = [] ∧ σ.dying = none then .ok { σ with dying := some i, asked := true } else .undefined
  -- all closures have ended
  | .destroyed i =>
    if σ.dying = some i ∧ σ.gone = false ∧ (∀ c ∈ List.range σ.nc, σ.sub c = .dead ∨ σ.exec c = .over) then .ok { σ with gone := true } else .illegal
  -- once, and not if `submit` has thrown
  | .began c => if c < σ.nc ∧ σ.exec c = .fresh ∧ σ.sub c ≠ .dead ∧ σ.gone = false then .ok { σ with exec := upd σ.exec c .running } else .illegal
  | .ended c => if σ.exec c = .running ∧ σ.call (.closure c) = none then .ok { σ with exec := upd σ.exec c .over } else .illegal
  | .threw c => if σ.exec c = .running ∧ σ.call (.closure c) = none then .ok { σ with exec := upd σ.exec c .over } else .illegal
  | .broken _ => .illegal

end Verif.ThreadExec
