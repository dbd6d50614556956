import Verif.Core.Run
/-!
# What a user of `inline_executor` may rely on

Written without reference to the model. One executor, any number of threads; closures are numbered in the order in which `submit` is called. A closure may
call the executor in its turn, so that a thread has a stack of calls in progress.
-/

namespace Verif.InlineExec

inductive Event where
  /-- thread `w` calls `submit` with closure `c` -/
  | submits (w c : Nat)
  /-- it has returned -/
  | accepted (w c : Nat)
  /-- it has thrown `sync_queue_is_closed` -/
  | refused (w c : Nat)
  /-- thread `w` begins to execute closure `c` -/
  | began (w c : Nat)
  | ended (w c : Nat)
  /-- the closure has thrown: the program ends -/
  | threw (w c : Nat)
  | closes (w : Nat)
  | hasClosed (w : Nat)
  | asks (w : Nat)
  | says (w : Nat) (b : Bool)
  | destroys (w : Nat)
  | destroyed (w : Nat)
  /-- a mutex was used that does not exist, or destroyed while locked -/
  | broken (w : Nat)
deriving DecidableEq, Repr

inductive Stage where
  | fresh | running | over
deriving DecidableEq, Repr

/-- A call in progress; `late`: `close` had returned before it began. -/
inductive Call where
  | submit (c : Nat) (late : Bool) (g : Stage)
  | close
  | ask (late : Bool)
deriving DecidableEq, Repr

structure Sys where
  nc : Nat := 0
  /-- the calls of each thread in progress, innermost first -/
  stack : Nat → List Call := fun _ => []
  /-- the threads of all calls in progress -/
  inside : List Nat := []
  /-- `close`, or the destructor, has been called -/
  asked : Bool := false
  /-- `close` has returned -/
  closed : Bool := false
  dying : Option Nat := none
  gone : Bool := false
  /-- `std::terminate` has been called -/
  over : Bool := false

def upd {α : Type} (f : Nat → α) (i : Nat) (x : α) : Nat → α := fun j => if j = i then x else f j

def Sys.push (σ : Sys) (w : Nat) (x : Call) : Sys := { σ with stack := upd σ.stack w (x :: σ.stack w), inside := w :: σ.inside }
def Sys.pop (σ : Sys) (w : Nat) : Sys := { σ with stack := upd σ.stack w (σ.stack w).tail, inside := σ.inside.erase w }
def Sys.top (σ : Sys) (w : Nat) (x : Call) : Sys := { σ with stack := upd σ.stack w (x :: (σ.stack w).tail) }

/-- A thread that has calls in progress calls again only from a closure. -/
def inUserCode : List Call → Bool
  | [] => true
  | .submit _ _ .running :: _ => true
  | _ => false

def Sys.begins (σ : Sys) (w : Nat) (σ' : Sys) : Verdict Sys :=
  if inUserCode (σ.stack w) then (if σ.dying = none then .ok σ' else .undefined) else .illegal

def next (σ : Sys) (e : Event) : Verdict Sys :=
  if σ.over then .illegal else
  match e with
  | .submits w c => if c = σ.nc then σ.begins w { σ.push w (.submit c σ.closed .fresh) with nc := c + 1 } else .illegal
  -- in the thread that has called `submit`, which has not returned; not if `close` had returned before
  | .began w c => if (σ.stack w).head? = some (.submit c false .fresh) then .ok (σ.top w (.submit c false .running)) else .illegal
  | .ended w c => if (σ.stack w).head? = some (.submit c false .running) then .ok (σ.top w (.submit c false .over)) else .illegal
  | .threw w c => if (σ.stack w).head? = some (.submit c false .running) then .ok { σ with over := true } else .illegal
  -- when the closure has been executed
  | .accepted w c => if (σ.stack w).head? = some (.submit c false .over) then .ok (σ.pop w) else .illegal
  -- only if somebody has called `close`; the closure has not been executed
  | .refused w c =>
    if ((σ.stack w).head? = some (.submit c false .fresh) ∨ (σ.stack w).head? = some (.submit c true .fresh)) ∧ σ.asked = true then .ok (σ.pop w) else .illegal
  | .closes w => σ.begins w { σ.push w .close with asked := true }
  | .hasClosed w => if (σ.stack w).head? = some .close then .ok { σ.pop w with closed := true } else .illegal
  | .asks w => σ.begins w (σ.push w (.ask σ.closed))
  | .says w b =>
    if ((σ.stack w).head? = some (.ask false) ∧ b = false) ∨
        (σ.asked = true ∧ b = true ∧ ((σ.stack w).head? = some (.ask false) ∨ (σ.stack w).head? = some (.ask true))) then .ok (σ.pop w)
    else .illegal
  -- when no call is in progress
  | .destroys w => if σ.inside = [] ∧ σ.dying = none then .ok { σ with dying := some w, asked := true } else .undefined
  | .destroyed w => if σ.dying = some w ∧ σ.gone = false ∧ σ.inside = [] then .ok { σ with gone := true } else .illegal
  | .broken _ => .illegal

end Verif.InlineExec
