import Verif.Core.Run
/-!
# Thread ids: specification

An id stands for a thread, or for none. Two ids are equal exactly if they stand for the same thread, or both for none. What the order of two different ids is, is left open.
-/

namespace Verif.ThreadId

inductive Op where
  | eq | ne | lt | gt | le | ge
deriving DecidableEq, Repr

inductive Event where
  /-- object `k` starts thread `t` -/
  | started (k t : Nat)
  /-- thread `t` is started by other means, or is the first of the program -/
  | foreign (t : Nat)
  /-- thread `t` ends -/
  | ended (t : Nat)
  /-- whoever started the foreign thread `t` has joined or detached it -/
  | reaped (t : Nat)
  /-- thread `c` calls `join` for object `k`, which returns, or throws `resource_deadlock_would_occur` -/
  | joined (c k : Nat)
  | refused (c k : Nat)
  | detached (k : Nat)
  /-- variable `i` becomes `get_id()` of object `k` -/
  | got (i k : Nat)
  /-- thread `t` sets variable `i` to `this_thread::get_id()` -/
  | self (i t : Nat)
  | copied (i j : Nat)
  /-- variable `i` becomes `id()` -/
  | reset (i : Nat)
  /-- the variables are compared -/
  | compared (i j : Nat) (o : Op) (r : Bool)
deriving DecidableEq, Repr

structure Spec where
  cnt : Nat
  run : Nat → Bool
  /-- joined or detached -/
  freed : Nat → Bool
  obj : Nat → Option Nat
  var : Nat → Option Nat

def start : Spec := ⟨0, fun _ => false, fun _ => false, fun _ => none, fun _ => none⟩

def upd {α : Type} (g : Nat → α) (i : Nat) (x : α) : Nat → α := fun j => if j = i then x else g j

/-- What is known of the result of a comparison. -/
def expect (same : Bool) : Op → Option Bool
  | .eq => some same
  | .ne => some (!same)
  | .lt => if same then some false else none
  | .gt => if same then some false else none
  | .le => if same then some true else none
  | .ge => if same then some true else none

/-- The thread has ended and has been joined or detached. -/
def Spec.gone (σ : Spec) : Option Nat → Bool
  | some t => !σ.run t && σ.freed t
  | none => false

/-- The rules. `strict`: an id stands for its thread for ever; otherwise nothing is said of comparisons with ids of threads that are gone. -/
def next (strict : Bool) (σ : Spec) : Event → Verdict Spec
  | .started k t =>
    if t = σ.cnt ∧ σ.obj k = none then .ok { σ with cnt := t + 1, run := upd σ.run t true, freed := upd σ.freed t false, obj := upd σ.obj k (some t) } else .illegal
  | .foreign t => if t = σ.cnt then .ok { σ with cnt := t + 1, run := upd σ.run t true, freed := upd σ.freed t false } else .illegal
  | .ended t => if σ.run t then .ok { σ with run := upd σ.run t false } else .illegal
  | .reaped t => .ok { σ with freed := upd σ.freed t true }
  | .joined c k =>
    match σ.obj k with
    | some t => if t ≠ c ∧ σ.run t = false then .ok { σ with obj := upd σ.obj k none, freed := upd σ.freed t true } else .illegal
    | none => .illegal
  | .refused c k => if σ.obj k = some c then .ok σ else .illegal
  | .detached k =>
    match σ.obj k with
    | some t => .ok { σ with obj := upd σ.obj k none, freed := upd σ.freed t true }
    | none => .illegal
  | .got i k => .ok { σ with var := upd σ.var i (σ.obj k) }
  | .self i t => if σ.run t then .ok { σ with var := upd σ.var i (some t) } else .illegal
  | .copied i j => .ok { σ with var := upd σ.var i (σ.var j) }
  | .reset i => .ok { σ with var := upd σ.var i none }
  | .compared i j o r =>
    if !strict && (σ.gone (σ.var i) || σ.gone (σ.var j)) then .ok σ
    else match expect (decide (σ.var i = σ.var j)) o with
      | some b => if r = b then .ok σ else .illegal
      | none => .ok σ

end Verif.ThreadId
