import Verif.Core.Run
/-!
# When a condition variable may be destroyed

Written without reference to the models.

The documentation (/repo/doc/condition_variables.qbk 163-175 and 507-519) asks of the destructor: "All threads waiting on `*this` have been notified by a call to `notify_one` or `notify_all` (though
the respective calls to `wait` or `timed_wait` need not have returned)". The stricter rule asks that every such call has its mutex back.
-/

namespace Verif.CondLife

inductive Event where
  /-- thread `t` calls a wait function of the condition variable `c`, with its mutex locked -/
  | called (t c : Nat)
  /-- it has released the mutex, and waits -/
  | released (t : Nat)
  /-- it has been notified, has reached its deadline, has been interrupted, or has been woken for no reason -/
  | woken (t : Nat)
  /-- it has its mutex back, or has thrown before it gave it up -/
  | back (t : Nat)
  /-- thread `t` calls `notify_one` or `notify_all` of `c` -/
  | notify (t c : Nat)
  /-- that call returns -/
  | notified (t : Nat)
  | destroyed (c : Nat)
  /-- a member of `c` is used although `c` has been destroyed -/
  | stale (c : Nat)
deriving DecidableEq, Repr

inductive Phase where
  | out
  /-- has called `wait`, has not released its mutex -/
  | entering (c : Nat)
  | waiting (c : Nat)
  | woken (c : Nat)
deriving DecidableEq, Repr

structure Spec where
  /-- number of threads -/
  n : Nat
  ph : Nat → Phase
  /-- the condition variable the thread is notifying -/
  busy : Nat → Option Nat
  dead : Nat → Bool

def start (n : Nat) : Spec := { n := n, ph := fun _ => .out, busy := fun _ => none, dead := fun _ => false }

def upd {α : Type} (f : Nat → α) (i : Nat) (x : α) : Nat → α := fun j => if j = i then x else f j

/-- A thread in this phase forbids to destroy `c`; a woken one only by the strict rule. -/
def Phase.needs (strict : Bool) (c : Nat) : Phase → Bool
  | .out => false
  | .entering c' => c' == c
  | .waiting c' => c' == c
  | .woken c' => strict && c' == c

/-- The rules. `undefined`: the client has broken them, by destroying too early, or by using what has been destroyed. -/
def next (strict : Bool) (σ : Spec) : Event → Verdict Spec
  | .called t c => if σ.dead c then .undefined else if σ.ph t = .out then .ok { σ with ph := upd σ.ph t (.entering c) } else .illegal
  | .released t =>
    match σ.ph t with
    | .entering c => .ok { σ with ph := upd σ.ph t (.waiting c) }
    | _ => .illegal
  | .woken t =>
    match σ.ph t with
    | .waiting c => .ok { σ with ph := upd σ.ph t (.woken c) }
    | .woken _ => .ok σ
    | _ => .illegal
  | .back t =>
    match σ.ph t with
    | .entering _ => .ok { σ with ph := upd σ.ph t .out }
    | .woken _ => .ok { σ with ph := upd σ.ph t .out }
    | _ => .illegal
  | .notify t c => if σ.dead c then .undefined else .ok { σ with busy := upd σ.busy t (some c) }
  | .notified t => .ok { σ with busy := upd σ.busy t none }
  | .destroyed c =>
    if σ.dead c || (List.range σ.n).any (fun t => (σ.ph t).needs strict c || σ.busy t == some c) then .undefined else .ok { σ with dead := upd σ.dead c true }
  | .stale _ => .illegal

end Verif.CondLife
