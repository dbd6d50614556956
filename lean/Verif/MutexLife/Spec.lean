import Verif.Core.Run
/-!
# When a mutex may be destroyed: specification

A mutex may be destroyed when no thread owns it or is in a call that locks it, even if calls of `unlock` have not returned yet, provided that somebody has found out
that these have taken effect: another thread has since returned from a call with an ownership that is impossible before.
-/

namespace Verif.MutexLife

inductive Mode where
  | exclusive
  | shared
  | upgrade
deriving DecidableEq, Repr

/-- Two threads cannot have these ownerships at the same time. -/
def conflict : Mode → Mode → Bool
  | .exclusive, _ => true
  | _, .exclusive => true
  | .upgrade, .upgrade => true
  | _, _ => false

/-- What a thread owns: how, and how many times. -/
abbrev Own := Option (Mode × Nat)

inductive Event where
  /-- thread `t` calls a function that locks -/
  | call (t : Nat) (m : Mode)
  /-- that call returns; `b`: with the mutex locked -/
  | owned (t : Nat) (b : Bool)
  /-- thread `t` calls the function that unlocks what it owns -/
  | callUnlock (t : Nat)
  /-- that call returns -/
  | done (t : Nat)
  | destroyed
  /-- a member of the mutex is used after its destruction -/
  | stale
deriving DecidableEq, Repr

inductive Phase where
  | out (h : Own)
  | locking (h : Own) (m : Mode)
  /-- in `unlock`; `h` is what is owned afterwards; `passed`: somebody has found out that it has taken effect -/
  | leaving (h : Own) (m : Mode) (passed : Bool)
deriving DecidableEq, Repr

/-- One more ownership. -/
def bump (h : Own) (m : Mode) : Own :=
  match h with
  | none => some (m, 1)
  | some (m', d) => some (m', d + 1)

/-- One ownership less. -/
def drop (m : Mode) (d : Nat) : Own := if d ≤ 1 then none else some (m, d - 1)

def Phase.own : Phase → Own
  | .out h => h
  | .locking h _ => h
  | .leaving h _ _ => h

/-- What the acquisition of `m` by another thread tells about a thread. -/
def Phase.pass (m : Mode) : Phase → Phase
  | .leaving h m' p => .leaving h m' (p || conflict m m')
  | ph => ph

/-- A thread in this phase forbids the destruction. -/
def Phase.forbids : Phase → Bool
  | .out h => h.isSome
  | .locking _ _ => true
  | .leaving h _ p => h.isSome || !p

structure Spec where
  /-- number of threads -/
  n : Nat
  recur : Bool
  ph : Nat → Phase
  dead : Bool

def start (n : Nat) (recur : Bool) : Spec := ⟨n, recur, fun _ => .out none, false⟩

def upd {α : Type} (f : Nat → α) (i : Nat) (x : α) : Nat → α := fun j => if j = i then x else f j

/-- Another thread owns the mutex in a way that excludes `m`. -/
def excluded (σ : Spec) (t : Nat) (m : Mode) : Bool :=
  (List.range σ.n).any fun u => decide (u ≠ t) && match (σ.ph u).own with
    | some (m', _) => conflict m m'
    | none => false

/-- A thread that owns `h` may get `m` as well. -/
def again (recur : Bool) (h : Own) (m : Mode) : Bool :=
  match h with
  | none => true
  | some (m', _) => recur && decide (m = .exclusive) && decide (m' = .exclusive)

/-- The rules. `undefined`: the client has broken them: it uses a mutex that it has destroyed, unlocks one it does not own, or destroys one that is in use. `illegal`:
two threads have the mutex against the rules; a member is used after the destruction. -/
def next (σ : Spec) : Event → Verdict Spec
  | .call t m =>
    if σ.dead then .undefined else
    match σ.ph t with
    | .out h => .ok { σ with ph := upd σ.ph t (.locking h m) }
    | _ => .illegal
  | .owned t b =>
    match σ.ph t with
    | .locking h m =>
      if b then
        if excluded σ t m || !again σ.recur h m then .illegal
        else .ok { σ with ph := fun u => if u = t then .out (bump h m) else (σ.ph u).pass m }
      else .ok { σ with ph := upd σ.ph t (.out h) }
    | _ => .illegal
  | .callUnlock t =>
    if σ.dead then .undefined else
    match σ.ph t with
    | .out (some (m, d)) => .ok { σ with ph := upd σ.ph t (.leaving (drop m d) m false) }
    | .out none => .undefined
    | _ => .illegal
  | .done t =>
    match σ.ph t with
    | .leaving h _ _ => .ok { σ with ph := upd σ.ph t (.out h) }
    | _ => .illegal
  | .destroyed => if σ.dead || (List.range σ.n).any (fun t => (σ.ph t).forbids) then .undefined else .ok { σ with dead := true }
  | .stale => .illegal

end Verif.MutexLife
