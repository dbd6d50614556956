import Verif.Core.Run
/-!
# The functions given to executors: specification

A `work` is empty or stands for a function object. Copies stand for the same function object, a moved-from work is empty, a work moved onto itself stays as it is. The function object is
destroyed when no work stands for it any more, at once and only then. A call of a work calls its function object; a call of an empty work does nothing.
-/

namespace Verif.Work

/-- What a variable of type `work` is. -/
inductive Handle where
  /-- there is no such variable at present -/
  | absent
  | empty
  | has (f : Nat)
deriving DecidableEq, Repr

inductive Event where
  /-- variable `i` is made from a new function object `f` -/
  | made (i f : Nat)
  | madeEmpty (i : Nat)
  /-- variable `i` is made as a copy of `j`, or by moving `j` -/
  | copied (i j : Nat)
  | moved (i j : Nat)
  /-- assignments to `i` -/
  | assigned (i j : Nat)
  | moveAssigned (i j : Nat)
  /-- variable `i` is destroyed -/
  | dropped (i : Nat)
  /-- the function object `f` is destroyed -/
  | gone (f : Nat)
  /-- call `c`, of variable `i`, calls the function object `f`, or nothing -/
  | called (c i : Nat) (f : Option Nat)
  /-- the function object called by `c` returns or throws, and so does `c` -/
  | ended (c : Nat) (threw : Bool)
  /-- the function object of call `c` is used after its destruction -/
  | stale (c : Nat)
deriving DecidableEq, Repr

structure Spec where
  /-- number of variables -/
  size : Nat
  ref : Nat → Handle
  /-- function objects made and destroyed -/
  made : Nat → Bool
  gone : Nat → Bool
  /-- the function object each call in progress has called -/
  run : Nat → Option Nat
  /-- a function object that has to be destroyed now -/
  due : Option Nat

def start (n : Nat) : Spec := ⟨n, fun _ => .absent, fun _ => false, fun _ => false, fun _ => none, none⟩

def upd {α : Type} (g : Nat → α) (i : Nat) (x : α) : Nat → α := fun j => if j = i then x else g j

/-- Some variable stands for `f`. -/
def referred (n : Nat) (ref : Nat → Handle) (f : Nat) : Bool := (List.range n).any fun i => decide (ref i = .has f)

/-- The variables have changed; one of them stood for `old`. -/
def Spec.change (σ : Spec) (old : Handle) (ref : Nat → Handle) : Verdict Spec :=
  .ok { σ with ref := ref, due := match old with
    | .has f => if referred σ.size ref f then none else some f
    | _ => none }

/-- The rules when no function object has to be destroyed. `undefined`: the client has destroyed the last work that stands for a function object while that was being called. -/
def rule (σ : Spec) : Event → Verdict Spec
  | .made i f => if σ.ref i = .absent ∧ σ.made f = false then .ok { σ with ref := upd σ.ref i (.has f), made := upd σ.made f true } else .illegal
  | .madeEmpty i => if σ.ref i = .absent then .ok { σ with ref := upd σ.ref i .empty } else .illegal
  | .copied i j => if σ.ref i = .absent ∧ σ.ref j ≠ .absent then .ok { σ with ref := upd σ.ref i (σ.ref j) } else .illegal
  | .moved i j => if σ.ref i = .absent ∧ σ.ref j ≠ .absent then .ok { σ with ref := upd (upd σ.ref j .empty) i (σ.ref j) } else .illegal
  | .assigned i j => if σ.ref i ≠ .absent ∧ σ.ref j ≠ .absent then σ.change (σ.ref i) (upd σ.ref i (σ.ref j)) else .illegal
  | .moveAssigned i j =>
    if σ.ref i ≠ .absent ∧ σ.ref j ≠ .absent then
      if i = j then .ok σ else σ.change (σ.ref i) (upd (upd σ.ref j .empty) i (σ.ref j))
    else .illegal
  | .dropped i => if σ.ref i ≠ .absent then σ.change (σ.ref i) (upd σ.ref i .absent) else .illegal
  | .gone _ => .illegal
  | .called c i f =>
    match σ.run c, σ.ref i, f with
    | none, .has g, some f => if f = g ∧ σ.gone f = false then .ok { σ with run := upd σ.run c (some f) } else .illegal
    | none, .empty, none => .ok σ
    | _, _, _ => .illegal
  | .ended c _ =>
    match σ.run c with
    | some f => if σ.gone f then .illegal else .ok { σ with run := upd σ.run c none }
    | none => .illegal
  | .stale c =>
    match σ.run c with
    | some f => if σ.gone f then .undefined else .illegal
    | none => .illegal

def next (σ : Spec) (e : Event) : Verdict Spec :=
  match σ.due with
  | none => rule σ e
  | some f => if e = .gone f ∧ σ.gone f = false then .ok { σ with due := none, gone := upd σ.gone f true } else .illegal

end Verif.Work
