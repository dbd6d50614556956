import Verif.Core.Run
/-!
# What a user may rely on about the life of results and functions given to futures

Written without reference to the model.

A *result* is what a future refers to: the value or exception once it is there, and the function that has been given to `async` or `then` to compute it. Results are numbered in the
order in which they come into being. A *future* here is any object through which the client refers to a result: `future`, `shared_future`, the argument of a function given to
`then`. Futures have names, a new one for each.
-/

namespace Verif.StateLife

/-- How the function given to `then` is called. -/
inductive Pol where
  /-- at once, by the thread that makes the parent ready, or by `then` itself (`launch::sync`) -/
  | sync
  /-- by another thread (`launch::async`, an executor) -/
  | later
  /-- by a thread that waits for the result (`launch::deferred`) -/
  | deferred
deriving DecidableEq, Repr

inductive Kind where
  /-- of a `promise`, or of a `packaged_task` -/
  | promise
  /-- `async`, in another thread or an executor -/
  | async
  /-- `async(launch::deferred, f)` -/
  | deferred
  /-- `then` on the result `p` -/
  | cont (p : Nat) (pol : Pol)
deriving DecidableEq, Repr

inductive Event where
  /-- the result `i` has come into being -/
  | made (i : Nat) (k : Kind)
  /-- `o` is a new future for the result `i` -/
  | got (o i : Nat)
  /-- the future `o` has been destroyed, moved from, or given another result -/
  | dropped (o : Nat)
  /-- the promise or the task for `i` has been destroyed -/
  | left (i : Nat)
  /-- a thread waits for `i`, which is deferred, and will call its function -/
  | started (i : Nat)
  /-- the function of `i` is called -/
  | began (i : Nat)
  /-- the value or exception of `i` is there -/
  | ready (i : Nat)
  /-- the executor has destroyed the work for `i` without doing it -/
  | discarded (i : Nat)
  /-- the result, with value or exception and function, has been destroyed -/
  | destroyed (i : Nat)
  /-- the result has been used although it has been destroyed -/
  | stale (i : Nat)
deriving DecidableEq, Repr

/-- How far a result is. -/
inductive Phase where
  | waiting | started | running | ready | lost
deriving DecidableEq, Repr

structure Spec where
  n : Nat
  kind : Nat → Kind
  st : Nat → Phase
  /-- the promise or task exists -/
  own : Nat → Bool
  /-- the futures: name and result -/
  refs : List (Nat × Nat)
  dead : Nat → Bool

def start : Spec := { n := 0, kind := fun _ => .promise, st := fun _ => .waiting, own := fun _ => false, refs := [], dead := fun _ => false }

def upd {α : Type} (f : Nat → α) (i : Nat) (x : α) : Nat → α := fun j => if j = i then x else f j

/-- The function is to be called even if nobody waits for it. -/
def Kind.eager : Kind → Bool
  | .async => true
  | .cont _ .sync => true
  | .cont _ .later => true
  | _ => false

/-- It is called only by a thread that waits. -/
def Kind.lazy : Kind → Bool
  | .deferred => true
  | .cont _ .deferred => true
  | _ => false

/-- The result `c` comes from a `then` on `i`. -/
def Kind.of (i : Nat) : Kind → Bool
  | .cont p _ => p == i
  | _ => false

/-- The result is needed: there is a future, a promise or a task for it; its function is being called, or has to be called yet; or it will be the argument of a function that exists
and has not been called. -/
def Spec.needed (σ : Spec) (i : Nat) : Bool :=
  σ.refs.any (fun r => r.2 == i) || σ.own i || σ.st i == .started || σ.st i == .running || (σ.st i == .waiting && (σ.kind i).eager) ||
  (List.range σ.n).any (fun c => !σ.dead c && (σ.kind c).of i && (σ.st c == .waiting || σ.st c == .started))

/-- `d` is `i`, or comes from it by one or more `then`s. -/
inductive Stems (kind : Nat → Kind) (i : Nat) : Nat → Prop
  | self : Stems kind i i
  | thn {d p : Nat} {pol : Pol} : kind d = .cont p pol → Stems kind i p → Stems kind i d

/-- The parent of `i` is ready, if `i` has one. -/
def Spec.parentReady (σ : Spec) (i : Nat) : Bool :=
  match σ.kind i with
  | .cont p _ => σ.st p == .ready
  | _ => true

/-- The parent of a new result exists. -/
def Spec.parentAlive (σ : Spec) : Kind → Bool
  | .cont p _ => decide (p < σ.n) && !σ.dead p
  | _ => true

/-- The rules. -/
def next (σ : Spec) : Event → Verdict Spec
  | .made i k =>
    if i = σ.n ∧ σ.parentAlive k = true then
      .ok { σ with n := σ.n + 1, kind := upd σ.kind i k, own := upd σ.own i (decide (k = .promise)) }
    else .illegal
  | .got o i => if i < σ.n ∧ σ.dead i = false ∧ σ.refs.all (fun r => r.1 != o) = true then .ok { σ with refs := (o, i) :: σ.refs } else .illegal
  | .dropped o => if σ.refs.any (fun r => r.1 == o) = true then .ok { σ with refs := σ.refs.filter (fun r => r.1 != o) } else .illegal
  | .left i => if i < σ.n ∧ σ.own i = true ∧ σ.st i = .ready then .ok { σ with own := upd σ.own i false } else .illegal
  | .started i => if i < σ.n ∧ σ.dead i = false ∧ σ.st i = .waiting ∧ (σ.kind i).lazy = true then .ok { σ with st := upd σ.st i .started } else .illegal
  | .began i =>
    if i < σ.n ∧ σ.dead i = false ∧ σ.parentReady i = true ∧ (σ.st i = .waiting ∧ (σ.kind i).eager = true ∨ σ.st i = .started) then
      .ok { σ with st := upd σ.st i .running }
    else .illegal
  | .ready i =>
    if i < σ.n ∧ σ.dead i = false ∧ (σ.st i = .running ∨ σ.st i = .waiting ∧ σ.own i = true) then .ok { σ with st := upd σ.st i .ready } else .illegal
  | .discarded i =>
    if i < σ.n ∧ σ.dead i = false ∧ σ.st i = .waiting ∧ (σ.kind i).eager = true ∧ σ.parentReady i = true then .ok { σ with st := upd σ.st i .lost } else .illegal
  | .destroyed i => if i < σ.n ∧ σ.dead i = false ∧ σ.needed i = false then .ok { σ with dead := upd σ.dead i true } else .illegal
  | .stale _ => .illegal

end Verif.StateLife
