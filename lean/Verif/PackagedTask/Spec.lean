import Verif.PackagedTask.Model
/-!
# What `packaged_task` promises

A function is given to the library when a task is constructed from it. Its *run* is not begun, going on, over with an outcome that is still to be published, or published. The task
objects and futures refer to functions.

`reset` has the effect it promises only on a function that has not been begun and whose future has not been taken; after any other `reset` the function is *spoiled*, and nothing is said
about it any more (everything is still said about the others).
-/

namespace Verif.PackagedTask

inductive Run where
  | fresh
  | running
  | over (o : Out)
  | ready (o : Out)
deriving DecidableEq, Repr

structure Fn where
  run : Run := .fresh
  spoiled : Bool := false
deriving DecidableEq, Repr

structure Spec where
  n : Nat
  fn : Nat → Fn
  nt : Nat
  task : Nat → Option Task
  nf : Nat
  fut : Nat → Nat
  /-- the functions each thread is running, innermost first -/
  runs : Nat → List (Nat × Mode)
  /-- the functions whose outcome each thread publishes after its end -/
  exit : Nat → List Nat
  gone : Nat → Bool

def Spec.init : Spec :=
  { n := 0, fn := fun _ => {}, nt := 0, task := fun _ => none, nf := 0, fut := fun _ => 0, runs := fun _ => [], exit := fun _ => [], gone := fun _ => false }

/-- The owner of a function that has not been begun goes away: its promise is broken. -/
def Fn.abandon (x : Fn) : Fn := if x.run = .fresh ∧ x.spoiled = false then { x with run := .ready (.exc .broken) } else x

def giveUp (fn : Nat → Fn) : Option Nat → Nat → Fn
  | none => fn
  | some i => upd fn i (fn i).abandon

def Run.isReady : Run → Bool
  | .ready _ => true
  | _ => false

def nextRet (σ : Spec) (op : Op) (r : Res) : Verdict Spec :=
  match op with
  | .new => if r = .ok then .ok { σ with n := σ.n + 1, fn := upd σ.fn σ.n {}, nt := σ.nt + 1, task := upd σ.task σ.nt (some ⟨some σ.n, false⟩) } else .illegal
  | .empty => if r = .ok then .ok { σ with nt := σ.nt + 1, task := upd σ.task σ.nt (some ⟨none, false⟩) } else .illegal
  | .move k =>
    match σ.task k with
    | some x => if r = .ok then .ok { σ with nt := σ.nt + 1, task := upd (upd σ.task k (some ⟨none, false⟩)) σ.nt (some x) } else .illegal
    | none => .illegal
  | .assign k j =>
    match σ.task k, σ.task j with
    | some x, some y =>
      if r = .ok then
        if k = j then .ok σ else .ok { σ with fn := giveUp σ.fn x.st, task := upd (upd σ.task j (some ⟨none, false⟩)) k (some y) }
      else .illegal
    | _, _ => .illegal
  | .swap k j =>
    match σ.task k, σ.task j with
    | some x, some y => if r = .ok then .ok { σ with task := upd (upd σ.task k (some y)) j (some x) } else .illegal
    | _, _ => .illegal
  | .destroy k =>
    match σ.task k with
    | some x => if r = .ok then .ok { σ with fn := giveUp σ.fn x.st, task := upd σ.task k none } else .illegal
    | none => .illegal
  | .reset k =>
    match σ.task k with
    | some x =>
      match x.st with
      | none => if r = .noState then .ok σ else .illegal
      | some i =>
        if r = .ok then
          .ok { σ with fn := upd σ.fn i { σ.fn i with spoiled := (σ.fn i).spoiled || x.got || (σ.fn i).run != .fresh }, task := upd σ.task k (some ⟨some i, false⟩) }
        else .illegal
    | none => .illegal
  -- a task without function throws task_moved; the future can be taken once
  | .getFuture k =>
    match σ.task k with
    | some x =>
      match x.st with
      | none => if r = .moved then .ok σ else .illegal
      | some i =>
        if x.got then (if r = .retrieved then .ok σ else .illegal)
        else if r = .ok then .ok { σ with nf := σ.nf + 1, fut := upd σ.fut σ.nf i, task := upd σ.task k (some ⟨some i, true⟩) }
        else .illegal
    | none => .illegal
  | .valid k =>
    match σ.task k with
    | some x => if r = .bool x.st.isSome then .ok σ else .illegal
    | none => .illegal
  -- a call that does not invoke the function: there is none, or it was begun before
  | .call k m =>
    match σ.task k with
    | some x =>
      match x.st with
      | none => if r = .moved then .ok σ else .illegal
      | some i =>
        if (σ.fn i).spoiled then .ok σ
        else match (σ.fn i).run with
          | .fresh => .illegal
          | .ready (.value _) => if r = (if m = .atExit then .satisfied else .started) then .ok σ else .illegal
          | _ => if r = .started then .ok σ else .illegal
    | none => .illegal
  | .isReady f =>
    if f < σ.nf then
      if (σ.fn (σ.fut f)).spoiled || r = .bool (σ.fn (σ.fut f)).run.isReady then .ok σ else .illegal
    else .illegal
  -- `get` delivers the outcome, once it is published
  | .get f =>
    if f < σ.nf then
      if (σ.fn (σ.fut f)).spoiled then .ok σ
      else match (σ.fn (σ.fut f)).run with
        | .ready o => if r = .out o then .ok σ else .illegal
        | _ => .illegal
    else .illegal

def next (lib : Nat → Bool) (σ : Spec) : Event → Verdict Spec
  | .ret t op r => if σ.gone t then .illegal else nextRet σ op r
  -- a function is invoked by a task that owns it, if it has not been begun
  | .invoked t k m i =>
    if σ.gone t then .illegal
    else match σ.task k with
    | some x =>
      if x.st = some i ∧ ((σ.fn i).run = .fresh ∨ (σ.fn i).spoiled = true) then
        .ok { σ with fn := upd σ.fn i { σ.fn i with run := .running }, runs := upd σ.runs t ((i, m) :: σ.runs t) }
      else .illegal
    | none => .illegal
  -- its outcome is that of the run; a call at thread exit keeps it back
  | .ended t o r =>
    match σ.runs t with
    | (i, m) :: rest =>
      let σ' := { σ with runs := upd σ.runs t rest }
      if (σ.fn i).spoiled then
        .ok (if m = .atExit ∧ r = .ok ∧ lib t then { σ' with exit := upd σ.exit t (σ.exit t ++ [i]) } else σ')
      else if (σ.fn i).run = .running ∧ r = .ok ∧ o ≠ .exc .broken then
        match m with
        | .now => .ok { σ' with fn := upd σ.fn i { σ.fn i with run := .ready o } }
        | .atExit => .ok { σ' with fn := upd σ.fn i { σ.fn i with run := .over o }, exit := if lib t then upd σ.exit t (σ.exit t ++ [i]) else σ.exit }
      else .illegal
    | [] => .illegal
  | .exited t => if σ.gone t = false ∧ σ.runs t = [] then .ok { σ with gone := upd σ.gone t true } else .illegal
  | .published t =>
    if σ.gone t then
      match σ.exit t with
      | i :: rest =>
        match (σ.fn i).run with
        | .over o => .ok { σ with fn := upd σ.fn i { σ.fn i with run := .ready o }, exit := upd σ.exit t rest }
        | _ => if (σ.fn i).spoiled then .ok { σ with exit := upd σ.exit t rest } else .illegal
      | [] => .illegal
    else .illegal

end Verif.PackagedTask
