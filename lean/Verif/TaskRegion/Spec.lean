import Verif.Core.Run
/-!
# What a user of task regions may rely on

Written without reference to the model. Regions and tasks are numbered in the order in which they come into being.
-/

namespace Verif.TaskRegion

/-- The threads of the executor, and all others. -/
inductive Who where
  | worker (i : Nat)
  | client (i : Nat)
deriving DecidableEq, Repr

/-- What a function may throw: something of its own, `task_canceled_exception`, an `exception_list`. -/
inductive Exc where
  | user (n : Nat)
  | canceled
  | list (l : List Exc)

mutual
def Exc.decEq : (a b : Exc) → Decidable (a = b)
  | .user n, .user m => if h : n = m then isTrue (by rw [h]) else isFalse (by intro e; cases e; exact h rfl)
  | .user _, .canceled => isFalse (by intro e; cases e)
  | .user _, .list _ => isFalse (by intro e; cases e)
  | .canceled, .user _ => isFalse (by intro e; cases e)
  | .canceled, .canceled => isTrue rfl
  | .canceled, .list _ => isFalse (by intro e; cases e)
  | .list _, .user _ => isFalse (by intro e; cases e)
  | .list _, .canceled => isFalse (by intro e; cases e)
  | .list l, .list m => match decEqAll l m with
    | isTrue h => isTrue (by rw [h])
    | isFalse h => isFalse (by intro e; cases e; exact h rfl)
def decEqAll : (a b : List Exc) → Decidable (a = b)
  | [], [] => isTrue rfl
  | [], _ :: _ => isFalse (by intro e; cases e)
  | _ :: _, [] => isFalse (by intro e; cases e)
  | a :: l, b :: m => match Exc.decEq a b, decEqAll l m with
    | isTrue h, isTrue h' => isTrue (by rw [h, h'])
    | isFalse h, _ => isFalse (by intro e; cases e; exact h rfl)
    | _, isFalse h => isFalse (by intro e; cases e; exact h rfl)
end

instance : DecidableEq Exc := Exc.decEq

mutual
/-- The exceptions of the user's that `e` consists of. -/
def Exc.leaves : Exc → List Nat
  | .user n => [n]
  | .canceled => []
  | .list l => leavesAll l
def leavesAll : List Exc → List Nat
  | [] => []
  | e :: l => e.leaves ++ leavesAll l
end

def thrown : Option Exc → List Nat
  | none => []
  | some e => e.leaves

inductive Event where
  /-- `task_region` was called and calls its function -/
  | opened (w : Who) (r : Nat)
  /-- `run` has returned -/
  | ran (w : Who) (r t : Nat)
  /-- `run` has thrown `task_canceled_exception` -/
  | runCanceled (w : Who) (r : Nat)
  /-- `run` has thrown something else -/
  | runFailed (w : Who) (r : Nat)
  /-- `wait` blocks -/
  | waiting (w : Who) (r : Nat)
  | waited (w : Who) (r : Nat)
  /-- `wait` has thrown an `exception_list` -/
  | waitThrew (w : Who) (r : Nat) (l : List Nat)
  | waitCanceled (w : Who) (r : Nat)
  /-- `wait` has thrown `thread_interrupted` -/
  | waitInterrupted (w : Who) (r : Nat)
  /-- the function given to `task_region` has returned or thrown -/
  | left (w : Who) (r : Nat) (o : Option Exc)
  /-- `task_region` has returned (`[]`) or thrown an `exception_list` -/
  | closed (w : Who) (r : Nat) (l : List Nat)
  /-- `task_region` has thrown `thread_interrupted` -/
  | closedEarly (w : Who) (r : Nat)
  /-- a task's function is called -/
  | began (t : Nat)
  /-- it has returned or thrown -/
  | ended (t : Nat) (o : Option Exc)
  /-- the library has used the memory of a region that is gone -/
  | dangling (t : Nat)
deriving DecidableEq

inductive SPhase where
  | gone | body | ending
deriving DecidableEq, Repr

structure SReg where
  owner : Who := .client 0
  phase : SPhase := .gone
  tasks : List Nat := []
  /-- what the function has thrown -/
  own : List Nat := []
  /-- the function has been told of a failed task -/
  told : Bool := false
  /-- `wait` has thrown the exceptions of the tasks -/
  threw : Bool := false

inductive STask where
  | created
  | running
  | over (o : Option Exc)

def STask.isOver : STask → Bool
  | .over _ => true
  | _ => false

def STask.failed : STask → Bool
  | .over (some _) => true
  | _ => false

def STask.errors : STask → List Nat
  | .over (some e) => e.leaves
  | _ => []

structure Sys where
  nr : Nat := 0
  nt : Nat := 0
  reg : Nat → SReg := fun _ => {}
  task : Nat → STask := fun _ => .created
  /-- the region of a task -/
  home : Nat → Nat := fun _ => 0

def upd {α : Type} (f : Nat → α) (i : Nat) (x : α) : Nat → α := fun j => if j = i then x else f j

/-- All tasks of the region have ended. -/
def Sys.done (σ : Sys) (r : Nat) : Bool := (σ.reg r).tasks.all fun t => (σ.task t).isOver

/-- What the tasks of the region have thrown, in the order in which they were created. -/
def Sys.errors (σ : Sys) (r : Nat) : List Nat := (σ.reg r).tasks.flatMap fun t => (σ.task t).errors

def Sys.set (σ : Sys) (r : Nat) (x : SReg) : Sys := { σ with reg := upd σ.reg r x }

/-- In the function of region `r`, called by `w`. -/
def Sys.inBody (σ : Sys) (w : Who) (r : Nat) : Prop := (σ.reg r).owner = w ∧ (σ.reg r).phase = .body

instance (σ : Sys) (w : Who) (r : Nat) : Decidable (σ.inBody w r) := inferInstanceAs (Decidable (_ ∧ _))

/-- The exceptions are the ones given: exactly, or, if `wait` has thrown them before, up to repetition and order. -/
def same (exact : Bool) (l given : List Nat) : Prop :=
  if exact then l = given else (∀ x ∈ l, x ∈ given) ∧ (∀ x ∈ given, x ∈ l)

instance (exact : Bool) (l given : List Nat) : Decidable (same exact l given) := by unfold same; infer_instance

def next (σ : Sys) : Event → Verdict Sys
  | .opened w r => if r = σ.nr then .ok { σ.set r { owner := w, phase := .body } with nr := r + 1 } else .illegal
  -- when the function knows that a task has failed no further one is created
  | .ran w r t =>
    if σ.inBody w r ∧ t = σ.nt ∧ (σ.reg r).told = false then
      .ok { σ.set r { σ.reg r with tasks := (σ.reg r).tasks ++ [t] } with nt := t + 1, task := upd σ.task t .created, home := upd σ.home t r }
    else .illegal
  | .runCanceled w r =>
    if σ.inBody w r ∧ (∃ t ∈ (σ.reg r).tasks, (σ.task t).failed = true) then .ok (σ.set r { σ.reg r with told := true }) else .illegal
  | .runFailed w r => if σ.inBody w r then .ok σ else .illegal
  | .waiting w r => if σ.inBody w r ∧ (σ.reg r).told = false then .ok σ else .illegal
  -- all tasks have ended, without exceptions
  | .waited w r => if σ.inBody w r ∧ σ.done r = true ∧ σ.errors r = [] then .ok σ else .illegal
  | .waitThrew w r l =>
    if σ.inBody w r ∧ σ.done r = true ∧ l = σ.errors r ∧ l ≠ [] then .ok (σ.set r { σ.reg r with told := true, threw := true }) else .illegal
  | .waitCanceled w r =>
    if σ.inBody w r ∧ (∃ t ∈ (σ.reg r).tasks, (σ.task t).failed = true) then .ok (σ.set r { σ.reg r with told := true }) else .illegal
  | .waitInterrupted w r => if σ.inBody w r then .ok σ else .illegal
  | .left w r o =>
    if σ.inBody w r then .ok (σ.set r { σ.reg r with phase := .ending, own := thrown o }) else .illegal
  -- all tasks have ended; all that was thrown is reported
  | .closed w r l =>
    if (σ.reg r).owner = w ∧ (σ.reg r).phase = .ending ∧ σ.done r = true ∧ same (!(σ.reg r).threw) l ((σ.reg r).own ++ σ.errors r) then
      .ok (σ.set r { σ.reg r with phase := .gone })
    else .illegal
  | .closedEarly _ _ => .illegal
  -- once, and while the region is there
  | .began t =>
    match σ.task t with
    | .created => if t < σ.nt ∧ (σ.reg (σ.home t)).phase ≠ .gone then .ok { σ with task := upd σ.task t .running } else .illegal
    | _ => .illegal
  | .ended t o =>
    match σ.task t with
    | .running => .ok { σ with task := upd σ.task t (.over o) }
    | _ => .illegal
  | .dangling _ => .illegal

end Verif.TaskRegion
