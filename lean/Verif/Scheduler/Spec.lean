import Verif.Scheduler.Model
/-! # What a scheduling executor is

Independent of the model; only its events are used. -/

namespace Verif.Scheduler

structure Book where
  /-- accepted and not yet started, with their times -/
  pending : List (Work × Int)
  closed : Bool
  /-- the closure each worker is running -/
  running : Nat → Option Work
  /-- the worker has left -/
  away : Nat → Bool
  exClosed : Bool
  /-- the destructor has been called -/
  dying : Bool
  /-- the destructor has interrupted the worker, which has not reacted to it yet or has handled it inside a closure -/
  intr : Nat → Bool
  /-- the object is gone or the program has been ended -/
  over : Bool

def Book.new (n : Nat) : Book :=
  { pending := [], closed := false, running := fun _ => none, away := fun w => decide (n ≤ w), exClosed := false, dying := false, intr := fun _ => false, over := false }

def must {σ : Type} (p : Prop) [Decidable p] (v : Verdict σ) : Verdict σ := if p then v else .illegal

/-- The closure submits a closure to another executor. -/
def Work.isHand : Work → Bool
  | .hand _ => true
  | .fn _ => false

/-- Worker `w` exists and has nothing to do. -/
def Book.Free (b : Book) (w : Nat) : Prop := b.away w = false ∧ b.running w = none

instance (b : Book) (w : Nat) : Decidable (b.Free w) := by unfold Book.Free; infer_instance

/-- The contract. `ubOk` says what to think of undefined behaviour inside the library (it happens only with a clock that goes backwards). -/
def specNext (n : Nat) (ubOk : Bool) (b : Book) (e : Event) : Verdict Book :=
  must (b.over = false) <|
  match e with
  | .accepted _ v due => must (b.closed = false) (.ok { b with pending := b.pending ++ [(v, due)] })
  | .refused _ v own => must (own = true ∨ b.closed = true ∨ (b.exClosed = true ∧ v.isHand = true)) (.ok b)
  | .closed _ => .ok { b with closed := true }
  | .closeReturned _ => must (b.closed = true) (.ok b)
  | .executorClosed => .ok { b with exClosed := true }
  -- a worker that has nothing to do starts a pending closure whose time has come and which is not preceded by another one
  | .started w v due now =>
    must (b.Free w ∧ (v, due) ∈ b.pending ∧ due ≤ now ∧ ∀ x ∈ b.pending, due ≤ x.2)
      (.ok { b with pending := b.pending.erase (v, due), running := upd b.running w (some v) })
  | .ended w v => must (b.running w = some v ∧ v.isHand = false) (.ok { b with running := upd b.running w none })
  | .handed w id => must (b.running w = some (.hand id) ∧ b.exClosed = false) (.ok { b with running := upd b.running w none })
  | .abandoned w v => must (b.running w = some v) (.ok { b with running := upd b.running w none, away := upd b.away w true, intr := upd b.intr w false })
  -- a worker leaves when the executor is closed and no closure is due, or when the destructor has interrupted it
  | .left w now => must (b.Free w ∧ b.closed = true ∧ ∀ x ∈ b.pending, now < x.2) (.ok { b with away := upd b.away w true })
  | .leftInterrupted w => must (b.Free w ∧ b.intr w = true) (.ok { b with away := upd b.away w true, intr := upd b.intr w false })
  -- the program is ended only by an exception of a closure or by an executor that refuses the work
  | .terminated w v why =>
    must (b.running w = some v ∧ (why = .executorClosed → b.exClosed = true ∧ v.isHand = true)) (.ok { b with over := true })
  | .destroying _ => must (b.dying = false) (.ok { b with dying := true })
  | .interrupted w => must (b.dying = true ∧ b.closed = true ∧ w < n) (.ok { b with intr := upd b.intr w true })
  | .destroyed _ => must (b.dying = true ∧ b.closed = true ∧ ∀ w < n, b.away w = true) (.ok { b with over := true })
  | .garbage _ => if ubOk then .undefined else .illegal

end Verif.Scheduler
