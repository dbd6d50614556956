import Verif.Core.Run
/-!
# Model of `testable_mutex`

Models `testable_mutex<Lockable>` (/repo/include/boost/thread/testable_mutex.hpp 36-124) and `is_locked_by_this_thread` (is_locked_by_this_thread.hpp 25-29).

* Any number of threads. `mtx_` is a mutex that is exclusive or recursive; `id_` is an atomic variable: every access to either is one step.
* Assertions (`BOOST_ASSERT`) are on or off. A failed assertion ends the program.
* Simplified: the deadlines of `try_lock_for` and `try_lock_until` may pass at any time. Relocking an exclusive mutex waits for ever.
-/

namespace Verif.Testable

def upd {α : Type} (f : Nat → α) (i : Nat) (x : α) : Nat → α := fun j => if j = i then x else f j

@[grind =] theorem upd_apply {α : Type} (f : Nat → α) (i j : Nat) (x : α) : upd f i x j = if j = i then x else f j := rfl

structure Cfg where
  /-- number of threads -/
  n : Nat
  /-- `Lockable` is a recursive mutex -/
  recursive : Bool
  /-- assertions are checked -/
  asserts : Bool

inductive Op where
  | lock
  | tryLock
  /-- `try_lock_for`, `try_lock_until` -/
  | tryFor
  | unlock
deriving DecidableEq, Repr

/-- Where a thread is in a call. -/
inductive PC where
  | out
  /-- before `mtx_.lock()`, `mtx_.try_lock()`, `mtx_.try_lock_for()` (51, 64, 80, 94) -/
  | acquire (op : Op)
  /-- before `id_ = this_thread::get_id()` (52, 66, 82, 96) -/
  | store (op : Op)
  /-- before `id_ = thread::id()` (58) -/
  | reset
  /-- before `mtx_.unlock()` (59) -/
  | release
deriving DecidableEq, Repr

structure State where
  /-- who has `mtx_`, how often -/
  owner : Option (Nat × Nat)
  id : Option Nat
  pc : Nat → PC
  /-- ended by an assertion or by undefined behaviour -/
  over : Bool

/-- The constructor (46). -/
def init : State := { owner := none, id := none, pc := fun _ => .out, over := false }

inductive Event where
  /-- a call begins -/
  | began (t : Nat) (op : Op)
  /-- `lock` or `unlock` returns; or `try_lock…` returns `true` -/
  | did (t : Nat) (op : Op)
  /-- `try_lock…` returns `false` -/
  | failed (t : Nat) (op : Op)
  /-- `is_locked_by_this_thread` -/
  | mine (t : Nat) (b : Bool)
  /-- `is_locked` -/
  | isLocked (t : Nat) (b : Bool)
  /-- `get_id` -/
  | gotId (t : Nat) (r : Option Nat)
  | assertion (t : Nat) (op : Op)
  | undefinedBehaviour
deriving DecidableEq, Repr

inductive Label where
  | call (t : Nat) (op : Op)
  | go (t : Nat)
  | timeout (t : Nat)
  | askMine (t : Nat)
  | askLocked (t : Nat)
  | askId (t : Nat)
deriving DecidableEq, Repr

/-- Thread `t` can have `mtx_`: the owner it then has. -/
def grant (c : Cfg) (s : State) (t : Nat) : Option (Nat × Nat) :=
  match s.owner with
  | none => some (t, 1)
  | some (u, d) => if c.recursive ∧ u = t then some (t, d + 1) else none

/-- The assertions at 50, 57, 63, 79, 93. -/
def wrong (s : State) (t : Nat) : Op → Bool
  | .unlock => s.id ≠ some t
  | _ => s.id = some t

def Op.first : Op → PC
  | .unlock => .reset
  | op => .acquire op

/-- One step of a call. -/
def go (c : Cfg) (s : State) (t : Nat) : Option (State × List Event) :=
  match s.pc t with
  | .out => none
  | .acquire op =>
    match grant c s t with
    | some o => some ({ s with owner := some o, pc := upd s.pc t (.store op) }, [])
    | none => if op = .tryLock then some ({ s with pc := upd s.pc t .out }, [.failed t op]) else none
  | .store op => some ({ s with id := some t, pc := upd s.pc t .out }, [.did t op])
  | .reset => some ({ s with id := none, pc := upd s.pc t .release }, [])
  | .release =>
    match s.owner with
    | some (u, d) =>
      if u = t then some ({ s with owner := if d ≤ 1 then none else some (u, d - 1), pc := upd s.pc t .out }, [.did t .unlock])
      else some ({ s with over := true }, [.undefinedBehaviour])
    | none => some ({ s with over := true }, [.undefinedBehaviour])

def act (c : Cfg) (s : State) : Label → Option (State × List Event)
  | .call t op =>
    if s.pc t = .out then
      if c.asserts && wrong s t op then some ({ s with over := true }, [.assertion t op]) else some ({ s with pc := upd s.pc t op.first }, [.began t op])
    else none
  | .go t => go c s t
  -- 80-88, 94-102
  | .timeout t => if s.pc t = .acquire .tryFor then some ({ s with pc := upd s.pc t .out }, [.failed t .tryFor]) else none
  -- 107-110
  | .askMine t => if s.pc t = .out then some (s, [.mine t (s.id = some t)]) else none
  -- 111-114
  | .askLocked t => if s.pc t = .out then some (s, [.isLocked t (s.id ≠ none)]) else none
  -- 116-119
  | .askId t => if s.pc t = .out then some (s, [.gotId t s.id]) else none

def Label.thread : Label → Nat
  | .call t _ | .go t | .timeout t | .askMine t | .askLocked t | .askId t => t

def step (c : Cfg) (s : State) (l : Label) : Option (State × List Event) := if s.over = false ∧ l.thread < c.n then act c s l else none

end Verif.Testable
