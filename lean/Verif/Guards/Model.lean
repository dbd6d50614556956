import Verif.Core.Run
/-!
# Model of the scoped locks

Models `lock_guard.hpp` (25-69), `shared_lock_guard.hpp` (17-37), `with_lock_guard.hpp` (a `lock_guard` around a call), `strict_lock.hpp` (27-108, 121-212), `reverse_lock.hpp` (17-42),
`externally_locked.hpp` (36-352) and `externally_locked_stream.hpp` (27-137) of `/repo/include/boost/thread`, with what they use of `unique_lock` and `shared_lock` (`lock_types.hpp`).

* Mutexes are those the other components prove: exclusive, recursive if `recur`, or shared. One step is one constructor, destructor or call; where it has to wait for a mutex, it is enabled when the
  mutex can be had.
* Every thread has a stack of scoped locks, which end in reverse order, also when an exception leaves their scopes, and some lock objects (`unique_lock`, or `shared_lock` if `sh`), which it uses
  alone.
* `stream_guard` (externally_locked_stream.hpp 27-83) is a `strict_lock` on the stream's mutex: the same constructor, destructor and `owns_lock`; `hold()` and the operators `<<` and `>>` return it.
* Simplified: assignment and `swap` of `externally_locked`, which give an object another mutex, are not modelled; locking does not throw; `upgrade_lock` as argument of the guards is not modelled.
-/

namespace Verif.Guards

def upd {α : Type} (f : Nat → α) (i : Nat) (x : α) : Nat → α := fun j => if j = i then x else f j

@[grind =] theorem upd_apply {α : Type} (f : Nat → α) (i j : Nat) (x : α) : upd f i x j = if j = i then x else f j := rfl

/-- The program. -/
structure Cfg where
  /-- number of threads -/
  n : Nat
  /-- which mutexes are recursive -/
  recur : Nat → Bool
  /-- the type of the lock objects of a thread: `shared_lock` or `unique_lock` -/
  sh : Nat → List Bool
  /-- the mutex of an `externally_locked` object -/
  mx : Nat → Nat
  /-- `BOOST_THREAD_ASSERT_PRECONDITION` checks (detail/config.hpp) -/
  checked : Bool

/-- `unique_lock` or `shared_lock`: the members `m` and `is_locked` (lock_types.hpp 111-112, 503-504). -/
structure Obj where
  sh : Bool
  mtx : Option Nat
  owns : Bool
deriving DecidableEq, Repr

/-- A scoped lock. -/
inductive Frame where
  | guard (m : Nat)
  | sguard (m : Nat)
  | strict (m : Nat)
  /-- `lk_` and `tmp_lk_` -/
  | nested (i : Nat) (tmp : Obj)
  /-- `m` and `mtx` -/
  | reverse (i : Nat) (mtx : Option Nat)
deriving DecidableEq, Repr

structure State where
  /-- exclusive owner and depth of each mutex -/
  excl : Nat → Option (Nat × Nat)
  /-- shared owners -/
  rd : Nat → List Nat
  lk : Nat → List Obj
  stk : Nat → List Frame
  ub : Bool

def init (c : Cfg) : State :=
  { excl := fun _ => none, rd := fun _ => [], lk := fun t => (c.sh t).map fun b => ⟨b, none, false⟩, stk := fun _ => [], ub := false }

inductive Event where
  | locked (t m : Nat)
  | tryLocked (t m : Nat) (b : Bool)
  | unlocked (t m : Nat)
  | guarded (t m : Nat)
  | adopted (t m : Nat)
  | sguarded (t m : Nat)
  | stricted (t m : Nat)
  | nested (t i : Nat)
  /-- `lock_error`: the lock has no mutex -/
  | nestedThrew (t i : Nat)
  | reversed (t i : Nat)
  /-- the innermost scope has ended -/
  | left (t : Nat)
  | lkSet (t i : Nat) (m : Option Nat)
  | lkLocked (t i : Nat)
  | lkLockThrew (t i : Nat)
  | lkUnlocked (t i : Nat)
  | lkUnlockThrew (t i : Nat)
  | lkOwns (t i : Nat) (b : Bool)
  /-- `get` has returned a reference to the object `x`, given the `d`-th innermost scoped lock -/
  | got (t x d : Nat)
  /-- `get` has thrown `lock_error` -/
  | refused (t x d : Nat)
  | undefinedBehaviour
deriving DecidableEq, Repr

inductive Label where
  | lock (t m : Nat)
  | tryLock (t m : Nat)
  | unlock (t m : Nat)
  | guard (t m : Nat)
  | adopt (t m : Nat)
  | sguard (t m : Nat)
  | strict (t m : Nat)
  | nested (t i : Nat)
  | reverse (t i : Nat)
  | leave (t : Nat)
  /-- `lk = Lock(m, defer_lock)` or `lk = Lock()` -/
  | lkSet (t i : Nat) (m : Option Nat)
  | lkLock (t i : Nat)
  | lkUnlock (t i : Nat)
  | lkOwns (t i : Nat)
  | get (t x d : Nat)
deriving DecidableEq, Repr

/-- `lock()` of the mutex does not wait. -/
def canLock (c : Cfg) (s : State) (t m : Nat) : Bool :=
  match s.excl m with
  | none => s.rd m == []
  | some (u, _) => u == t && c.recur m

/-- `m.lock()`. -/
def lock (s : State) (t m : Nat) : State :=
  { s with excl := upd s.excl m (match s.excl m with | some (u, d) => some (u, d + 1) | none => some (t, 1)) }

/-- `m.unlock()`: undefined behaviour unless the thread owns the mutex. -/
def unlock (s : State) (t m : Nat) : State :=
  match s.excl m with
  | some (u, d) => if u = t then { s with excl := upd s.excl m (if d = 1 then none else some (u, d - 1)) } else { s with ub := true }
  | none => { s with ub := true }

/-- `lock_shared()` does not wait. -/
def canShare (s : State) (m : Nat) : Bool := s.excl m == none

def share (s : State) (t m : Nat) : State := { s with rd := upd s.rd m (t :: s.rd m) }

def unshare (s : State) (t m : Nat) : State := if t ∈ s.rd m then { s with rd := upd s.rd m ((s.rd m).erase t) } else { s with ub := true }

/-- What a lock object's `lock()` calls: `m->lock()` (lock_types.hpp, `unique_lock::lock`) or `m->lock_shared()` (`shared_lock::lock`). -/
def canAcquire (c : Cfg) (s : State) (t : Nat) (sh : Bool) (m : Nat) : Bool := if sh then canShare s m else canLock c s t m

def acquire (s : State) (t : Nat) (sh : Bool) (m : Nat) : State := if sh then share s t m else lock s t m

/-- The destructor of a lock object: `~unique_lock`, `~shared_lock`. -/
def release (s : State) (t : Nat) (o : Obj) : State :=
  match o.mtx with
  | some m => if o.owns then (if o.sh then unshare s t m else unlock s t m) else s
  | none => s

/-- Move assignment to lock object `i`: the new value comes in, the old value is destroyed (`temp(move(other)); swap(temp)`). -/
def assign (s : State) (t i : Nat) (o : Obj) : State :=
  match (s.lk t)[i]? with
  | some old => release { s with lk := upd s.lk t ((s.lk t).set i o) } t old
  | none => s

def push (s : State) (t : Nat) (f : Frame) : State := { s with stk := upd s.stk t (f :: s.stk t) }

/-- The mutex whose address `owns_lock(mutex*)` of a strict lock compares with: strict_lock.hpp 80-99, 185-204. -/
def Frame.owned : Frame → Option (Option Nat)
  | .strict m => some (some m)
  | .nested _ tmp => some tmp.mtx
  | _ => none

/-- The destructor of the innermost scoped lock. -/
def leave (c : Cfg) (s : State) (t : Nat) : Option (State × List Event) :=
  match s.stk t with
  | [] => none
  | f :: fs =>
    let s' : State := { s with stk := upd s.stk t fs }
    match f with
    | .guard m => some (unlock s' t m, [.left t])                                -- lock_guard.hpp 65-68
    | .sguard m => some (unshare s' t m, [.left t])                              -- shared_lock_guard.hpp 33-36
    | .strict m => some (unlock s' t m, [.left t])                               -- strict_lock.hpp 69-72
    | .nested i tmp => some (assign s' t i tmp, [.left t])                       -- strict_lock.hpp 176-179
    | .reverse _ none => some (s', [.left t])                                    -- reverse_lock.hpp 33-39
    | .reverse i (some m) =>
      match (s.lk t)[i]? with
      | some o => if canLock c s t m then some (assign (lock s' t m) t i ⟨o.sh, some m, true⟩, [.left t]) else none
      | none => none

/-- The constructor of `nested_strict_lock`: strict_lock.hpp 147-156. -/
def nested (c : Cfg) (s : State) (t i : Nat) : Option (State × List Event) :=
  match (s.lk t)[i]? with
  | none => none
  | some o =>
    match o.mtx with
    | none => some (s, [.nestedThrew t i])                                       -- 151-153, or `lk.lock()` throws
    | some m =>
      if o.owns then some (push { s with lk := upd s.lk t ((s.lk t).set i ⟨o.sh, none, false⟩) } t (.nested i o), [.nested t i])
      else if canAcquire c s t o.sh m then
        some (push (acquire { s with lk := upd s.lk t ((s.lk t).set i ⟨o.sh, none, false⟩) } t o.sh m) t (.nested i ⟨o.sh, some m, true⟩), [.nested t i])
      else none

/-- The constructor of `reverse_lock`: reverse_lock.hpp 24-32. -/
def reverse (s : State) (t i : Nat) : Option (State × List Event) :=
  match (s.lk t)[i]? with
  | none => none
  | some o => some (push (assign s t i ⟨o.sh, none, false⟩) t (.reverse i o.mtx), [.reversed t i])

/-- `lk.lock()`: lock_types.hpp, `unique_lock::lock` and `shared_lock::lock`. -/
def lkLock (c : Cfg) (s : State) (t i : Nat) : Option (State × List Event) :=
  match (s.lk t)[i]? with
  | none => none
  | some o =>
    match o.mtx with
    | none => some (s, [.lkLockThrew t i])
    | some m =>
      if o.owns then some (s, [.lkLockThrew t i])
      else if canAcquire c s t o.sh m then some (acquire { s with lk := upd s.lk t ((s.lk t).set i ⟨o.sh, some m, true⟩) } t o.sh m, [.lkLocked t i])
      else none

/-- `lk.unlock()`. -/
def lkUnlock (s : State) (t i : Nat) : Option (State × List Event) :=
  match (s.lk t)[i]? with
  | none => none
  | some o => if o.owns then some (assign s t i ⟨o.sh, o.mtx, false⟩, [.lkUnlocked t i]) else some (s, [.lkUnlockThrew t i])

/-- `get(lk)`: externally_locked.hpp 113-160, 243-292; externally_locked_stream.hpp 56-72. -/
def get (c : Cfg) (s : State) (t x d : Nat) : Option (State × List Event) :=
  match (s.stk t)[d]? with
  | none => none
  | some f =>
    match f.owned with
    | none => none
    | some mo => if c.checked = false ∨ mo = some (c.mx x) then some (s, [.got t x d]) else some (s, [.refused t x d])

/-- What a thread does. -/
def act (c : Cfg) (s : State) : Label → Option (State × List Event)
  | .lock t m => if canLock c s t m then some (lock s t m, [.locked t m]) else none
  | .tryLock t m => if canLock c s t m then some (lock s t m, [.tryLocked t m true]) else some (s, [.tryLocked t m false])
  | .unlock t m => some (unlock s t m, [.unlocked t m])
  | .guard t m => if canLock c s t m then some (push (lock s t m) t (.guard m), [.guarded t m]) else none        -- lock_guard.hpp 35-39
  | .adopt t m => some (push s t (.guard m), [.adopted t m])                                                     -- lock_guard.hpp 41-47
  | .sguard t m => if canShare s m then some (push (share s t m) t (.sguard m), [.sguarded t m]) else none       -- shared_lock_guard.hpp 25-29
  | .strict t m => if canLock c s t m then some (push (lock s t m) t (.strict m), [.stricted t m]) else none     -- strict_lock.hpp 47-51
  | .nested t i => nested c s t i
  | .reverse t i => reverse s t i
  | .leave t => leave c s t
  | .lkSet t i mo =>
    match (s.lk t)[i]? with
    | none => none
    | some o => some (assign s t i ⟨o.sh, mo, false⟩, [.lkSet t i mo])
  | .lkLock t i => lkLock c s t i
  | .lkUnlock t i => lkUnlock s t i
  | .lkOwns t i =>
    match (s.lk t)[i]? with
    | none => none
    | some o => some (s, [.lkOwns t i o.owns])
  | .get t x d => get c s t x d

def Label.thread : Label → Nat
  | .lock t _ | .tryLock t _ | .unlock t _ | .guard t _ | .adopt t _ | .sguard t _ | .strict t _ | .nested t _ | .reverse t _ | .leave t | .lkSet t _ _ | .lkLock t _ | .lkUnlock t _ | .lkOwns t _
  | .get t _ _ => t

def step (c : Cfg) (s : State) (l : Label) : Option (State × List Event) :=
  if s.ub = false ∧ l.thread < c.n then
    match act c s l with
    | some (s', es) => some (s', if s'.ub then es ++ [.undefinedBehaviour] else es)
    | none => none
  else none

end Verif.Guards
