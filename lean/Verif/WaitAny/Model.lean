import Verif.Core.Run
/-!
# Model of wait_for_any

Models `wait_for_any` of several futures (`/repo/include/boost/thread/future.hpp` 1120-1227, 1262-1311) and of a range (`/repo/include/boost/thread/futures/wait_for_any.hpp` 28-164), with
`notify_when_ready`, `unnotify_when_ready` and `mark_finished_internal` of the shared state (`future.hpp` 267-279, 335-345).

* Any number of threads and shared states; arguments may be invalid (`none`) and may refer to the same state more than once (shared futures).
* Each shared state has its mutex (`own`: the thread that holds it). Registering, unregistering and making a state ready are critical sections of one mutex and are one step each. The
  mutexes are taken one after the other when the wait begins, each in a step of its own.
* Waiting on the condition variable releases all mutexes and puts the thread to sleep in one step: the condition variable holds its internal mutex meanwhile, so that no notification can come between.
* Waking takes all mutexes in one step: it is done by `boost::lock`, which never waits for one mutex while it holds another (`Verif.LockAlg`).
* Interruption: `cv.wait` looks for a request before it releases the mutexes and after it has been woken (pthread/condition_variable.hpp, class `interruption_checker`); then the exception
  leaves `wait` after the mutexes have been locked again, `all_futures_lock` unlocks them and the destructor unregisters.
* Simplified: wait callbacks, exceptions of memory allocation, and deferred futures (which are never executed here, and are simply not ready) are not treated.
-/

namespace Verif.WaitAny

def upd {α : Type} (f : Nat → α) (i : Nat) (x : α) : Nat → α := fun j => if j = i then x else f j

@[grind =] theorem upd_apply {α : Type} (f : Nat → α) (i j : Nat) (x : α) : upd f i x j = if j = i then x else f j := rfl

/-- Where a call is. `ws` are the registered waiters: a shared state and the index to be returned (`registered_waiter`). -/
inductive PC where
  | idle
  /-- registering with the futures `rest`; `n` is `future_count` -/
  | adding (rest : List (Option Nat)) (n : Nat) (ws : List (Nat × Nat))
  /-- the constructor of `all_futures_lock`, about to lock the mutex of waiter `k` -/
  | locking (ws : List (Nat × Nat)) (k : Nat)
  /-- all mutexes are held -/
  | checking (ws : List (Nat × Nat))
  /-- no future is ready, all mutexes are held: about to wait on the condition variable -/
  | pausing (ws : List (Nat × Nat))
  | asleep (ws : List (Nat × Nat))
  /-- has been woken and is about to lock all mutexes -/
  | woken (ws : List (Nat × Nat))
  /-- unregistering, with the result `n` -/
  | leaving (ws : List (Nat × Nat)) (n : Nat)
  /-- `thread_interrupted` has been thrown in `cv.wait`: about to lock all mutexes again -/
  | wokenI (ws : List (Nat × Nat))
  /-- with the exception, all mutexes are held -/
  | dropping (ws : List (Nat × Nat))
  /-- unregistering, with the exception -/
  | leavingI (ws : List (Nat × Nat))
deriving DecidableEq, Repr

structure State where
  /-- `done` of each shared state -/
  done : Nat → Bool
  /-- who holds its mutex -/
  own : Nat → Option Nat
  /-- `external_waiters` of each shared state, each entry the condition variable of the call in a thread -/
  reg : Nat → List Nat
  /-- the arguments of the call: is it the one for ranges, and the futures -/
  arg : Nat → Bool × List (Option Nat)
  pc : Nat → PC
  /-- interruption of a thread has been requested -/
  intr : Nat → Bool

def init : State := { done := fun _ => false, own := fun _ => none, reg := fun _ => [], arg := fun _ => (false, []), pc := fun _ => .idle, intr := fun _ => false }

inductive Event where
  | call (t : Nat) (seq : Bool) (fs : List (Option Nat))
  /-- the call returns position `k` (for a range: an iterator `k` behind the beginning) -/
  | ret (t k : Nat)
  /-- shared state `i` becomes ready -/
  | ready (i : Nat)
  /-- somebody calls `interrupt` for thread `t` -/
  | request (t : Nat)
  /-- the call throws `thread_interrupted` -/
  | interrupted (t : Nat)
deriving DecidableEq, Repr

inductive Label where
  | call (t : Nat) (seq : Bool) (fs : List (Option Nat))
  /-- somebody makes shared state `i` ready -/
  | finish (i : Nat)
  /-- a spurious wake-up -/
  | wake (t : Nat)
  /-- the next step of the call in thread `t` -/
  | go (t : Nat)
  /-- somebody calls `interrupt` for thread `t` -/
  | interrupt (t : Nat)
deriving DecidableEq, Repr

/-- Notification of the registered condition variables: threads that are asleep wake up (339-343). -/
def notify (pc : Nat → PC) (ts : List Nat) : Nat → PC := fun t =>
  match pc t with
  | .asleep ws => if t ∈ ts then .woken ws else .asleep ws
  | p => p

/-- Unlocking everything thread `t` holds: `all_futures_lock::unlock` and its destructor (future.hpp 1159-1165, wait_for_any.hpp 74-80). -/
def release (own : Nat → Option Nat) (t : Nat) : Nat → Option Nat := fun i => if own i = some t then none else own i

/-- Locking all mutexes of `ws` (future.hpp 1154-1157, wait_for_any.hpp 69-72). -/
def acquire (own : Nat → Option Nat) (t : Nat) (ws : List (Nat × Nat)) : Nat → Option Nat := fun i => if i ∈ ws.map Prod.fst then some t else own i

/-- The next step of a call. -/
def go (s : State) (t : Nat) : PC → Option (State × List Event)
  | .idle => none
  -- add on an invalid future: counted only by the version for single futures (future.hpp 1181-1194, wait_for_any.hpp 94-110)
  | .adding (none :: rest) n ws => some ({ s with pc := upd s.pc t (.adding rest (if (s.arg t).1 then n else n + 1) ws) }, [])
  -- add on a valid future
  | .adding (some i :: rest) n ws =>
    if s.own i = none then some ({ s with reg := upd s.reg i (t :: s.reg i), pc := upd s.pc t (.adding rest (n + 1) (ws ++ [(i, n)])) }, []) else none
  -- all_futures_lock lk(futures_) (future.hpp 1205, wait_for_any.hpp 124)
  | .adding [] _ ws => some ({ s with pc := upd s.pc t (.locking ws 0) }, [])
  -- the loop in its constructor (future.hpp 1147-1150, wait_for_any.hpp 62-65)
  | .locking ws k =>
    match ws[k]? with
    | some (i, _) => if s.own i = none then some ({ s with own := upd s.own i (some t), pc := upd s.pc t (.locking ws (k + 1)) }, []) else none
    | none => some ({ s with pc := upd s.pc t (.checking ws) }, [])
  -- the loop in wait (future.hpp 1206-1217, wait_for_any.hpp 125-135)
  | .checking ws =>
    match ws.find? (fun w => s.done w.1) with
    | some (_, n) => some ({ s with own := release s.own t, pc := upd s.pc t (.leaving ws n) }, [])
    | none => some ({ s with pc := upd s.pc t (.pausing ws) }, [])
  -- cv.wait
  | .pausing ws => if s.intr t then some ({ s with intr := upd s.intr t false, pc := upd s.pc t (.dropping ws) }, []) else some ({ s with own := release s.own t, pc := upd s.pc t (.asleep ws) }, [])
  | .asleep ws => if s.intr t then some ({ s with intr := upd s.intr t false, pc := upd s.pc t (.wokenI ws) }, []) else none
  -- cv.wait locks again
  | .woken ws => if s.intr t then some ({ s with intr := upd s.intr t false, pc := upd s.pc t (.wokenI ws) }, []) else if ∀ w ∈ ws, s.own w.1 = none then some ({ s with own := acquire s.own t ws, pc := upd s.pc t (.checking ws) }, []) else none
  -- the destructor (future.hpp 1220-1226, wait_for_any.hpp 138-144)
  | .leaving ((i, _) :: ws) n => if s.own i = none then some ({ s with reg := upd s.reg i ((s.reg i).erase t), pc := upd s.pc t (.leaving ws n) }, []) else none
  | .leaving [] n => some ({ s with pc := upd s.pc t .idle }, [.ret t n])
  -- the destructors of lock_on_exit (thread_cv_detail, pthread/condition_variable_fwd.hpp), of the locks (future.hpp 1145) and of future_waiter
  | .wokenI ws => if ∀ w ∈ ws, s.own w.1 = none then some ({ s with own := acquire s.own t ws, pc := upd s.pc t (.dropping ws) }, []) else none
  | .dropping ws => some ({ s with own := release s.own t, pc := upd s.pc t (.leavingI ws) }, [])
  | .leavingI ((i, _) :: ws) => if s.own i = none then some ({ s with reg := upd s.reg i ((s.reg i).erase t), pc := upd s.pc t (.leavingI ws) }, []) else none
  | .leavingI [] => some ({ s with pc := upd s.pc t .idle }, [.interrupted t])

def step (s : State) : Label → Option (State × List Event)
  | .call t seq fs =>
    if s.pc t = .idle then
      -- an empty range (wait_for_any.hpp 151); the other version has at least one argument
      if fs = [] then if seq then some (s, [.call t seq fs, .ret t 0]) else none
      else some ({ s with arg := upd s.arg t (seq, fs), pc := upd s.pc t (.adding fs 0 []) }, [.call t seq fs])
    else none
  | .finish i => if s.own i = none ∧ s.done i = false then some ({ s with done := upd s.done i true, pc := notify s.pc (s.reg i) }, [.ready i]) else none
  | .wake t =>
    match s.pc t with
    | .asleep ws => some ({ s with pc := upd s.pc t (.woken ws) }, [])
    | _ => none
  | .go t => go s t (s.pc t)
  | .interrupt t => some ({ s with intr := upd s.intr t true }, [.request t])

end Verif.WaitAny
