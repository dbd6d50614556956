import Verif.Core.Run
/-!
# Model of `boost::lock` and `boost::try_lock`

Models `/repo/include/boost/thread/lock_algorithms.hpp` lines 23-134 (helpers), 143-163 and 193-287 (`lock` of two to five lockables), 303-353 (`try_lock`
of two to five), 357-406 (`try_lock` of a range, `range_lock_guard`) and 410-461 (`lock` of a range), and `/repo/include/boost/thread/lock_factories.hpp` lines 20-71.

The model is of one call. Its state is the list of operations it has performed on the lockables so far. Lockables are named by numbers. What a lockable's
`lock()` and `try_lock()` do is decided by an environment, an arbitrary function of everything performed so far. Loops run on fuel; `running` is the
outcome of an execution cut off in the middle, so that quantifying over the fuel covers all finite prefixes of an infinite execution.

Simplification: `unlock()` does not throw. `unique_lock` is modelled by its effect on the lockable; it is modelled on its own in `Verif.LockObj`.
-/

namespace Verif.LockAlg

inductive TryResult where
  | yes | no | throws
deriving DecidableEq, Repr

/-- An operation of the call on a lockable, with its result. -/
inductive Op where
  /-- `lock()`, which returned (`ok`) or threw -/
  | lock (m : Nat) (ok : Bool)
  | tryLock (m : Nat) (r : TryResult)
  | unlock (m : Nat)
deriving DecidableEq, Repr

abbrev Trace := List Op

/-- How the lockables answer. -/
structure Env where
  lock : Trace → Nat → Bool
  tryLock : Trace → Nat → TryResult

inductive Out (α : Type) where
  | returned (tr : Trace) (a : α)
  | threw (tr : Trace)
  /-- still inside the call -/
  | running (tr : Trace)
  /-- no `case` label matches: the `for(;;)` spins -/
  | spins (tr : Trace)
deriving DecidableEq, Repr

def Out.trace {α : Type} : Out α → Trace
  | .returned tr _ => tr
  | .threw tr => tr
  | .running tr => tr
  | .spins tr => tr

/-- A destructor that runs on the way out by exception. -/
def Out.onThrow {α : Type} (o : Out α) (ops : List Op) : Out α :=
  match o with
  | .threw tr => .threw (tr ++ ops)
  | o => o

/-! ## Two to five lockables -/

/-- `try_lock_internal`, 23-85; the last lockable is tried without a `unique_lock` (31). 0 is success. -/
def tryInternal (env : Env) (tr : Trace) : List Nat → Out Nat
  | [] => .returned tr 0                                         -- not instantiated
  | [m] =>                                                       -- 31-34
    match env.tryLock tr m with
    | .yes => .returned (tr ++ [.tryLock m .yes]) 0
    | .no => .returned (tr ++ [.tryLock m .no]) 1
    | .throws => .threw (tr ++ [.tryLock m .throws])
  | m :: ms =>
    match env.tryLock tr m with
    | .throws => .threw (tr ++ [.tryLock m .throws])
    | .no => .returned (tr ++ [.tryLock m .no]) 1                -- 27-30
    | .yes =>
      match tryInternal env (tr ++ [.tryLock m .yes]) ms with
      | .returned tr' 0 => .returned tr' 0                       -- 51-52
      | .returned tr' (f + 1) => .returned (tr' ++ [.unlock m]) (f + 1 + 1)   -- 47-50 and `~unique_lock`
      | o => o.onThrow [.unlock m]

/-- `lock_helper`, 87-133. -/
def lockHelper (env : Env) (tr : Trace) : List Nat → Out Nat
  | [] => .returned tr 0                                         -- not instantiated
  | m :: ms =>
    if env.lock tr m then
      match tryInternal env (tr ++ [.lock m true]) ms with
      | .returned tr' 0 => .returned tr' 0
      | .returned tr' (f + 1) => .returned (tr' ++ [.unlock m]) (f + 1)
      | o => o.onThrow [.unlock m]
    else .threw (tr ++ [.lock m false])

/-- The arguments of `lock_helper` in each `case`: 150-161, 200-216, 227-248, 259-285. -/
def caseArgs : List Nat → Nat → Option (List Nat)
  | [m1, m2], 0 => some [m1, m2]
  | [m1, m2], 1 => some [m2, m1]
  | [m1, m2, m3], 0 => some [m1, m2, m3]
  | [m1, m2, m3], 1 => some [m2, m3, m1]
  | [m1, m2, m3], 2 => some [m3, m1, m2]
  | [m1, m2, m3, m4], 0 => some [m1, m2, m3, m4]
  | [m1, m2, m3, m4], 1 => some [m2, m3, m4, m1]
  | [m1, m2, m3, m4], 2 => some [m3, m4, m1, m2]
  | [m1, m2, m3, m4], 3 => some [m4, m1, m2, m3]
  | [m1, m2, m3, m4, m5], 0 => some [m1, m2, m3, m4, m5]
  | [m1, m2, m3, m4, m5], 1 => some [m2, m3, m4, m5, m1]
  | [m1, m2, m3, m4, m5], 2 => some [m3, m4, m5, m1, m2]
  | [m1, m2, m3, m4, m5], 3 => some [m4, m5, m1, m2, m3]
  | [m1, m2, m3, m4, m5], 4 => some [m5, m1, m2, m3, m4]
  | _, _ => none

/-- `lock_first` after a failed `case i` in which `lock_helper` returned `f`: 153, 159, 209, 214, 236, 241, 246, 268, 273, 278, 283. -/
def nextFirst (count i f : Nat) : Nat := if i = 0 then f else (f + i) % count

/-- The loops 148-162, 198-217, 225-249, 257-286. -/
def lockLoop (env : Env) (ms : List Nat) : Nat → Trace → Nat → Out Unit
  | 0, tr, _ => .running tr
  | fuel + 1, tr, first =>
    match caseArgs ms first with
    | none => .spins tr
    | some args =>
      match lockHelper env tr args with
      | .returned tr' 0 => .returned tr' ()
      | .returned tr' (f + 1) => lockLoop env ms fuel tr' (nextFirst ms.length first (f + 1))
      | .threw tr' => .threw tr'
      | .running tr' => .running tr'
      | .spins tr' => .spins tr'

/-- `lock(m1, m2)` ... `lock(m1, ..., m5)`. -/
def lockN (env : Env) (ms : List Nat) (fuel : Nat) : Out Unit := lockLoop env ms fuel [] 0

/-- `try_lock(m1, m2)` ... `try_lock(m1, ..., m5)`, 303-307, 337-353; `none` is the result -1. -/
def tryLockN (env : Env) (ms : List Nat) : Out (Option Nat) :=
  match tryInternal env [] ms with
  | .returned tr 0 => .returned tr none
  | .returned tr (f + 1) => .returned tr (some f)
  | .threw tr => .threw tr
  | .running tr => .running tr
  | .spins tr => .spins tr

/-! ## Ranges -/

/-- `try_lock(begin, end)`, 383-405; `none` is `end`. -/
def tryRange (env : Env) (tr : Trace) : List Nat → Out (Option Nat)
  | [] => .returned tr none                                      -- 387-390
  | m :: ms =>
    match env.tryLock tr m with
    | .throws => .threw (tr ++ [.tryLock m .throws])
    | .no => .returned (tr ++ [.tryLock m .no]) (some 0)         -- 394-397
    | .yes =>
      match tryRange env (tr ++ [.tryLock m .yes]) ms with       -- 398
      | .returned tr' none => .returned tr' none                 -- 399-402
      | .returned tr' (some j) => .returned (tr' ++ [.unlock m]) (some (j + 1))
      | o => o.onThrow [.unlock m]

/-- `~range_lock_guard`, 374-380. -/
def unlockAll (ms : List Nat) : List Op := ms.map .unlock

/-- `lock_impl` for a range, 415-422: nothing to do, or the loop `go`. -/
def onRange (tr : Trace) (go : Nat → List Nat → Out Unit) : List Nat → Out Unit
  | [] => .returned tr ()
  | b :: rest => go b rest

/-- The loop 424-460 for a range `b :: rest`; `next` is an offset into `rest`. The call in line 441 (366) is the recursive call on `rest.drop next`. -/
def rangeLoop (env : Env) : Nat → Trace → Nat → List Nat → Bool → Nat → Out Unit
  | 0, tr, _, _, _, _ => .running tr
  | fuel + 1, tr, b, rest, true, next =>
    if env.lock tr b then                                        -- 429
      match tryRange env (tr ++ [.lock b true]) (rest.drop next) with           -- 430
      | .returned tr' none => .returned tr' ()                   -- 431-435
      | .returned tr' (some j) => rangeLoop env fuel (tr' ++ [.unlock b]) b rest false (next + j)   -- 436-437
      | .threw tr' => .threw (tr' ++ [.unlock b])
      | .running tr' => .running tr'
      | .spins tr' => .spins tr'
    else .threw (tr ++ [.lock b false])
  | fuel + 1, tr, b, rest, false, next =>
    match onRange tr (fun b' rest' => rangeLoop env fuel tr b' rest' true 0) (rest.drop next) with   -- 441, 366
    | .returned tr1 _ =>
      match env.tryLock tr1 b with                               -- 442
      | .throws => .threw (tr1 ++ [.tryLock b .throws] ++ unlockAll (rest.drop next))
      | .no => rangeLoop env fuel (tr1 ++ [.tryLock b .no] ++ unlockAll (rest.drop next)) b rest true 0    -- 456-457
      | .yes =>
        match tryRange env (tr1 ++ [.tryLock b .yes]) (rest.take next) with     -- 444
        | .returned tr2 none => .returned tr2 ()                 -- 445-450
        | .returned tr2 (some j) =>                              -- 451-452
          rangeLoop env fuel (tr2 ++ unlockAll (rest.drop next) ++ [.unlock b]) b rest false j
        | .threw tr2 => .threw (tr2 ++ unlockAll (rest.drop next) ++ [.unlock b])
        | .running tr2 => .running tr2
        | .spins tr2 => .spins tr2
    | o => o

/-- `lock(begin, end)`, 410-422. -/
def lockRange (env : Env) (ms : List Nat) (fuel : Nat) : Out Unit :=
  onRange [] (fun b rest => rangeLoop env fuel [] b rest true 0) ms

/-! ## Factories of locks -/

/-- A `unique_lock`: its lockable and whether it owns it. -/
structure ULock where
  m : Nat
  owns : Bool
deriving DecidableEq, Repr

/-- How `make_unique_lock` is asked to construct the lock. -/
inductive Tag where
  | plain | adopt | defer | tryTo
deriving DecidableEq, Repr

/-- `make_unique_lock(m)` and with a tag, lock_factories.hpp 20-42, which call the constructors of `unique_lock` (lock_types.hpp, modelled in `Verif.LockObj`). -/
def makeUniqueLock (env : Env) (tr : Trace) (m : Nat) : Tag → Out ULock
  | .plain => if env.lock tr m then .returned (tr ++ [.lock m true]) ⟨m, true⟩ else .threw (tr ++ [.lock m false])
  | .adopt => .returned tr ⟨m, true⟩
  | .defer => .returned tr ⟨m, false⟩
  | .tryTo =>
    match env.tryLock tr m with
    | .yes => .returned (tr ++ [.tryLock m .yes]) ⟨m, true⟩
    | .no => .returned (tr ++ [.tryLock m .no]) ⟨m, false⟩
    | .throws => .threw (tr ++ [.tryLock m .throws])

/-- `make_unique_locks(m1, ..., mn)`, lock_factories.hpp 46-51 (54-71 without variadic templates): `lock`, then a tuple of locks that adopt. -/
def makeUniqueLocks (env : Env) (ms : List Nat) (fuel : Nat) : Out (List ULock) :=
  match lockN env ms fuel with
  | .returned tr _ => .returned tr (ms.map fun m => ⟨m, true⟩)
  | .threw tr => .threw tr
  | .running tr => .running tr
  | .spins tr => .spins tr

/-- What the destructors of locks do, in the order of the list (`~unique_lock`). -/
def destroyLocks (ls : List ULock) : List Op := (ls.filter (·.owns)).map fun l => .unlock l.m

end Verif.LockAlg
