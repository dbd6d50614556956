import Verif.Core.Run
import Verif.Core.Threads
/-!
# Model of `boost::shared_mutex` (also called `upgrade_mutex`), POSIX version

Models `/repo/include/boost/thread/pthread/shared_mutex.hpp` lines 29-635 with
`BOOST_THREAD_PROVIDES_SHARED_MUTEX_UPWARDS_CONVERSIONS`.

Simplifications
* Every member function holds `state_change` for its whole body, except inside the waits on `shared_cond`,
  `exclusive_cond`, `upgrade_cond`. So a call is one step up to its return or first wait, and each re-test of a
  wait predicate is one step.
* Deadlines: a time-out may fire at any moment. All timed variants of an operation (`timed_lock`, `try_lock_for`,
  `try_lock_until`, ...) run the same code and are one label.
* Interruption is disabled inside these functions (`disable_interruption do_not_disturb`), so it does not occur.
* `shared_count` is a natural number; incrementing past 2^32 - 1 owners is not modelled, decrementing
  zero wraps to 2^32 - 1 as in C++.
-/

namespace Verif.SharedMutex

/-- `state_data`, shared_mutex.hpp:134-137. -/
structure Data where
  sharedCount : Nat
  exclusive : Bool
  upgrade : Bool
  exclusiveWaitingBlocked : Bool
deriving DecidableEq, Repr

/-- Requests that may have to wait. -/
inductive Op where
  /-- `lock_shared` 168-176 and its timed forms 191-240 -/
  | shared
  /-- `lock_upgrade` 359-368 and its timed forms 371-422 -/
  | upgrade
  /-- `lock` 266-275 and its timed forms 278-335 -/
  | exclusive
  /-- `unlock_upgrade_and_lock` 452-464 -/
  | upgradeToExclusive
  /-- `try_unlock_upgrade_and_lock_for/until` 498-523 -/
  | timedUpgradeToExclusive
  /-- `try_unlock_shared_and_lock_for/until` 554-581 -/
  | timedSharedToExclusive
  /-- `try_unlock_shared_and_lock_upgrade_for/until` 609-632 -/
  | timedSharedToUpgrade
deriving DecidableEq, Repr

/-- The three condition variables, shared_mutex.hpp:144-146. -/
inductive Cond where
  | shared
  | exclusive
  | upgrade
deriving DecidableEq, Repr

/-- Which condition variable an operation waits on (lines 174, 272, 365, 460, 515, 572, 626). -/
def Op.cond : Op → Cond
  | .shared => .shared
  | .upgrade => .shared
  | .exclusive => .exclusive
  | .upgradeToExclusive => .upgrade
  | .timedUpgradeToExclusive => .shared
  | .timedSharedToExclusive => .shared
  | .timedSharedToUpgrade => .exclusive

/-- `can_lock`, shared_mutex.hpp:77-80. -/
def Data.canLock (d : Data) : Bool := !(d.sharedCount != 0 || d.exclusive)
/-- `can_lock_shared`, shared_mutex.hpp:93-96. -/
def Data.canLockShared (d : Data) : Bool := !(d.exclusive || d.exclusiveWaitingBlocked)
/-- `can_lock_upgrade`, shared_mutex.hpp:124-127. -/
def Data.canLockUpgrade (d : Data) : Bool := !(d.exclusive || d.exclusiveWaitingBlocked || d.upgrade)
/-- `no_shared`, shared_mutex.hpp:98-101. -/
def Data.noShared (d : Data) : Bool := d.sharedCount == 0
/-- `one_shared`, shared_mutex.hpp:103-106. -/
def Data.oneShared (d : Data) : Bool := d.sharedCount == 1
/-- `++shared_count`, shared_mutex.hpp:108-111. -/
def Data.incShared (d : Data) : Data := { d with sharedCount := d.sharedCount + 1 }
/-- `--shared_count` on `unsigned`, shared_mutex.hpp:114-117, 132. -/
def Data.decShared (d : Data) : Data :=
  { d with sharedCount := if d.sharedCount = 0 then 4294967295 else d.sharedCount - 1 }

/-- The wait predicate of an operation. -/
def Op.ready : Op → Data → Bool
  | .shared, d => d.canLockShared             -- 174
  | .upgrade, d => d.canLockUpgrade           -- 365
  | .exclusive, d => d.canLock                -- 272
  | .upgradeToExclusive, d => d.noShared      -- 460
  | .timedUpgradeToExclusive, d => d.oneShared -- 515
  | .timedSharedToExclusive, d => d.oneShared -- 572
  | .timedSharedToUpgrade, d => d.canLockUpgrade -- 626

/-- What an operation does before it first tests its predicate. -/
def Op.enter : Op → Data → Data
  | .exclusive, d => { d with exclusiveWaitingBlocked := true }   -- 271, 285, 302, 325
  | .upgradeToExclusive, d => d.decShared                         -- 459
  | _, d => d

/-- What an operation does once its predicate holds. -/
def Op.grant : Op → Data → Data
  | .shared, d => d.incShared                                     -- 175
  | .upgrade, d => { d.incShared with upgrade := true }           -- 366-367
  | .exclusive, d => { d with exclusive := true }                 -- 273
  | .upgradeToExclusive, d => { d with upgrade := false, exclusive := true }  -- 461-462
  | .timedUpgradeToExclusive, _ =>                                -- 519-522
    { sharedCount := 0, exclusive := true, upgrade := false, exclusiveWaitingBlocked := false }
  | .timedSharedToExclusive, _ =>                                 -- 576-579
    { sharedCount := 0, exclusive := true, upgrade := false, exclusiveWaitingBlocked := false }
  | .timedSharedToUpgrade, d => { d with upgrade := true }        -- 630

/-- Where a thread is. -/
inductive PC where
  | idle
  /-- blocked on the operation's condition variable -/
  | asleep (op : Op) (timed : Bool)
  /-- woken (notified or spuriously), about to re-acquire `state_change` and re-test -/
  | woken (op : Op) (timed : Bool)
  /-- timed wait expired, about to re-acquire `state_change` and return the predicate's value -/
  | expired (op : Op)
deriving DecidableEq, Repr

/-- The three kinds of ownership. -/
inductive Mode where
  | shared
  | upgrade
  | exclusive
deriving DecidableEq, Repr

/-- Non-blocking attempts. -/
inductive TryOp where
  | shared                -- try_lock_shared 178-188
  | upgrade               -- try_lock_upgrade 424-435
  | exclusive             -- try_lock 338-347
  | upgradeToExclusive    -- try_unlock_upgrade_and_lock 478-493
  | sharedToExclusive     -- try_unlock_shared_and_lock 538-551
  | sharedToUpgrade       -- try_unlock_shared_and_lock_upgrade 596-606
deriving DecidableEq, Repr

/-- Downward conversions, which never wait. -/
inductive Down where
  | exclusiveToUpgrade    -- unlock_and_lock_upgrade 466-476
  | exclusiveToShared     -- unlock_and_lock_shared 527-535
  | upgradeToShared       -- unlock_upgrade_and_lock_shared 586-593
deriving DecidableEq, Repr

/-- Observable events. -/
inductive Event where
  /-- a blocking or timed call cannot be granted at once and starts to wait -/
  | blocked (t : Nat) (op : Op)
  /-- a conversion `op` is called (its precondition is ownership of what is to be converted) -/
  | called (t : Nat) (op : Op)
  /-- a blocking or timed call returns successfully -/
  | granted (t : Nat) (op : Op)
  /-- a timed call returns false -/
  | timedOut (t : Nat) (op : Op)
  /-- a non-blocking attempt returns -/
  | tried (t : Nat) (op : TryOp) (result : Bool)
  | released (t : Nat) (m : Mode)
  | downgraded (t : Nat) (c : Down)
deriving DecidableEq, Repr

structure State where
  data : Data
  ts : List PC
deriving DecidableEq, Repr

/-- Constructor, shared_mutex.hpp:35-40, 160-162. -/
def init (n : Nat) : State :=
  { data := { sharedCount := 0, exclusive := false, upgrade := false, exclusiveWaitingBlocked := false }
    ts := List.replicate n .idle }

inductive Label where
  /-- call a blocking (`timed = false`) or timed operation -/
  | call (t : Nat) (op : Op) (timed : Bool)
  | tryCall (t : Nat) (op : TryOp)
  /-- `w`, `v`: threads picked by `exclusive_cond.notify_one()` and `upgrade_cond.notify_one()`, if these are called -/
  | unlock (t : Nat) (m : Mode) (w v : Option Nat)
  | down (t : Nat) (c : Down) (w : Option Nat)
  | spurious (t : Nat)
  | timeout (t : Nat)
  /-- a thread back from its wait re-acquires `state_change`; `w` as above (used when a timed exclusive request fails) -/
  | resume (t : Nat) (w : Option Nat)
deriving DecidableEq, Repr

/-- Is the thread blocked on condition variable `c`? -/
def PC.asleepOn (c : Cond) : PC → Bool
  | .asleep op _ => op.cond == c
  | _ => false

/-- `notify_one` on `c`: any blocked thread may be picked, also one whose time-out has just fired. -/
def notifyOne (c : Cond) (ts : List PC) : Option Nat → Option (List PC)
  | none => if ts.any (PC.asleepOn c) then none else some ts
  | some u =>
    match ts[u]? with
    | some (.asleep op tm) => if op.cond = c then some (ts.set u (.woken op tm)) else none
    | some (.expired op) => if op.cond = c then some ts else none
    | _ => none

/-- Effect of `shared_cond.notify_all()` on one thread. -/
def PC.wakeShared : PC → PC
  | .asleep op tm => if op.cond = .shared then .woken op tm else .asleep op tm
  | p => p

/-- `shared_cond.notify_all()`. -/
def notifyAllShared (ts : List PC) : List PC := ts.map PC.wakeShared

/-- `release_waiters`, shared_mutex.hpp:148-152. -/
def releaseWaiters (ts : List PC) (w : Option Nat) : Option (List PC) :=
  (notifyOne .exclusive ts w).map notifyAllShared

/-- Precondition events for conversions. -/
def Op.callEvents (t : Nat) : Op → List Event
  | .shared => []
  | .upgrade => []
  | .exclusive => []
  | op => [.called t op]

/-- May `op` be called with / without a deadline? -/
def Op.hasForm : Op → Bool → Bool
  | .upgradeToExclusive, timed => !timed
  | .timedUpgradeToExclusive, timed => timed
  | .timedSharedToExclusive, timed => timed
  | .timedSharedToUpgrade, timed => timed
  | _, _ => true

/-- Test of a non-blocking attempt. -/
def TryOp.ready : TryOp → Data → Bool
  | .shared, d => d.canLockShared                                          -- 182
  | .upgrade, d => d.canLockUpgrade                                        -- 427
  | .exclusive, d => d.canLock                                             -- 341
  | .upgradeToExclusive, d =>                                              -- 482-485
    !d.exclusive && !d.exclusiveWaitingBlocked && d.upgrade && d.sharedCount == 1
  | .sharedToExclusive, d =>                                               -- 542-545
    !d.exclusive && !d.exclusiveWaitingBlocked && !d.upgrade && d.sharedCount == 1
  | .sharedToUpgrade, d => d.canLockUpgrade                                -- 600

/-- Effect of a successful non-blocking attempt. -/
def TryOp.grant : TryOp → Data → Data
  | .shared, d => d.incShared                                              -- 186
  | .upgrade, d => { d.incShared with upgrade := true }                    -- 431-432
  | .exclusive, d => { d with exclusive := true }                          -- 345
  | .upgradeToExclusive, d => { d with sharedCount := 0, exclusive := true, upgrade := false }  -- 487-489
  | .sharedToExclusive, d => { d with sharedCount := 0, exclusive := true }  -- 547-548
  | .sharedToUpgrade, d => { d with upgrade := true }                      -- 602

/-- The unlock functions. -/
def unlock (s : State) (t : Nat) (m : Mode) (w v : Option Nat) : Option (State × List Event) :=
  match m with
  | .exclusive =>                                                          -- 349-357
    match releaseWaiters s.ts w with
    | some ts => some ({ data := { s.data with exclusive := false, exclusiveWaitingBlocked := false }, ts := ts },
        [.released t .exclusive])
    | none => none
  | .upgrade =>                                                            -- 437-449
    let d := { s.data.decShared with upgrade := false }
    if d.noShared then
      match releaseWaiters s.ts w with
      | some ts => some ({ data := { d with exclusiveWaitingBlocked := false }, ts := ts }, [.released t .upgrade])
      | none => none
    else some ({ data := d, ts := notifyAllShared s.ts }, [.released t .upgrade])
  | .shared =>                                                             -- 241-264
    let d := s.data.decShared
    if d.noShared then
      if d.upgrade then
        match notifyOne .upgrade s.ts v with
        | some ts₁ =>
          match releaseWaiters ts₁ w with
          | some ts => some ({ data := { d with upgrade := false, exclusive := true }, ts := ts },
              [.released t .shared])
          | none => none
        | none => none
      else
        match releaseWaiters s.ts w with
        | some ts => some ({ data := { d with exclusiveWaitingBlocked := false }, ts := ts }, [.released t .shared])
        | none => none
    else some ({ data := d, ts := s.ts }, [.released t .shared])

/-- Downward conversions. -/
def down (s : State) (t : Nat) (c : Down) (w : Option Nat) : Option (State × List Event) :=
  match releaseWaiters s.ts w with
  | none => none
  | some ts =>
    let d := match c with
      | .exclusiveToUpgrade =>                                             -- 470-473
        { s.data.incShared with exclusive := false, upgrade := true, exclusiveWaitingBlocked := false }
      | .exclusiveToShared =>                                              -- 531-533
        { s.data.incShared with exclusive := false, exclusiveWaitingBlocked := false }
      | .upgradeToShared =>                                                -- 590-591
        { s.data with upgrade := false, exclusiveWaitingBlocked := false }
    some ({ data := d, ts := ts }, [.downgraded t c])

/-- One atomic step. -/
def step (s : State) : Label → Option (State × List Event)
  | .call t op timed =>
    match s.ts[t]? with
    | some .idle =>
      if op.hasForm timed then
        let d := op.enter s.data
        if op.ready d then some ({ data := op.grant d, ts := s.ts }, op.callEvents t ++ [.granted t op])
        else some ({ data := d, ts := s.ts.set t (.asleep op timed) }, op.callEvents t ++ [.blocked t op])
      else none
    | _ => none
  | .tryCall t op =>
    match s.ts[t]? with
    | some .idle =>
      if op.ready s.data then some ({ s with data := op.grant s.data }, [.tried t op true])
      else some (s, [.tried t op false])
    | _ => none
  | .unlock t m w v =>
    match s.ts[t]? with
    | some .idle => unlock s t m w v
    | _ => none
  | .down t c w =>
    match s.ts[t]? with
    | some .idle => down s t c w
    | _ => none
  | .spurious t =>
    match s.ts[t]? with
    | some (.asleep op tm) => some ({ s with ts := s.ts.set t (.woken op tm) }, [])
    | _ => none
  | .timeout t =>
    match s.ts[t]? with
    | some (.asleep op true) => some ({ s with ts := s.ts.set t (.expired op) }, [])
    | _ => none
  | .resume t w =>
    match s.ts[t]? with
    | some (.woken op tm) =>
      if op.ready s.data then some ({ data := op.grant s.data, ts := s.ts.set t .idle }, [.granted t op])
      else some ({ s with ts := s.ts.set t (.asleep op tm) }, [])
    | some (.expired op) =>
      if op.ready s.data then some ({ data := op.grant s.data, ts := s.ts.set t .idle }, [.granted t op])
      else if op = .exclusive then                                         -- 286-291, 303-308, 326-331
        match releaseWaiters (s.ts.set t .idle) w with
        | some ts => some ({ data := { s.data with exclusiveWaitingBlocked := false }, ts := ts }, [.timedOut t op])
        | none => none
      else some ({ s with ts := s.ts.set t .idle }, [.timedOut t op])
    | _ => none

end Verif.SharedMutex
