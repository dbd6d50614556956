import Verif.Core.Run
/-!
# Model of the Windows `shared_mutex`

Models `/repo/include/boost/thread/win32/shared_mutex.hpp`.

* The state is one word with bit-fields (34-48), read and replaced as a whole by compare-and-swap. Counters wrap inside their field.
* Every member function is a loop: load the word, compute the new word from it, compare-and-swap, try again with the value found there if it has changed. What is computed from a loaded value is local, so a load (or a failed
  compare-and-swap, which also loads) together with the computation is one step. A function that leaves the loop without a compare-and-swap (`return false`, `throw lock_error`) does so in that step.
* A wait takes its semaphores as one step. A timed wait may time out at any moment, also when tokens are there.
* `ReleaseSemaphore` is one step per semaphore. The limit `LONG_MAX` of the semaphores is not modelled, nor are failing system calls (`BOOST_VERIFY`).
* The plain read of `state` at the beginning of a function (`state_data old_state=state`) is taken as atomic.
* `UNDER_CE` (where a waiting writer waits for any of the two semaphores) is not modelled.
-/

namespace Verif.WinSharedMutex

def upd {α : Type} (f : Nat → α) (i : Nat) (x : α) : Nat → α := fun j => if j = i then x else f j

@[grind =] theorem upd_apply {α : Type} (f : Nat → α) (i j : Nat) (x : α) : upd f i x j = if j = i then x else f j := rfl

/-- `state_data` 34-41. -/
structure Word where
  /-- `shared_count:11` -/
  sc : Nat
  /-- `shared_waiting:11` -/
  sw : Nat
  /-- `exclusive:1` -/
  x : Bool
  /-- `upgrade:1` -/
  u : Bool
  /-- `exclusive_waiting:7` -/
  xw : Nat
  /-- `exclusive_waiting_blocked:1` -/
  xb : Bool
deriving DecidableEq, Repr

/-- `++shared_count` in an 11-bit field, and so on. -/
def Word.incSC (w : Word) : Word := { w with sc := (w.sc + 1) % 2048 }
def Word.decSC (w : Word) : Word := { w with sc := (w.sc + 2047) % 2048 }
def Word.incSW (w : Word) : Word := { w with sw := (w.sw + 1) % 2048 }
def Word.decSW (w : Word) : Word := { w with sw := (w.sw + 2047) % 2048 }
def Word.incXW (w : Word) : Word := { w with xw := (w.xw + 1) % 128 }
def Word.decXW (w : Word) : Word := { w with xw := (w.xw + 127) % 128 }

/-- The code a thread runs. -/
inductive Code where
  /-- `lock` 414-457 and, with a deadline, `do_lock_until` 461-562 -/
  | lock (timed : Bool)
  /-- `lock_shared` 145-183 and, with a deadline, `do_lock_shared_until` 200-305 -/
  | shared (timed : Bool)
  /-- `lock_upgrade` 636-677 -/
  | upgrade
  /-- `try_lock` 389-412 -/
  | tryLock
  /-- `try_lock_shared` 120-143 -/
  | tryShared
  /-- `try_lock_upgrade` 679-707 -/
  | tryUpgrade
  /-- the loop of `do_lock_until` after the deadline 529-562 -/
  | lockExpired
  /-- the loop of `do_lock_shared_until` after the deadline 264-298 -/
  | sharedExpired
  /-- `unlock` 612-634 -/
  | unlock
  /-- `unlock_shared` 343-387 -/
  | unlockShared
  /-- `unlock_upgrade` 709-746 -/
  | unlockUpgrade
  /-- `unlock_upgrade_and_lock` 748-773 -/
  | upgradeToExclusive
  /-- `unlock_and_lock_upgrade` 775-799 -/
  | exclusiveToUpgrade
  /-- `unlock_and_lock_shared` 801-824 -/
  | exclusiveToShared
  /-- `unlock_upgrade_and_lock_shared` 825-847 -/
  | upgradeToShared
deriving DecidableEq, Repr

/-- What is asked for. -/
inductive Req where
  | lock
  | shared
  | upgrade
  | upgradeToExclusive
deriving DecidableEq, Repr

inductive Down where
  | unlock
  | unlockShared
  | unlockUpgrade
  | exclusiveToUpgrade
  | exclusiveToShared
  | upgradeToShared
deriving DecidableEq, Repr

inductive Event where
  /-- the request goes to wait -/
  | blocked (t : Nat) (r : Req)
  | granted (t : Nat) (r : Req)
  /-- the request returns false -/
  | refused (t : Nat) (r : Req)
  /-- the request returns false after its deadline -/
  | timedOut (t : Nat) (r : Req)
  /-- the request throws `lock_error` -/
  | error (t : Nat) (r : Req)
  | down (t : Nat) (d : Down)
deriving DecidableEq, Repr

/-- What follows a successful compare-and-swap. -/
inductive Kont where
  /-- the request `r` is granted -/
  | granted (r : Req)
  | refused (r : Req)
  /-- the deadline has passed; `notify` tokens of `unlock_sem` are released -/
  | timedOut (r : Req) (notify : Nat)
  /-- ownership is given up or weakened, and tokens are released -/
  | down (d : Down) (ex un up : Nat)
  /-- wait for the semaphores -/
  | wait (r : Req)
  /-- wait for `upgrade_sem` -/
  | waitUp
deriving DecidableEq, Repr

inductive Plan where
  /-- leave without a compare-and-swap -/
  | refuse (r : Req)
  | error (r : Req)
  | cas (new : Word) (k : Kont)
deriving DecidableEq, Repr

/-- `release_waiters` 71-82: tokens for `exclusive_sem` and `unlock_sem`. -/
def exTokens (old : Word) : Nat := if old.xw ≠ 0 then 1 else 0
/-- also `release_shared_waiters` 83-89 -/
def unTokens (old : Word) : Nat := old.sw + if old.xw ≠ 0 then 1 else 0

/-- `if(exclusive_waiting) { --exclusive_waiting; exclusive_waiting_blocked=false; }` (361-365, 620-624, 722-726, 786-790, 811-815, 834-838) -/
def Word.letGo (w : Word) : Word := if w.xw ≠ 0 then { w.decXW with xb := false } else w

/-- The blocked condition of shared requests. -/
def Word.closed (w : Word) : Bool := w.x || w.xb

/-- The body of the loop: from the word loaded to the word wanted. -/
def plan (o : Word) : Code → Plan
  -- 424-441, 470-487
  | .lock _ =>
    if o.sc ≠ 0 ∨ o.x then
      if o.incXW.xw = 0 then .error .lock else .cas { o.incXW with xb := true } (.wait .lock)
    else .cas { o with x := true } (.granted .lock)
  -- 152-171, 207-226
  | .shared _ =>
    if o.closed then
      if o.incSW.sw = 0 then .error .shared else .cas o.incSW (.wait .shared)
    else if o.incSC.sc = 0 then .error .shared else .cas o.incSC (.granted .shared)
  -- 643-661
  | .upgrade =>
    if o.closed ∨ o.u then
      if o.incSW.sw = 0 then .error .upgrade else .cas o.incSW (.wait .upgrade)
    else if o.incSC.sc = 0 then .error .upgrade else .cas { o.incSC with u := true } (.granted .upgrade)
  -- 394-402
  | .tryLock => if o.sc ≠ 0 ∨ o.x then .refuse .lock else .cas { o with x := true } (.granted .lock)
  -- 125-133, 142
  | .tryShared =>
    if o.closed then .cas o (.refused .shared)
    else if o.incSC.sc = 0 then .refuse .shared else .cas o.incSC (.granted .shared)
  -- 684-697
  | .tryUpgrade =>
    if o.closed ∨ o.u then .refuse .upgrade
    else if o.incSC.sc = 0 then .refuse .upgrade else .cas { o.incSC with u := true } (.granted .upgrade)
  -- 531-548
  | .lockExpired =>
    if o.sc ≠ 0 ∨ o.x then
      if o.xw ≠ 0 then
        if o.decXW.xw = 0 then .cas { o.decXW with xb := false } (.timedOut .lock 1) else .cas o.decXW (.timedOut .lock 0)
      else .cas o (.timedOut .lock 0)
    else .cas { o with x := true } (.granted .lock)
  -- 266-282
  | .sharedExpired =>
    if o.closed then .cas (if o.sw ≠ 0 then o.decSW else o) (.timedOut .shared 0)
    else if o.incSC.sc = 0 then .refuse .shared else .cas o.incSC (.granted .shared)
  -- 617-625, 633
  | .unlock => .cas { { o with x := false }.letGo with sw := 0 } (.down .unlock (exTokens o) (unTokens o) 0)
  -- 348-384
  | .unlockShared =>
    if o.decSC.sc = 0 then
      if o.u then .cas { o.decSC with u := false, x := true } (.down .unlockShared 0 0 1)
      else .cas { o.decSC.letGo with sw := 0 } (.down .unlockShared (exTokens o) (unTokens o) 0)
    else .cas o.decSC (.down .unlockShared 0 0 0)
  -- 714-737
  | .unlockUpgrade =>
    if o.decSC.sc = 0 then .cas { { o.decSC with u := false }.letGo with sw := 0 } (.down .unlockUpgrade (exTokens o) (unTokens o) 0)
    else .cas { o.decSC with u := false, sw := 0 } (.down .unlockUpgrade 0 (unTokens o) 0)
  -- 753-769
  | .upgradeToExclusive =>
    if o.decSC.sc = 0 then .cas { o.decSC with u := false, x := true } (.granted .upgradeToExclusive) else .cas o.decSC .waitUp
  -- 780-791, 799
  | .exclusiveToUpgrade => .cas { { o.incSC with x := false, u := true }.letGo with sw := 0 } (.down .exclusiveToUpgrade (exTokens o) (unTokens o) 0)
  -- 806-816, 824
  | .exclusiveToShared => .cas { { o.incSC with x := false }.letGo with sw := 0 } (.down .exclusiveToShared (exTokens o) (unTokens o) 0)
  -- 830-839, 847
  | .upgradeToShared => .cas { { o with u := false }.letGo with sw := 0 } (.down .upgradeToShared (exTokens o) (unTokens o) 0)

/-- `must_notify` 531-541: then a token of `unlock_sem` is released after the compare-and-swap, even if that has failed (550-553). -/
def mustNotify (o : Word) : Code → Bool
  | .lockExpired => (o.sc ≠ 0 ∨ o.x) && o.xw ≠ 0 && o.decXW.xw = 0
  | _ => false

inductive PC where
  | idle
  /-- about to load the word -/
  | start (c : Code)
  /-- about to compare-and-swap with the value loaded -/
  | loop (c : Code) (old : Word)
  /-- waiting; `old` is the value of `old_state` -/
  | waiting (c : Code) (old : Word)
  | waitUp
  /-- about to release tokens; then the thread is done, or goes on with a value loaded -/
  | releasing (ex un up : Nat) (k : Option (Code × Word))
deriving DecidableEq, Repr

structure State where
  threads : Nat
  word : Word
  /-- tokens of `semaphores[exclusive_sem]`, `semaphores[unlock_sem]`, `upgrade_sem` -/
  ex : Nat
  un : Nat
  up : Nat
  pc : Nat → PC

/-- The constructor 93-111. -/
def init (threads : Nat) : State := { threads := threads, word := ⟨0, 0, false, false, 0, false⟩, ex := 0, un := 0, up := 0, pc := fun _ => .idle }

inductive Label where
  | call (t : Nat) (c : Code)
  | load (t : Nat)
  | cas (t : Nat)
  /-- the wait ends with the semaphores -/
  | wake (t : Nat)
  | timeout (t : Nat)
  | release (t : Nat)
deriving DecidableEq, Repr

def Code.callable : Code → Bool
  | .lockExpired => false
  | .sharedExpired => false
  | _ => true

/-- Thread `t` has loaded `w`. -/
def State.decide (s : State) (t : Nat) (c : Code) (w : Word) : State × List Event :=
  match plan w c with
  | .refuse r => ({ s with pc := upd s.pc t .idle }, [.refused t r])
  | .error r => ({ s with pc := upd s.pc t .idle }, [.error t r])
  | .cas _ _ => ({ s with pc := upd s.pc t (.loop c w) }, [])

/-- The compare-and-swap of `t` has succeeded. -/
def State.commit (s : State) (t : Nat) (c : Code) (old new : Word) : Kont → State × List Event
  | .granted r => ({ s with word := new, pc := upd s.pc t .idle }, [.granted t r])
  | .refused r => ({ s with word := new, pc := upd s.pc t .idle }, [.refused t r])
  | .timedOut r notify => ({ s with word := new, pc := upd s.pc t (.releasing 0 notify 0 none) }, [.timedOut t r])
  | .down d ex un up => ({ s with word := new, pc := upd s.pc t (.releasing ex un up none) }, [.down t d])
  | .wait r => ({ s with word := new, pc := upd s.pc t (.waiting c old) }, [.blocked t r])
  | .waitUp => ({ s with word := new, pc := upd s.pc t .waitUp }, [.blocked t .upgradeToExclusive])

def step (s : State) : Label → Option (State × List Event)
  | .call t c => if t < s.threads ∧ s.pc t = .idle ∧ c.callable then some ({ s with pc := upd s.pc t (.start c) }, []) else none
  | .load t =>
    match s.pc t with
    | .start c => some (s.decide t c s.word)
    | _ => none
  | .cas t =>
    match s.pc t with
    | .loop c old =>
      match plan old c with
      | .cas new k =>
        if s.word = old then some (s.commit t c old new k)
        else if mustNotify old c then some ({ s with pc := upd s.pc t (.releasing 0 1 0 (some (c, s.word))) }, [])
        else some (s.decide t c s.word)
      | _ => none
    | _ => none
  | .wake t =>
    match s.pc t with
    | .waiting c _ =>
      match c with
      -- WaitForMultipleObjectsEx of both (455, 515)
      | .lock _ => if 0 < s.ex ∧ 0 < s.un then some ({ s with ex := s.ex - 1, un := s.un - 1, pc := upd s.pc t (.start c) }, []) else none
      -- WaitForSingleObjectEx (181, 255, 675)
      | _ => if 0 < s.un then some ({ s with un := s.un - 1, pc := upd s.pc t (.start c) }, []) else none
    -- 767
    | .waitUp => if 0 < s.up then some ({ s with up := s.up - 1, pc := upd s.pc t .idle }, [.granted t .upgradeToExclusive]) else none
    | _ => none
  | .timeout t =>
    match s.pc t with
    | .waiting (.lock true) old => some (s.decide t .lockExpired old)
    | .waiting (.shared true) old => some (s.decide t .sharedExpired old)
    | _ => none
  | .release t =>
    match s.pc t with
    | .releasing ex un up k =>
      if 0 < ex then some ({ s with ex := s.ex + ex, pc := upd s.pc t (.releasing 0 un up k) }, [])
      else if 0 < un then some ({ s with un := s.un + un, pc := upd s.pc t (.releasing 0 0 up k) }, [])
      else if 0 < up then some ({ s with up := s.up + up, pc := upd s.pc t (.releasing 0 0 0 k) }, [])
      else match k with
        | none => some ({ s with pc := upd s.pc t .idle }, [])
        | some (c, w) => some (s.decide t c w)
    | _ => none

end Verif.WinSharedMutex
