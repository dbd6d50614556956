import Verif.RecursiveMutex.Model
/-! # What a recursive mutex is: an owner and a depth -/

namespace Verif.RecursiveMutex

open Verif.TimedMutex (Kind)

/-- `none` = free; `some (t, d)` = thread `t` has locked it `d ≥ 1` more times than it unlocked it. -/
abbrev Holder := Option (Nat × Nat)

/-- A successful lock by `t`; `limit` is the greatest depth the contract covers. -/
def specAcquire (limit : Option Nat) : Holder → Nat → Verdict Holder
  | none, t => .ok (some (t, 1))
  | some (u, d), t =>
    if u ≠ t then .illegal
    else match limit with
      | none => .ok (some (t, d + 1))
      | some m => if d < m then .ok (some (t, d + 1)) else .undefined

/-- Which events a recursive mutex allows. A failing `try_lock` needs another owner; a timed call of the owner
never fails; the owner's last unlock frees the mutex; anybody else's unlock is outside the contract. -/
def specNext (limit : Option Nat) (h : Holder) : Event → Verdict Holder
  | .locked t => specAcquire limit h t
  | .tryLocked t true => specAcquire limit h t
  | .timedLocked t true => specAcquire limit h t
  | .tryLocked t false =>
    match h with
    | none => .illegal
    | some (u, _) => if u = t then .illegal else .ok h
  | .timedLocked t false =>
    match h with
    | none => .ok h
    | some (u, _) => if u = t then .illegal else .ok h
  | .unlocked t =>
    match h with
    | none => .undefined
    | some (u, d) => if u ≠ t then .undefined else if d = 1 then .ok none else .ok (some (u, d - 1))

def Asleep (s : State) (t : Nat) : Prop := ∃ k, s.ts[t]? = some (.asleep k)

/-- `timed_lock` is called with not-a-date-time or minus infinity. -/
def Label.isSpecialDuration : Label → Bool
  | .timedLockRel _ .notADateTime => true
  | .timedLockRel _ .negInfinity => true
  | _ => false

/-- The call a label starts: the thread and what it asks for. -/
def Label.call : Label → Option (Nat × Kind)
  | .lock t => some (t, .lock)
  | .timedLock t => some (t, .timed)
  | .timedLockRel t .posInfinity => some (t, .lockInf)
  | .timedLockRel t (.finite _) => some (t, .timed)
  | _ => none

/-- The thread whose call returns. -/
def Event.thread : Event → Nat
  | .locked t | .tryLocked t _ | .timedLocked t _ | .unlocked t => t

/-- What a call may return: `lock()` and a wait without limit return with the mutex only, a timed call may also fail. -/
def MayReturn (t : Nat) (e : Event) : Kind → Prop
  | .lock => e = .locked t
  | .lockInf => e = .timedLocked t true
  | .timed => e = .timedLocked t true ∨ e = .timedLocked t false

end Verif.RecursiveMutex
