import Verif.TimedMutex.Model
/-!
# What a mutex is

The specification knows only who holds the mutex. It does not mention `is_locked`, conditions or wait states.
-/

namespace Verif.TimedMutex

/-- The abstract mutex: `none` = free, `some t` = held by thread `t`. -/
abbrev Holder := Option Nat

/-- Which events a mutex allows.
* A call may return "locked" only when the mutex is free; the caller then holds it.
* `try_lock` returns false only when somebody holds it.
* A timed call may return false at any time (that it does so only at its deadline is C17's business).
* Unlocking a mutex one does not hold is outside the contract. -/
def specNext : Holder → Event → Verdict Holder
  | none, .locked t => .ok (some t)
  | some _, .locked _ => .illegal
  | none, .tryLocked t true => .ok (some t)
  | some _, .tryLocked _ true => .illegal
  | none, .tryLocked _ false => .illegal
  | some h, .tryLocked _ false => .ok (some h)
  | none, .timedLocked t true => .ok (some t)
  | some _, .timedLocked _ true => .illegal
  | h, .timedLocked _ false => .ok h
  | none, .unlocked _ => .undefined
  | some h, .unlocked t => if h = t then .ok none else .undefined

/-- A thread is blocked inside a call that wants the mutex and nothing has woken it. -/
def Asleep (s : State) (t : Nat) : Prop := ∃ k, s.ts[t]? = some (.asleep k)

/-- `timed_lock` is called with not-a-date-time or minus infinity. -/
def Label.isSpecialDuration : Label → Bool
  | .timedLockRel _ .notADateTime => true
  | .timedLockRel _ .negInfinity => true
  | _ => false

/-- The call a label starts: the thread and what it asks for. -/
def Label.call : Label → Option (Nat × Kind)
  | .lock t => some (t, .lock)
  | .timedLock t => some (t, .timed)
  | .timedLockRel t .posInfinity => some (t, .lockInf)
  | .timedLockRel t (.finite _) => some (t, .timed)
  | _ => none

/-- The thread whose call returns. -/
def Event.thread : Event → Nat
  | .locked t | .tryLocked t _ | .timedLocked t _ | .unlocked t => t

/-- What a call may return: `lock()` and a wait without limit return with the mutex only, a timed call may also fail. -/
def Kind.MayReturn (t : Nat) (e : Event) : Kind → Prop
  | .lock => e = .locked t
  | .lockInf => e = .timedLocked t true
  | .timed => e = .timedLocked t true ∨ e = .timedLocked t false

end Verif.TimedMutex
