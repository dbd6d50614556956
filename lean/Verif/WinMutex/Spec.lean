import Verif.WinMutex.Model
/-! # What a mutex is (as in `TimedMutex/Spec.lean`: only who holds it) -/

namespace Verif.WinMutex

/-- The abstract mutex: `none` = free, `some t` = held by thread `t`. -/
abbrev Holder := Option Nat

/-- Success only when free, `try_lock` fails only when held, unlocking what one does not hold is outside
the contract. -/
def specNext : Holder → Event → Verdict Holder
  | none, .locked t => .ok (some t)
  | some _, .locked _ => .illegal
  | none, .tryLocked t true => .ok (some t)
  | some _, .tryLocked _ true => .illegal
  | none, .tryLocked _ false => .illegal
  | some h, .tryLocked _ false => .ok (some h)
  | none, .timedLocked t true => .ok (some t)
  | some _, .timedLocked _ true => .illegal
  | h, .timedLocked _ false => .ok h
  | none, .unlocked _ => .undefined
  | some h, .unlocked t => if h = t then .ok none else .undefined

/-- Thread `t` has called `lock` or a timed form of it and waits for the event. -/
def Waiting (s : State) (t : Nat) : Prop := ∃ timed old, s.ts[t]? = some (.waiting timed old)

/-- The event reports that `u` has obtained the mutex. -/
def Event.acquires (u : Nat) (e : Event) : Prop := e = .locked u ∨ e = .timedLocked u true

/-- The thread whose call returns. -/
def Event.thread : Event → Nat
  | .locked t | .tryLocked t _ | .timedLocked t _ | .unlocked t => t

/-- What a call may return: `lock()` with the mutex only, a timed call may also fail. -/
def MayReturn (t : Nat) (timed : Bool) (e : Event) : Prop := if timed then e = .timedLocked t true ∨ e = .timedLocked t false else e = .locked t

end Verif.WinMutex
