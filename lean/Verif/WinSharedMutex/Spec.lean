import Verif.WinSharedMutex.Model
/-!
# What the Windows `shared_mutex` is

The specification knows who owns what, and how many waits have been begun and not yet been let go.

* A writer excludes everybody, and there is at most one upgrade owner.
* While exclusive ownership is waited for, and since that wait began nothing has been let go and not all such waits have timed out, nobody is given shared or upgrade ownership.
* A request is refused only while somebody owns the mutex; a shared or upgrade request only for a writer, because exclusive ownership is waited for, or because there are 2047 owners (an upgrade request also for an upgrade owner).
* A request ends with an error only if the counter it needs is exhausted: 2047 owners, 2047 waiting shared and upgrade requests, 127 waiting exclusive requests.
-/

namespace Verif.WinSharedMutex

structure Own where
  readers : List Nat
  upgrader : Option Nat
  writer : Option Nat
  /-- the upgrade owner waits to become writer -/
  converting : Bool
  /-- shared and upgrade requests that wait, not counting those let go since -/
  sharedWaits : Nat
  /-- the same for exclusive requests -/
  exclWaits : Nat
  /-- exclusive ownership has been waited for, and since then nothing has been let go and not all these requests have timed out -/
  asked : Bool
deriving DecidableEq, Repr

def free : Own := { readers := [], upgrader := none, writer := none, converting := false, sharedWaits := 0, exclWaits := 0, asked := false }

/-- `.ok o` if the condition holds, else the library has broken the contract. -/
def must (b : Bool) (o : Own) : Verdict Own := if b then .ok o else .illegal
/-- Go on if the condition holds, else the client has broken the contract. -/
def pre (b : Bool) (v : Verdict Own) : Verdict Own := if b then v else .undefined

/-- Somebody owns the mutex. -/
def Own.owned (o : Own) : Bool := o.writer.isSome || o.upgrader.isSome || !o.readers.isEmpty

/-- The number of owners that are not the writer and do not wait to become it. -/
def Own.owners (o : Own) : Nat := o.readers.length + if o.upgrader.isSome && !o.converting then 1 else 0

/-- The writer, or the upgrade owner that has become writer and is about to return. -/
def Own.writing (o : Own) : Bool := o.writer.isSome || (o.converting && o.readers.isEmpty)

/-- All waiting shared and upgrade requests and one exclusive request are let go, and shared and upgrade requests are admitted again. -/
def Own.letGo (o : Own) : Own := { o with sharedWaits := 0, exclWaits := o.exclWaits - 1, asked := false }

def Own.refusal (o : Own) : Req → Bool
  | .lock => o.owned
  | .shared => o.owned && (o.writing || o.asked || 2047 ≤ o.owners)
  | .upgrade => o.owned && (o.writing || o.asked || 2047 ≤ o.owners || o.upgrader.isSome)
  | .upgradeToExclusive => false

def next (o : Own) : Event → Verdict Own
  | .blocked _ .lock => must o.owned { o with exclWaits := o.exclWaits + 1, asked := true }
  | .blocked _ .shared => must (o.refusal .shared) { o with sharedWaits := o.sharedWaits + 1 }
  | .blocked _ .upgrade => must (o.refusal .upgrade) { o with sharedWaits := o.sharedWaits + 1 }
  | .blocked t .upgradeToExclusive => pre (o.upgrader == some t && !o.converting) (must (!o.readers.isEmpty) { o with converting := true })
  | .granted t .lock => must (!o.owned) { o with writer := some t }
  | .granted t .shared => must (!o.writing && !o.asked && o.owners < 2047) { o with readers := t :: o.readers }
  | .granted t .upgrade => must (!o.writing && !o.asked && o.upgrader.isNone && o.owners < 2047) { o with upgrader := some t }
  | .granted t .upgradeToExclusive => pre (o.upgrader == some t) (must (o.writer.isNone && o.readers.isEmpty) { o with writer := some t, upgrader := none, converting := false })
  | .refused _ r => must (o.refusal r) o
  | .timedOut _ .lock => must o.owned { o with exclWaits := o.exclWaits - 1, asked := o.asked && 1 < o.exclWaits }
  | .timedOut _ r => must (o.refusal r) { o with sharedWaits := o.sharedWaits - 1 }
  | .error _ .lock => must (o.exclWaits == 127) o
  | .error _ .upgradeToExclusive => .illegal
  | .error _ _ => must (o.owners == 2047 || o.sharedWaits == 2047) o
  | .down t .unlock => pre (o.writer == some t) (.ok { o with writer := none }.letGo)
  | .down t .unlockShared =>
    pre (o.readers.contains t) (.ok (if (o.readers.erase t).isEmpty && o.upgrader.isNone then { o with readers := [] }.letGo else { o with readers := o.readers.erase t }))
  | .down t .unlockUpgrade =>
    pre (o.upgrader == some t && !o.converting) (.ok (if o.readers.isEmpty then { o with upgrader := none }.letGo else { o with upgrader := none, sharedWaits := 0 }))
  | .down t .exclusiveToUpgrade => pre (o.writer == some t) (.ok { o with writer := none, upgrader := some t }.letGo)
  | .down t .exclusiveToShared => pre (o.writer == some t) (.ok { o with writer := none, readers := t :: o.readers }.letGo)
  | .down t .upgradeToShared => pre (o.upgrader == some t && !o.converting) (.ok { o with upgrader := none, readers := t :: o.readers }.letGo)

/-- A writer excludes everybody. (That there is at most one writer and one upgrade owner is in the types.) -/
def Own.Exclusive (o : Own) : Prop := o.writer.isSome → o.readers = [] ∧ o.upgrader = none

end Verif.WinSharedMutex
