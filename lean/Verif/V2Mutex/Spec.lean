import Verif.V2Mutex.Model
/-!
# What an upgradable shared mutex is

The specification knows who owns what and who waits for exclusive ownership, and whether a timed conversion to exclusive ownership has failed (`phantom`) or a wait for exclusive ownership
was interrupted (`thrown`) while the request was keeping others out.

* A writer excludes everybody, and there is at most one upgrade owner.
* A failed conversion leaves the caller with the ownership it had.
* A failed attempt has a reason, unless a timed conversion has failed or a wait was interrupted.
* The program is not aborted by an assertion of the library, unless a wait was interrupted.
-/

namespace Verif.V2Mutex

structure Own where
  readers : List Nat
  upgrader : Option Nat
  writer : Option Nat
  /-- threads waiting for exclusive ownership -/
  pending : List Nat
  phantom : Bool
  thrown : Bool
deriving DecidableEq, Repr

def free : Own := { readers := [], upgrader := none, writer := none, pending := [], phantom := false, thrown := false }

def Own.disturbed (o : Own) : Bool := o.phantom || o.thrown

/-- The number of shared and upgrade owners. -/
def Own.owners (o : Own) : Nat := o.readers.length + o.upgrader.toList.length

def Own.writerAround (o : Own) : Bool := o.writer.isSome || !o.pending.isEmpty

/-- `.ok o` if the condition holds, else the library has broken the contract. -/
def must (b : Bool) (o : Own) : Verdict Own := if b then .ok o else .illegal
/-- Go on if the condition holds, else the client has broken the contract. -/
def pre (b : Bool) (v : Verdict Own) : Verdict Own := if b then v else .undefined

def Own.addReader (o : Own) (t : Nat) : Verdict Own := must o.writer.isNone { o with readers := t :: o.readers }
def Own.setUpgrader (o : Own) (t : Nat) : Verdict Own := must (o.writer.isNone && o.upgrader.isNone) { o with upgrader := some t }
def Own.setWriter (o : Own) (t : Nat) : Verdict Own := must (o.writer.isNone && o.upgrader.isNone && o.readers.isEmpty) { o with writer := some t, pending := o.pending.erase t }
/-- Upgrade owner `t` becomes writer: nobody else may own anything. -/
def Own.upgradeToWriter (o : Own) (t : Nat) : Verdict Own :=
  must (o.writer.isNone && o.upgrader == some t && o.readers.isEmpty) { o with writer := some t, upgrader := none, pending := o.pending.erase t }
/-- Reader `t` becomes writer: it must be the only owner. -/
def Own.readerToWriter (o : Own) (t : Nat) : Verdict Own := must (o.writer.isNone && o.upgrader.isNone && o.readers == [t]) { o with writer := some t, readers := [], pending := o.pending.erase t }
/-- Reader `t` becomes upgrade owner: there must be no other. -/
def Own.readerToUpgrader (o : Own) (t : Nat) : Verdict Own :=
  must (o.writer.isNone && o.upgrader.isNone && o.readers.contains t) { o with upgrader := some t, readers := o.readers.erase t }

/-- Does the operation ask for exclusive ownership? -/
def Op.exclusive : Op → Bool
  | .lock => true
  | .sharedToExclusive => true
  | .upgradeToExclusive => true
  | _ => false

/-- May the request of `t` be keeping others out? Only if it asks for exclusive ownership, and nobody else is writer or upgrade owner. -/
def Own.entered (o : Own) (t : Nat) (op : Op) : Bool := op.exclusive && o.writer.isNone && (o.upgrader.isNone || o.upgrader == some t)

/-- What the caller of an operation must own. -/
def Own.may (o : Own) (t : Nat) : Op → Bool
  | .sharedToExclusive => o.readers.contains t
  | .sharedToUpgrade => o.readers.contains t
  | .upgradeToExclusive => o.upgrader == some t
  | _ => true

def Own.mayTry (o : Own) (t : Nat) : TryOp → Bool
  | .sharedToExclusive => o.readers.contains t
  | .sharedToUpgrade => o.readers.contains t
  | .upgradeToExclusive => o.upgrader == some t
  | _ => true

def Own.mayDown (o : Own) (t : Nat) : Down → Bool
  | .unlock => o.writer == some t
  | .unlockShared => o.readers.contains t
  | .unlockUpgrade => o.upgrader == some t
  | .exclusiveToShared => o.writer == some t
  | .upgradeToShared => o.upgrader == some t
  | .exclusiveToUpgrade => o.writer == some t

/-- The reasons for which an attempt may fail. -/
def Own.reason (limit : Nat) (o : Own) (t : Nat) : TryOp → Bool
  | .lock => o.writerAround || o.upgrader.isSome || !o.readers.isEmpty
  | .shared => o.writerAround || limit ≤ o.owners
  | .upgrade => o.writerAround || o.upgrader.isSome || limit ≤ o.owners
  | .sharedToExclusive => o.writerAround || o.upgrader.isSome || o.readers != [t]
  | .sharedToUpgrade => o.writerAround || o.upgrader.isSome
  | .upgradeToExclusive => !o.readers.isEmpty

def next (limit : Nat) (o : Own) : Event → Verdict Own
  | .blocked t op => .ok (if op.exclusive then { o with pending := t :: o.pending } else o)
  | .called t op => pre (o.may t op) (.ok o)
  | .granted t .lock => o.setWriter t
  | .granted t .shared => o.addReader t
  | .granted t .upgrade => o.setUpgrader t
  | .granted t .sharedToExclusive => o.readerToWriter t
  | .granted t .sharedToUpgrade => o.readerToUpgrader t
  | .granted t .upgradeToExclusive => o.upgradeToWriter t
  | .timedOut t op => .ok { o with pending := o.pending.erase t, phantom := o.phantom || (op != .lock && o.entered t op) }
  | .threw t op => .ok { o with pending := o.pending.erase t, thrown := o.thrown || o.entered t op }
  | .tried t op false => pre (o.mayTry t op) (must (o.disturbed || o.reason limit t op) o)
  | .tried t .lock true => o.setWriter t
  | .tried t .shared true => o.addReader t
  | .tried t .upgrade true => o.setUpgrader t
  | .tried t .sharedToExclusive true => pre (o.readers.contains t) (o.readerToWriter t)
  | .tried t .sharedToUpgrade true => pre (o.readers.contains t) (o.readerToUpgrader t)
  | .tried t .upgradeToExclusive true => pre (o.upgrader == some t) (o.upgradeToWriter t)
  | .down t .unlock => pre (o.writer == some t) (.ok { o with writer := none })
  | .down t .unlockShared => pre (o.readers.contains t) (.ok { o with readers := o.readers.erase t })
  | .down t .unlockUpgrade => pre (o.upgrader == some t) (.ok { o with upgrader := none })
  | .down t .exclusiveToShared => pre (o.writer == some t) (.ok { o with writer := none, readers := t :: o.readers })
  | .down t .upgradeToShared => pre (o.upgrader == some t) (.ok { o with upgrader := none, readers := t :: o.readers })
  | .down t .exclusiveToUpgrade => pre (o.writer == some t) (.ok { o with writer := none, upgrader := some t })
  | .callAborts t op => pre (o.may t op) (must o.thrown o)
  | .tryAborts t op => pre (o.mayTry t op) (must o.thrown o)
  | .downAborts t d => pre (o.mayDown t d) (must o.thrown o)

/-- A writer excludes everybody. (That there is at most one writer and one upgrade owner is in the types.) -/
def Own.Exclusive (o : Own) : Prop := o.writer.isSome → o.readers = [] ∧ o.upgrader = none

end Verif.V2Mutex
