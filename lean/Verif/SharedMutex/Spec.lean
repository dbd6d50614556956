import Verif.SharedMutex.Model
/-!
# What an upgradable shared mutex is

The specification knows only who owns what (and who is waiting for exclusive ownership). It does not mention the counters,
flags or condition variables of the implementation.
-/

namespace Verif.SharedMutex

/-- Abstract state: the owners, whether the upgrade owner is in the middle of `unlock_upgrade_and_lock`, and
the threads waiting for exclusive ownership. -/
structure Own where
  readers : List Nat
  upgrader : Option Nat
  writer : Option Nat
  converting : Bool
  pending : List Nat
deriving DecidableEq, Repr

/-- Nobody owns anything. -/
def free : Own := { readers := [], upgrader := none, writer := none, converting := false, pending := [] }

/-- Some exclusive ownership exists or is being waited for. -/
def Own.writerAround (o : Own) : Bool := o.writer.isSome || o.converting || !o.pending.isEmpty

/-- Guard: `.ok o` if the condition holds, else `.illegal` (the library broke the contract). -/
def must (b : Bool) (o : Own) : Verdict Own := if b then .ok o else .illegal
/-- Guard: continue if the condition holds, else `.undefined` (the client broke it). -/
def pre (b : Bool) (v : Verdict Own) : Verdict Own := if b then v else .undefined

/-- Shared ownership needs: no writer. -/
def Own.addReader (o : Own) (t : Nat) : Verdict Own := must o.writer.isNone { o with readers := t :: o.readers }
/-- Upgrade ownership needs: no writer and no other upgrade owner. -/
def Own.setUpgrader (o : Own) (t : Nat) : Verdict Own :=
  must (o.writer.isNone && o.upgrader.isNone) { o with upgrader := some t }
/-- Exclusive ownership needs: no owner at all. -/
def Own.setWriter (o : Own) (t : Nat) : Verdict Own :=
  must (o.writer.isNone && o.upgrader.isNone && o.readers.isEmpty)
    { o with writer := some t, pending := o.pending.erase t }

/-- Upgrade owner `t` becomes writer: nobody else may own anything. -/
def Own.upgradeToWriter (o : Own) (t : Nat) : Verdict Own :=
  must (o.writer.isNone && o.upgrader == some t && o.readers.isEmpty)
    { o with writer := some t, upgrader := none, converting := false }
/-- Reader `t` becomes writer: it must be the only owner. -/
def Own.readerToWriter (o : Own) (t : Nat) : Verdict Own :=
  must (o.writer.isNone && o.upgrader.isNone && o.readers == [t]) { o with writer := some t, readers := [] }
/-- Reader `t` becomes upgrade owner: there must be no other upgrade owner. -/
def Own.readerToUpgrader (o : Own) (t : Nat) : Verdict Own :=
  must (o.writer.isNone && o.upgrader.isNone && o.readers.contains t)
    { o with upgrader := some t, readers := o.readers.erase t }

/-- Which events are allowed. -/
def specNext (o : Own) : Event → Verdict Own
  -- calls that have to wait
  | .blocked t .exclusive => .ok { o with pending := t :: o.pending }
  | .blocked _ _ => .ok o
  -- a conversion may be called only by an owner of what is converted
  | .called t .upgradeToExclusive => pre (o.upgrader == some t && !o.converting) (.ok { o with converting := true })
  | .called t .timedUpgradeToExclusive => pre (o.upgrader == some t && !o.converting) (.ok o)
  | .called t .timedSharedToExclusive => pre (o.readers.contains t) (.ok o)
  | .called t .timedSharedToUpgrade => pre (o.readers.contains t) (.ok o)
  | .called _ _ => .ok o
  -- successful returns
  | .granted t .shared => o.addReader t
  | .granted t .upgrade => o.setUpgrader t
  | .granted t .exclusive => o.setWriter t
  | .granted t .upgradeToExclusive => o.upgradeToWriter t
  | .granted t .timedUpgradeToExclusive => o.upgradeToWriter t
  | .granted t .timedSharedToExclusive => o.readerToWriter t
  | .granted t .timedSharedToUpgrade => o.readerToUpgrader t
  -- time-outs change nothing
  | .timedOut t .exclusive => .ok { o with pending := o.pending.erase t }
  | .timedOut _ _ => .ok o
  -- successful attempts
  | .tried t .shared true => o.addReader t
  | .tried t .upgrade true => o.setUpgrader t
  | .tried t .exclusive true => o.setWriter t
  | .tried t .upgradeToExclusive true => pre (o.upgrader == some t && !o.converting) (o.upgradeToWriter t)
  | .tried t .sharedToExclusive true => pre (o.readers.contains t) (o.readerToWriter t)
  | .tried t .sharedToUpgrade true => pre (o.readers.contains t) (o.readerToUpgrader t)
  -- failed attempts need a reason
  | .tried _ .shared false => must o.writerAround o
  | .tried _ .upgrade false => must (o.writerAround || o.upgrader.isSome) o
  | .tried _ .exclusive false => must (o.writer.isSome || o.upgrader.isSome || !o.readers.isEmpty) o
  | .tried t .upgradeToExclusive false =>
    pre (o.upgrader == some t && !o.converting) (must (o.writerAround || !o.readers.isEmpty) o)
  | .tried t .sharedToExclusive false =>
    pre (o.readers.contains t) (must (o.writerAround || o.upgrader.isSome || o.readers != [t]) o)
  | .tried t .sharedToUpgrade false => pre (o.readers.contains t) (must (o.writerAround || o.upgrader.isSome) o)
  -- releases: only by the owner
  | .released t .shared => pre (o.readers.contains t) (.ok { o with readers := o.readers.erase t })
  | .released t .upgrade => pre (o.upgrader == some t && !o.converting) (.ok { o with upgrader := none })
  | .released t .exclusive => pre (o.writer == some t) (.ok { o with writer := none })
  | .downgraded t .exclusiveToUpgrade => pre (o.writer == some t) (.ok { o with writer := none, upgrader := some t })
  | .downgraded t .exclusiveToShared => pre (o.writer == some t) (.ok { o with writer := none, readers := t :: o.readers })
  | .downgraded t .upgradeToShared =>
    pre (o.upgrader == some t && !o.converting) (.ok { o with upgrader := none, readers := t :: o.readers })

/-- What the specification guarantees at every moment. -/
def Own.Exclusive (o : Own) : Prop :=
  o.writer.isSome → o.readers = [] ∧ o.upgrader = none

/-- Thread `t` is blocked inside operation `op` and nothing has woken it. -/
def Asleep (s : State) (t : Nat) (op : Op) : Prop := ∃ tm, s.ts[t]? = some (.asleep op tm)

/-- The schedule contains a call of the given blocking or timed operation. -/
def uses (op : Op) (ls : List Label) : Prop := ∃ t tm, Label.call t op tm ∈ ls

/-- Who obtains exclusive or upgrade ownership by this event (that is, everything except shared ownership). -/
def Event.takes : Event → Option Nat
  | .granted _ .shared => none
  | .granted t _ => some t
  | .tried _ .shared _ => none
  | .tried t _ true => some t
  | _ => none

/-- `t` gives up upgrade ownership by this event without becoming writer. -/
def Event.dropsUpgrade (t : Nat) (e : Event) : Prop :=
  e = .released t .upgrade ∨ e = .downgraded t .upgradeToShared

/-- Thread `u` is awake and its very next step obtains exclusive ownership through `lock` or a timed form of it. -/
def AboutToWrite (s : State) (u : Nat) : Prop :=
  ∃ s', step s (.resume u none) = some (s', [.granted u .exclusive])

/-- Thread `u` is inside `lock` or a timed form of it. -/
def RequestsExclusive (s : State) (u : Nat) : Prop :=
  ∃ tm, s.ts[u]? = some (.asleep .exclusive tm) ∨ s.ts[u]? = some (.woken .exclusive tm) ∨
    s.ts[u]? = some (.expired .exclusive)

end Verif.SharedMutex
