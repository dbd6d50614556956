import Verif.LockObj.Model
/-! # What lock objects have to account for -/

namespace Verif.LockObj

/-- The acquisitions in the care of lock objects: one entry per acquisition. -/
abbrev Ledger := List (Nat × Kind)

/-- How the mutex operations and the transfers from and to the client change the ledger. Releasing, converting or handing out an acquisition that is
not in the ledger - releasing twice - is illegal. -/
def specNext (l : Ledger) : Event → Verdict Ledger
  | .acquired m k => .ok ((m, k) :: l)
  | .adopted m k => .ok ((m, k) :: l)
  | .released m k => if (m, k) ∈ l then .ok (l.erase (m, k)) else .illegal
  | .handedOut m k => if (m, k) ∈ l then .ok (l.erase (m, k)) else .illegal
  | .converted m k k' => if (m, k) ∈ l then .ok ((m, k') :: l.erase (m, k)) else .illegal
  | .nullDeref => .illegal
  | .dangling => .undefined
  | _ => .ok l

/-- What a client sees of a lock object: its class, `mutex()` and `owns_lock()`. -/
def see (s : State) (o : Nat) : Option (Kind × Option Nat × Bool) := (getO s o).map fun a => (a.kind, a.m, a.owned)

/-- What a client sees of an `upgrade_to_unique_lock`: `mutex()` and `owns_lock()`. -/
def seeUp (s : State) (u : Nat) : Option (Option Nat × Bool) := (getU s u).map fun x => (x.ex.m, x.ex.owned)

/-- This object reports that it owns mutex `x.1` in mode `x.2`. -/
def claims (x : Nat × Kind) : Option Obj → Bool
  | some a => a.owned && a.m == some x.1 && a.kind == x.2
  | none => false

def claimsUp (x : Nat × Kind) : Option Up → Bool
  | some u => claims x (some u.ex)
  | none => false

/-- Number of lock objects that report to own mutex `x.1` in mode `x.2`. -/
def claimants (s : State) (x : Nat × Kind) : Nat := s.objs.countP (claims x) + s.ups.countP (claimsUp x)

end Verif.LockObj
