import Verif.TickCount.Model
/-! # What a 64-bit clock promises -/

namespace Verif.TickCount

structure Spec where
  /-- the time that counts as 0, once a call has been made: a multiple of 2^32 -/
  off : Option Nat := none
  /-- when the call of a thread began -/
  beg : Nat → Option Nat := fun _ => none
  /-- the last time something happened -/
  clock : Nat := 0
  registered : Bool := false

def next (σ : Spec) : Event → Verdict Spec
  | .began t now =>
    if σ.beg t = none ∧ σ.clock ≤ now then
      .ok { σ with beg := upd σ.beg t (some now), clock := now, off := some (match σ.off with | some o => o | none => now / W * W) }
    else .illegal
  -- the value is the true time, at some moment of the call
  | .returned t v now =>
    match σ.off, σ.beg t with
    | some o, some b => if b ≤ o + v ∧ o + v ≤ now ∧ σ.clock ≤ now then .ok { σ with beg := upd σ.beg t none, clock := now } else .illegal
    | _, _ => .illegal
  -- once
  | .registered _ => if σ.registered then .illegal else .ok { σ with registered := true }

end Verif.TickCount
