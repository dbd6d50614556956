import Verif.Xtime.Model
/-!
# What `xtime` promises
-/

namespace Verif.Xtime

/-- The instant an `xtime` stands for, in nanoseconds since 1970. -/
def Xtime.ns (x : Xtime) : Int := x.sec * 1000000000 + x.nsec

/-- What the comment at `xtime_nsec_t` says: 0 ≤ nsec < 10⁹. -/
def Xtime.Normalised (x : Xtime) : Prop := 0 ≤ x.nsec ∧ x.nsec < 1000000000

instance (x : Xtime) : Decidable x.Normalised := inferInstanceAs (Decidable (_ ∧ _))

/-- The instant a tick count stands for, in nanoseconds since 1970. -/
def ticksNs (c : Cfg) (t : Int) : Int := if c.nano then t else t * 1000

/-- The instant fits into a tick count, its second into a `long`: years 1678 to 2261 with 64 bits, 1902 to 2037 with a 32-bit `long`. -/
def Xtime.Fits (c : Cfg) (x : Xtime) : Prop := -9223372036 ≤ x.sec ∧ x.sec ≤ 9223372035 ∧ - 2 ^ (c.longBits - 1) ≤ x.sec ∧ x.sec < 2 ^ (c.longBits - 1)

instance (c : Cfg) (x : Xtime) : Decidable (x.Fits c) := inferInstanceAs (Decidable (_ ∧ _))

/-- The supported platforms. -/
def Cfg.Usual (c : Cfg) : Prop := (c.longBits = 32 ∨ c.longBits = 64) ∧ (c.fastBits = 32 ∨ c.fastBits = 64)

instance (c : Cfg) : Decidable c.Usual := inferInstanceAs (Decidable (_ ∧ _))

end Verif.Xtime
