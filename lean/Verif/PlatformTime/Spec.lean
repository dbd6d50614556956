import Verif.PlatformTime.Model
/-!
# What the time conversions promise
-/

namespace Verif.PlatformTime

/-- The instant or span a `timespec` stands for, in nanoseconds. -/
def Timespec.ns (ts : Timespec) : Int := ts.sec * 1000000000 + ts.nsec

/-- What the operating system accepts: 0 ≤ tv_nsec < 10⁹. -/
def Timespec.Normalised (ts : Timespec) : Prop := 0 ≤ ts.nsec ∧ ts.nsec < 1000000000

instance (ts : Timespec) : Decidable ts.Normalised := inferInstanceAs (Decidable (_ ∧ _))

/-- `k` is the least whole number with `x ≤ k * unit`. -/
def LeastAbove (x unit k : Int) : Prop := x ≤ k * unit ∧ ∀ j : Int, x ≤ j * unit → k ≤ j

end Verif.PlatformTime
