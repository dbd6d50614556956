/-!
# Model of the time conversions

Models `/repo/include/boost/thread/detail/platform_time.hpp` (POSIX representation: a `timespec`).

`time_max_t` is a 64-bit signed integer (`boost::int_least64_t` or wider; taken as exactly 64 bits). The width of `long`, to which both members of a `timespec`
are cast, is a parameter (`longBits`, 32 or 64 on the supported platforms). Arithmetic on `time_max_t` that leaves its range is undefined behaviour in C++ and
the outcome `none` here; conversion to a narrower `long` keeps the low bits, as every supported compiler does.

Not modelled: the Windows representation (a plain `time_max_t`, for which the conversions are the identity), reading the clocks, and the arithmetic of
Boost.DateTime and Boost.Chrono beyond what is stated at `ofPosixTime` and `ceilNs`.
-/

namespace Verif.PlatformTime

def minI : Int := -9223372036854775808
def maxI : Int := 9223372036854775807

/-- A value of type `time_max_t`. -/
def InRange (x : Int) : Prop := minI ≤ x ∧ x ≤ maxI

instance (x : Int) : Decidable (InRange x) := inferInstanceAs (Decidable (_ ∧ _))

/-- The result of an operation on `time_max_t`: undefined if it does not fit. -/
def ck (x : Int) : Option Int := if InRange x then some x else none

/-- `static_cast<long>`. -/
def toLong (longBits : Nat) (x : Int) : Int := x.bmod (2 ^ longBits)

/-- `struct timespec`. -/
structure Timespec where
  sec : Int
  nsec : Int
deriving DecidableEq, Repr

/-- `ns_to_timespec` (117-124). C++ division truncates towards zero. -/
def nsToTimespec (longBits : Nat) (ns : Int) : Option Timespec := do
  let s := ns.tdiv 1000000000
  let p ← ck (s * 1000000000)
  let r ← ck (ns - p)
  pure ⟨toLong longBits s, toLong longBits r⟩

/-- `timespec_to_ns` (125-128), also `platform_duration::getNs` (138). -/
def timespecToNs (ts : Timespec) : Option Int := do
  let p ← ck (ts.sec * 1000000000)
  ck (p + ts.nsec)

/-- `platform_duration(time_duration)` (145-154): `t` ticks of `1/tps` seconds. `total_seconds` and `fractional_seconds` are Boost.DateTime's: quotient and
remainder of the tick count, with the sign of the tick count. -/
def ofPosixTime (longBits : Nat) (tps t : Int) : Timespec :=
  ⟨t.tdiv tps, toLong longBits (t.tmod tps * (1000000000 : Int).tdiv tps)⟩

/-- `chrono::ceil<nanoseconds>(d)` for a duration of `d` periods of `num/den` seconds: Boost.Chrono's `ceil`, which truncates and adds one if the result is
smaller than `d`. Computed without overflow. -/
def ceilNs (num den d : Int) : Int :=
  let r := (d * num * 1000000000).tdiv den
  if r * den < d * num * 1000000000 then r + 1 else r

/-- `platform_duration(chrono::duration)` (157-166). -/
def ofChrono (longBits : Nat) (num den d : Int) : Option Timespec :=
  (ck (ceilNs num den d)).bind (nsToTimespec longBits)

/-- `platform_duration::getMs` (169-183). -/
def getMs (ts : Timespec) : Option Int := do
  let ns ← timespecToNs ts
  if ns ≥ 0 then
    let a ← ck (ns + 999999)
    pure (a.tdiv 1000000)
  else
    let a ← ck (ns - 999999)
    pure (a.tdiv 1000000)

/-- `platform_milliseconds` (223-226): the product is computed in `long`; for a 32-bit `long` the range check is that of `long`. -/
def platformMilliseconds (longBits : Nat) (ms : Int) : Option Timespec :=
  if - 2 ^ (longBits - 1) ≤ ms * 1000000 ∧ ms * 1000000 < 2 ^ (longBits - 1) then nsToTimespec longBits (ms * 1000000) else none

/-- `operator+` of a time point and a duration, in either order (278-285, 382-389). -/
def plus (longBits : Nat) (a b : Timespec) : Option Timespec := do
  let x ← timespecToNs a
  let y ← timespecToNs b
  let z ← ck (x + y)
  nsToTimespec longBits z

/-- `operator-` of two time points (286-289, 390-393). -/
def minus (longBits : Nat) (a b : Timespec) : Option Timespec := do
  let x ← timespecToNs a
  let y ← timespecToNs b
  let z ← ck (x - y)
  nsToTimespec longBits z

/-- `operator<`, and with it the other comparisons (198-221, 253-276, 357-380). -/
def lt (a b : Timespec) : Option Bool := do
  let x ← timespecToNs a
  let y ← timespecToNs b
  pure (decide (x < y))

/-- `operator==`. -/
def eq (a b : Timespec) : Option Bool := do
  let x ← timespecToNs a
  let y ← timespecToNs b
  pure (decide (x = y))

/-- `mono_platform_timepoint::getMax` (340-351), with a 64-bit `time_t`. -/
def getMax : Timespec := ⟨maxI, 999999999⟩

end Verif.PlatformTime
