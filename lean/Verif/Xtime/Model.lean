import Verif.PlatformTime.Model
/-!
# Model of `xtime` and of the distance to a time in milliseconds

Models `/repo/include/boost/thread/xtime.hpp` 34-88 and `/repo/include/boost/thread/thread_time.hpp` 17-47.

A `system_time` (Boost.DateTime's `ptime`) that is not one of its special values is a count of ticks since 1970; there are `tps` ticks in a second, 10⁶ or,
with `BOOST_DATE_TIME_HAS_NANOSECONDS`, 10⁹. Its positive infinity is `none` at `Time`. Counts of ticks are 64-bit signed integers; arithmetic that leaves
their range is the outcome `none`. The widths of `long` and of `int_fast32_t` are parameters. Conversion to a narrower type keeps the low bits.

Not modelled: the limits of the calendar (years 1400 to 9999), `not_a_date_time`, negative infinity, and `xtime_get`'s reading of the clock.
-/

namespace Verif.Xtime

open PlatformTime (ck toLong)

/-- The platform: the widths of `long` and of `int_fast32_t`, and whether Boost.DateTime counts nanoseconds. -/
structure Cfg where
  longBits : Nat
  fastBits : Nat
  nano : Bool
deriving DecidableEq, Repr

/-- `ticks_per_second()`. -/
def Cfg.tps (c : Cfg) : Int := if c.nano then 1000000000 else 1000000

/-- `struct xtime` (34-45). -/
structure Xtime where
  sec : Int
  nsec : Int
deriving DecidableEq, Repr

/-- The result of an operation on `int_fast32_t`: undefined if it does not fit. -/
def ckFast (c : Cfg) (x : Int) : Option Int := if - 2 ^ (c.fastBits - 1) ≤ x ∧ x < 2 ^ (c.fastBits - 1) then some x else none

/-- `xtime::operator system_time` (47-56). `seconds(static_cast<long>(sec))` is `sec` times `tps` ticks. -/
def toSystemTime (c : Cfg) (x : Xtime) : Option Int := do
  let a ← ck (toLong c.longBits x.sec * c.tps)
  let f ← if c.nano then pure x.nsec else do
    let n ← ckFast c (x.nsec + 500)
    pure (n.tdiv 1000)
  ck (a + f)

/-- `get_xtime` (60-68). `total_seconds` and `fractional_seconds` are Boost.DateTime's: quotient and remainder with the sign of the tick count. -/
def getXtime (c : Cfg) (t : Int) : Xtime :=
  ⟨t.tdiv c.tps, (t.tmod c.tps * (1000000000 : Int).tdiv c.tps).bmod (2 ^ c.fastBits)⟩

/-- `xtime_get` (70-78) when the system clock shows `now`: the value stored, if any, and the value returned. -/
def xtimeGet (c : Cfg) (now : Int) (clockType : Int) : Option Xtime × Int :=
  if clockType = 1 then (some (getXtime c now), clockType) else (none, 0)

/-- `xtime_cmp` (81-87). The difference is converted to `int`, of 32 bits. -/
def xtimeCmp (c : Cfg) (x y : Xtime) : Option Int :=
  if x.sec = y.sec then (ckFast c (x.nsec - y.nsec)).map (fun d => d.bmod (2 ^ 32))
  else some (if x.sec > y.sec then 1 else -1)

/-- `get_milliseconds_until` (35-47 of thread_time.hpp): `none` is positive infinity; `now` is what `get_system_time` returns. No function of the library
calls it any more. -/
def millisecondsUntil (c : Cfg) (now : Int) : Option Int → Nat
  | none => 2 ^ c.longBits - 1
  | some target =>
    if target ≤ now then 0
    else (((target - now).tdiv (c.tps.tdiv 1000) + 1) % 2 ^ c.longBits).toNat

end Verif.Xtime
