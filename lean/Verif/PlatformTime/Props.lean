import Verif.PlatformTime.Spec
/-!
# C45: time conversions
-/

namespace Verif.PlatformTime

theorem ck_ok {x : Int} (h : InRange x) : ck x = some x := if_pos h
theorem ck_some {x y : Int} : ck x = some y ↔ InRange x ∧ x = y := by
  unfold ck; split <;> simp_all

theorem toLong64 {x : Int} (h : InRange x) : toLong 64 x = x := by
  unfold toLong InRange minI maxI at *
  rw [Int.bmod_def]; split <;> omega

theorem toLong32 {x : Int} (h : -2147483648 ≤ x) (h' : x ≤ 2147483647) : toLong 32 x = x := by
  unfold toLong
  rw [Int.bmod_def]; split <;> omega

theorem lt_or_ge' (a b : Int) : a < b ∨ b ≤ a := by omega

/-- C++ division, by cases on the sign. -/
theorem tdiv_cases (x k : Int) : (0 ≤ x ∧ x.tdiv k = x / k) ∨ (x < 0 ∧ x.tdiv k = -((-x) / k)) := by
  rcases lt_or_ge' x 0 with h | h
  · refine Or.inr ⟨h, ?_⟩
    have := Int.neg_tdiv (-x) k
    rw [Int.neg_neg] at this
    rw [this, Int.tdiv_eq_ediv_of_nonneg (by omega)]
  · exact Or.inl ⟨h, Int.tdiv_eq_ediv_of_nonneg h⟩

theorem parts {ns : Int} (h : InRange ns) :
    InRange (ns.tdiv 1000000000 * 1000000000) ∧ InRange (ns - ns.tdiv 1000000000 * 1000000000) ∧
    (-9223372036 ≤ ns.tdiv 1000000000 ∧ ns.tdiv 1000000000 ≤ 9223372036) ∧
    (0 ≤ ns → 0 ≤ ns - ns.tdiv 1000000000 * 1000000000) ∧ (ns ≤ 0 → ns - ns.tdiv 1000000000 * 1000000000 ≤ 0) ∧
    (-1000000000 < ns - ns.tdiv 1000000000 * 1000000000 ∧ ns - ns.tdiv 1000000000 * 1000000000 < 1000000000) := by
  unfold InRange minI maxI at *
  rcases tdiv_cases ns 1000000000 with ⟨h1, h2⟩ | ⟨h1, h2⟩ <;> rw [h2] <;> omega

/-- What `ns_to_timespec` computes for every value: quotient and remainder with the sign of the value. -/
theorem nsToTimespec_eq {ns : Int} (h : InRange ns) :
    nsToTimespec 64 ns = some ⟨ns.tdiv 1000000000, ns - ns.tdiv 1000000000 * 1000000000⟩ := by
  obtain ⟨h1, h2, h3, -, -, -⟩ := parts h
  have h3' : InRange (ns.tdiv 1000000000) := by unfold InRange minI maxI; omega
  simp [nsToTimespec, ck_ok h1, ck_ok h2, toLong64 h2, toLong64 h3']

theorem timespecToNs_some {ts : Timespec} {x : Int} (h : timespecToNs ts = some x) : x = ts.ns ∧ InRange x := by
  simp only [timespecToNs, Option.bind_eq_bind, Option.bind_eq_some_iff, ck_some] at h
  obtain ⟨p, ⟨-, rfl⟩, hr, rfl⟩ := h
  exact ⟨rfl, hr⟩

theorem convert {ns : Int} (h : InRange ns) : ∃ ts, nsToTimespec 64 ns = some ts ∧ timespecToNs ts = some ns ∧ ts.ns = ns := by
  refine ⟨_, nsToTimespec_eq h, ?_, ?_⟩
  · obtain ⟨h1, -⟩ := parts h
    have : ns.tdiv 1000000000 * 1000000000 + (ns - ns.tdiv 1000000000 * 1000000000) = ns := by omega
    simp [timespecToNs, ck_ok h1, this, ck_ok h]
  · simp only [Timespec.ns]; omega

/-- C45, round trip: for every 64-bit count of nanoseconds, negative or not, conversion to a `timespec` and back is defined and gives the same count. -/
theorem roundtrip {ns : Int} (h : InRange ns) : (nsToTimespec 64 ns).bind timespecToNs = some ns := by
  obtain ⟨ts, h1, h2, -⟩ := convert h
  rw [h1]; exact h2

example : InRange (-1) ∧ nsToTimespec 64 (-1) = some ⟨0, -1⟩ ∧ nsToTimespec 64 1999999999 = some ⟨1, 999999999⟩ := by decide

/-- The other way round, for a normalised `timespec` that is not negative. -/
theorem roundtrip_timespec {ts : Timespec} {ns : Int} (hn : ts.Normalised) (h0 : 0 ≤ ts.sec) (h : timespecToNs ts = some ns) :
    nsToTimespec 64 ns = some ts := by
  obtain ⟨h1, h2⟩ := timespecToNs_some h
  rw [nsToTimespec_eq h2]
  obtain ⟨s, n⟩ := ts
  obtain ⟨h3, h4⟩ := hn
  simp only [Timespec.ns] at *
  subst h1
  rcases tdiv_cases (s * 1000000000 + n) 1000000000 with ⟨h5, h6⟩ | ⟨h5, h6⟩
  · have : (s * 1000000000 + n) / 1000000000 = s := by omega
    rw [h6, this]
    simp
    omega
  · omega

example : (⟨3, 5⟩ : Timespec).Normalised ∧ timespecToNs ⟨3, 5⟩ = some 3000000005 := by decide

/-- With a 32-bit `long` the round trip is exact when the seconds fit in 32 bits. -/
theorem roundtrip32_partial {ns : Int} (h : -2147483648000000000 ≤ ns) (h' : ns ≤ 2147483647999999999) :
    (nsToTimespec 32 ns).bind timespecToNs = some ns := by
  have hr : InRange ns := by unfold InRange minI maxI; omega
  obtain ⟨h1, h2, h3, h4, h5, h6⟩ := parts hr
  have hs : toLong 32 (ns.tdiv 1000000000) = ns.tdiv 1000000000 := by
    apply toLong32 <;> rcases tdiv_cases ns 1000000000 with ⟨_, e⟩ | ⟨_, e⟩ <;> rw [e] <;> omega
  have hn : toLong 32 (ns - ns.tdiv 1000000000 * 1000000000) = ns - ns.tdiv 1000000000 * 1000000000 := by
    apply toLong32 <;> omega
  have : ns.tdiv 1000000000 * 1000000000 + (ns - ns.tdiv 1000000000 * 1000000000) = ns := by omega
  simp [nsToTimespec, ck_ok h1, ck_ok h2, hs, hn, timespecToNs, this, ck_ok hr]

/-- Without that, it is not: in 32 bits the seconds wrap around. -/
theorem roundtrip32_fails : ∃ ns, InRange ns ∧ (nsToTimespec 32 ns).bind timespecToNs ≠ some ns :=
  ⟨2147483648000000000, by decide, by decide⟩

/-! ## Normalisation -/

/-- C45, normalised: exactly the values that are not negative, and the negative whole seconds, give a `timespec` the operating system accepts. -/
theorem normalised_iff {ns : Int} (h : InRange ns) :
    (∃ ts, nsToTimespec 64 ns = some ts ∧ ts.Normalised) ↔ (0 ≤ ns ∨ ns % 1000000000 = 0) := by
  rw [nsToTimespec_eq h]
  obtain ⟨-, -, -, h4, h5, h6⟩ := parts h
  constructor
  · rintro ⟨ts, ht, hn⟩
    cases ht
    obtain ⟨h7, -⟩ := hn
    dsimp only at h7
    rcases tdiv_cases ns 1000000000 with ⟨h1, h2⟩ | ⟨h1, h2⟩
    · exact Or.inl h1
    · rw [h2] at h7; right; omega
  · intro hh
    refine ⟨_, rfl, ?_, h6.2⟩
    dsimp only
    rcases tdiv_cases ns 1000000000 with ⟨h1, h2⟩ | ⟨h1, h2⟩ <;> rw [h2] <;> omega

/-- C45, normalised, for the times that are not negative. -/
theorem normalised_partial {ns : Int} (h : InRange ns) (h0 : 0 ≤ ns) : ∃ ts, nsToTimespec 64 ns = some ts ∧ ts.Normalised ∧ ts.ns = ns := by
  obtain ⟨ts, h1, h2⟩ := (normalised_iff h).2 (Or.inl h0)
  obtain ⟨ts', h3, -, h4⟩ := convert h
  rw [h1] at h3; cases h3
  exact ⟨ts, h1, h2, h4⟩

example : ∃ ts, nsToTimespec 64 1500000000 = some ts ∧ ts.Normalised := ⟨_, rfl, by decide⟩

/-- A time half a second before the epoch is not normalised: `tv_nsec` is negative. -/
theorem negative_not_normalised : ∃ ts, nsToTimespec 64 (-500000000) = some ts ∧ ¬ ts.Normalised := ⟨_, rfl, by decide⟩

/-! ## Conversions from other units -/

/-- C45: a Boost.DateTime duration with a resolution that divides a nanosecond count is converted exactly. -/
theorem ofPosixTime_exact {tps t : Int} (hp : 0 < tps) (hd : tps ∣ 1000000000) :
    (ofPosixTime 64 tps t).ns * tps = t * 1000000000 := by
  obtain ⟨k, hk⟩ := hd
  have hk0 : 0 < k := by
    rcases lt_or_ge' 0 k with h | h
    · exact h
    · have := Int.mul_nonpos_of_nonneg_of_nonpos (Int.le_of_lt hp) h; omega
  have hq : (1000000000 : Int).tdiv tps = k := by rw [hk]; exact Int.mul_tdiv_cancel_left k (by omega)
  have hm : t.tmod tps = t - tps * t.tdiv tps := by have := Int.mul_tdiv_add_tmod t tps; omega
  have hb : -tps < t.tmod tps ∧ t.tmod tps < tps := by
    have h1 := Int.tmod_lt_of_pos t hp
    have h2 := Int.tmod_lt_of_pos (-t) hp
    rw [Int.neg_tmod] at h2
    omega
  have hr : InRange (t.tmod tps * k) := by
    have h1 : t.tmod tps * k ≤ tps * k := Int.mul_le_mul_of_nonneg_right (by omega) (by omega)
    have h2 : -tps * k ≤ t.tmod tps * k := Int.mul_le_mul_of_nonneg_right (by omega) (by omega)
    rw [← hk] at h1
    rw [Int.neg_mul, ← hk] at h2
    unfold InRange minI maxI
    omega
  simp only [ofPosixTime, hq, toLong64 hr, Timespec.ns]
  rw [hk, hm, Int.add_mul, Int.sub_mul, Int.sub_mul]
  have e1 : t.tdiv tps * (tps * k) * tps = tps * t.tdiv tps * k * tps := by
    rw [← Int.mul_assoc, Int.mul_comm (t.tdiv tps) tps]
  have e2 : t * k * tps = t * (tps * k) := by rw [Int.mul_assoc, Int.mul_comm k tps]
  omega

example : (0 : Int) < 1000000 ∧ (1000000 : Int) ∣ 1000000000 ∧ ofPosixTime 64 1000000 (-1500001) = ⟨-1, -500001000⟩ := ⟨by decide, by decide, by decide⟩

/-- C45: a Boost.Chrono duration is rounded up to the next nanosecond and never down. -/
theorem ceilNs_least {num den d : Int} (hden : 0 < den) : LeastAbove (d * num * 1000000000) den (ceilNs num den d) := by
  simp only [ceilNs, LeastAbove]
  generalize d * num * 1000000000 = x
  have hm : x.tmod den = x - den * x.tdiv den := by have := Int.mul_tdiv_add_tmod x den; omega
  have hb : -den < x.tmod den ∧ x.tmod den < den := by
    have h1 := Int.tmod_lt_of_pos x hden
    have h2 := Int.tmod_lt_of_pos (-x) hden
    rw [Int.neg_tmod] at h2
    omega
  have hc := Int.mul_comm den (x.tdiv den)
  split
  · rename_i hlt
    refine ⟨by rw [Int.add_mul]; omega, fun j hj => ?_⟩
    rcases lt_or_ge' (x.tdiv den) j with h | h
    · omega
    · have := Int.mul_le_mul_of_nonneg_right h (Int.le_of_lt hden); omega
  · rename_i hge
    refine ⟨by omega, fun j hj => ?_⟩
    rcases lt_or_ge' j (x.tdiv den) with h | h
    · have : (j + 1) * den ≤ x.tdiv den * den := Int.mul_le_mul_of_nonneg_right (by omega) (Int.le_of_lt hden)
      rw [Int.add_mul] at this
      omega
    · omega

/-- A duration of `d` periods of `num/den` seconds, if its nanoseconds fit, becomes the least whole number of nanoseconds that is not shorter. -/
theorem ofChrono_least {num den d : Int} (hden : 0 < den) (h : InRange (ceilNs num den d)) :
    ∃ ts, ofChrono 64 num den d = some ts ∧ LeastAbove (d * num * 1000000000) den ts.ns := by
  obtain ⟨ts, h1, -, h2⟩ := convert h
  refine ⟨ts, by simp [ofChrono, ck_ok h, h1], ?_⟩
  rw [h2]; exact ceilNs_least hden

example : (0 : Int) < 3 ∧ InRange (ceilNs 1 3 1) ∧ ofChrono 64 1 3 1 = some ⟨0, 333333334⟩ := by decide

/-- C45: the conversion to milliseconds rounds away from zero: a wait is never shortened. Proved for all values whose rounding does not overflow. -/
theorem getMs_partial {ns : Int} {ts : Timespec} (hr : InRange ns) (h : nsToTimespec 64 ns = some ts) :
    (0 ≤ ns → ns ≤ maxI - 999999 → ∃ ms, getMs ts = some ms ∧ LeastAbove ns 1000000 ms) ∧
    (ns ≤ 0 → minI + 999999 ≤ ns → ∃ ms, getMs ts = some ms ∧ LeastAbove (-ns) 1000000 (-ms)) := by
  obtain ⟨ts', h1, h2, -⟩ := convert hr
  rw [h] at h1; cases h1
  constructor
  · intro h0 hm
    have hc : ck (ns + 999999) = some (ns + 999999) := ck_ok (by unfold InRange minI maxI at *; omega)
    refine ⟨(ns + 999999).tdiv 1000000, by simp [getMs, h2, h0, hc], ?_⟩
    rw [Int.tdiv_eq_ediv_of_nonneg (by omega)]
    exact ⟨by omega, fun j hj => by omega⟩
  · intro h0 hm
    rcases lt_or_ge' ns 0 with hlt | hge
    · have hc : ck (ns - 999999) = some (ns - 999999) := ck_ok (by unfold InRange minI maxI at *; omega)
      refine ⟨(ns - 999999).tdiv 1000000, by simp [getMs, h2, show ¬ (0 ≤ ns) by omega, hc], ?_⟩
      rcases tdiv_cases (ns - 999999) 1000000 with ⟨h3, h4⟩ | ⟨h3, h4⟩
      · omega
      · rw [h4]; exact ⟨by omega, fun j hj => by omega⟩
    · have : ns = 0 := by omega
      subst this
      exact ⟨0, by simp [getMs, h2, ck, InRange, minI, maxI], ⟨by omega, fun j hj => by omega⟩⟩

example : InRange 1000001 ∧ nsToTimespec 64 1000001 = some ⟨0, 1000001⟩ ∧ getMs ⟨0, 1000001⟩ = some 2 ∧ getMs ⟨0, -1⟩ = some (-1) := by decide

/-- For the largest values the rounding overflows, which is undefined. -/
theorem getMs_overflow : ∃ ns ts, InRange ns ∧ nsToTimespec 64 ns = some ts ∧ getMs ts = none := ⟨maxI, _, by decide, rfl, by decide⟩

/-- The poll interval and every other number of milliseconds up to 292 years is converted exactly. -/
theorem platformMilliseconds_exact {ms : Int} (h : -9223372036854 ≤ ms) (h' : ms ≤ 9223372036854) :
    ∃ ts, platformMilliseconds 64 ms = some ts ∧ ts.ns = ms * 1000000 := by
  obtain ⟨ts, h1, -, h2⟩ := convert (ns := ms * 1000000) (by unfold InRange minI maxI; omega)
  refine ⟨ts, ?_, h2⟩
  simp only [platformMilliseconds]
  rw [if_pos (by constructor <;> simp <;> omega)]
  exact h1

example : platformMilliseconds 64 100 = some ⟨0, 100000000⟩ := by decide

/-- Beyond that the product overflows, which is undefined. -/
theorem platformMilliseconds_overflow {ms : Int} : platformMilliseconds 64 ms = none ↔ ¬ InRange (ms * 1000000) := by
  constructor
  · intro h hr
    obtain ⟨ts, h1, -, -⟩ := convert hr
    unfold InRange minI maxI at hr
    simp only [platformMilliseconds] at h
    rw [if_pos (by constructor <;> simp <;> omega), h1] at h
    cases h
  · intro h
    unfold InRange minI maxI at h
    simp only [platformMilliseconds]
    rw [if_neg (by simp; omega)]

/-- With a 32-bit `long` (Windows, and 32-bit systems) it does so from 2148 ms on; the poll interval is far below. -/
theorem platformMilliseconds_32 {ms : Int} : platformMilliseconds 32 ms = none ↔ ms < -2147 ∨ 2147 < ms := by
  simp only [platformMilliseconds]
  constructor
  · intro h
    split at h
    · next h' =>
      simp at h'
      obtain ⟨h1, h2⟩ := parts (ns := ms * 1000000) (by unfold InRange minI maxI; omega)
      simp [nsToTimespec, ck_ok h1, ck_ok h2.1] at h
    · next h' => simp at h'; omega
  · intro h
    rw [if_neg (by simp; omega)]

example : platformMilliseconds 32 2147 = some ⟨2, 147000000⟩ ∧ platformMilliseconds 32 2148 = none := by decide

/-! ## Arithmetic and order -/

/-- C45, addition: if both operands and the sum are representable, the sum is the sum of the instants. -/
theorem plus_exact {a b : Timespec} {x y : Int} (ha : timespecToNs a = some x) (hb : timespecToNs b = some y) (h : InRange (x + y)) :
    ∃ c, plus 64 a b = some c ∧ c.ns = a.ns + b.ns ∧ timespecToNs c = some (x + y) := by
  obtain ⟨ts, h1, h2, h3⟩ := convert h
  refine ⟨ts, by simp [plus, ha, hb, ck_ok h, h1], ?_, h2⟩
  rw [h3, (timespecToNs_some ha).1, (timespecToNs_some hb).1]

theorem minus_exact {a b : Timespec} {x y : Int} (ha : timespecToNs a = some x) (hb : timespecToNs b = some y) (h : InRange (x - y)) :
    ∃ c, minus 64 a b = some c ∧ c.ns = a.ns - b.ns ∧ timespecToNs c = some (x - y) := by
  obtain ⟨ts, h1, h2, h3⟩ := convert h
  refine ⟨ts, by simp [minus, ha, hb, ck_ok h, h1], ?_, h2⟩
  rw [h3, (timespecToNs_some ha).1, (timespecToNs_some hb).1]

example : timespecToNs ⟨1, 600000000⟩ = some 1600000000 ∧ InRange (1600000000 + 1600000000) ∧
    plus 64 ⟨1, 600000000⟩ ⟨1, 600000000⟩ = some ⟨3, 200000000⟩ ∧ minus 64 ⟨1, 0⟩ ⟨2, 1⟩ = some ⟨-1, -1⟩ := by decide

/-- C45: addition is commutative, defined or not. -/
theorem plus_comm (a b : Timespec) : plus 64 a b = plus 64 b a := by
  simp only [plus, Option.bind_eq_bind]
  cases timespecToNs a <;> cases timespecToNs b <;> simp [Int.add_comm]

/-- C45: (t + d) - t = d, up to the representation of `d`. -/
theorem plus_minus {t d s : Timespec} {x y : Int} (ht : timespecToNs t = some x) (hd : timespecToNs d = some y) (hs : plus 64 t d = some s) :
    ∃ d', minus 64 s t = some d' ∧ timespecToNs d' = some y ∧ eq d' d = some true := by
  have hxy : InRange (x + y) := by
    simp only [plus, ht, hd, Option.bind_eq_bind, Option.bind_some, Option.bind_eq_some_iff, ck_some] at hs
    obtain ⟨z, ⟨h, -⟩, -⟩ := hs
    exact h
  obtain ⟨c, h1, -, h2⟩ := plus_exact ht hd hxy
  rw [hs] at h1; cases h1
  have hy : x + y - x = y := by omega
  obtain ⟨d', h3, -, h4⟩ := minus_exact h2 ht (by rw [hy]; exact (timespecToNs_some hd).2)
  rw [hy] at h4
  exact ⟨d', h3, h4, by simp [eq, h4, hd]⟩

example : ∃ s d', plus 64 ⟨5, 0⟩ ⟨0, 7⟩ = some s ∧ minus 64 s ⟨5, 0⟩ = some d' ∧ d' = ⟨0, 7⟩ := ⟨_, _, rfl, rfl, rfl⟩

/-- C45: the comparisons are the order of the instants, and adding the same duration preserves it. -/
theorem lt_exact {a b : Timespec} {x y : Int} (ha : timespecToNs a = some x) (hb : timespecToNs b = some y) : lt a b = some (decide (a.ns < b.ns)) := by
  simp [lt, ha, hb, (timespecToNs_some ha).1, (timespecToNs_some hb).1]

theorem plus_mono {a b d s s' : Timespec} {x y z : Int} (ha : timespecToNs a = some x) (hb : timespecToNs b = some y) (hd : timespecToNs d = some z)
    (hs : plus 64 a d = some s) (hs' : plus 64 b d = some s') : lt s s' = lt a b := by
  have key : ∀ {u v w : Timespec} {p q : Int}, timespecToNs u = some p → timespecToNs v = some q → plus 64 u v = some w → timespecToNs w = some (p + q) := by
    intro u v w p q hu hv hw
    have hr : InRange (p + q) := by
      simp only [plus, hu, hv, Option.bind_eq_bind, Option.bind_some, Option.bind_eq_some_iff, ck_some] at hw
      obtain ⟨_, ⟨h, -⟩, -⟩ := hw
      exact h
    obtain ⟨c, h1, -, h2⟩ := plus_exact hu hv hr
    rw [hw] at h1; cases h1; exact h2
  have h1 := key ha hd hs
  have h2 := key hb hd hs'
  simp [lt, ha, hb, h1, h2]

example : ∃ s s', plus 64 ⟨1, 0⟩ ⟨1, 1⟩ = some s ∧ plus 64 ⟨2, 0⟩ ⟨1, 1⟩ = some s' ∧ lt s s' = some true := ⟨_, _, rfl, rfl, by decide⟩

/-- C45: the converted values are in the order of the counts. -/
theorem convert_mono {x y : Int} {a b : Timespec} (hx : InRange x) (hy : InRange y) (ha : nsToTimespec 64 x = some a) (hb : nsToTimespec 64 y = some b) :
    lt a b = some (decide (x < y)) := by
  obtain ⟨a', h1, h2, -⟩ := convert hx
  obtain ⟨b', h3, h4, -⟩ := convert hy
  rw [ha] at h1; cases h1
  rw [hb] at h3; cases h3
  simp [lt, h2, h4]

example : InRange (-5) ∧ InRange 5 ∧ nsToTimespec 64 (-5) = some ⟨0, -5⟩ ∧ nsToTimespec 64 5 = some ⟨0, 5⟩ := by decide

/-- The largest time point of the POSIX representation is beyond every count of nanoseconds: comparing it with anything, or subtracting from it, overflows. -/
theorem getMax_overflow (ts : Timespec) : timespecToNs getMax = none ∧ eq getMax ts = none ∧ minus 64 getMax ts = none := by
  have h : timespecToNs getMax = none := by decide
  simp [h, eq, minus]

end Verif.PlatformTime
