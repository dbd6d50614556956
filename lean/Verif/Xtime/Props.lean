import Verif.Xtime.Spec
import Verif.PlatformTime.Props
/-!
# C78: `xtime`
-/

namespace Verif.Xtime

open PlatformTime (ck toLong InRange ck_ok ck_some toLong64 toLong32 tdiv_cases minI maxI)

theorem toLong_fits {c : Cfg} {s : Int} (hu : c.Usual) (h1 : - 2 ^ (c.longBits - 1) ≤ s) (h2 : s < 2 ^ (c.longBits - 1)) : toLong c.longBits s = s := by
  rcases hu.1 with h | h <;> rw [h] at h1 h2 ⊢
  · exact toLong32 (by omega) (by omega)
  · exact toLong64 (by unfold InRange minI maxI; omega)

theorem ckFast_ok {c : Cfg} (hu : c.Usual) {x : Int} (h1 : -2147483648 ≤ x) (h2 : x < 2147483648) : ckFast c x = some x := by
  unfold ckFast
  rcases hu.2 with h | h <;> rw [h] <;> exact if_pos (by omega)

theorem ckFast_some {c : Cfg} {x y : Int} (h : ckFast c x = some y) : y = x := by
  unfold ckFast at h
  split at h <;> cases h
  rfl

/-- What the conversion computes. -/
theorem toSystemTime_eq {c : Cfg} {x : Xtime} (hu : c.Usual) (hn : x.Normalised) (hf : x.Fits c) :
    toSystemTime c x = some (if c.nano then x.sec * 1000000000 + x.nsec else x.sec * 1000000 + (x.nsec + 500) / 1000) := by
  obtain ⟨h1, h2, h3, h4⟩ := hf
  obtain ⟨n1, n2⟩ := hn
  unfold toSystemTime
  rw [toLong_fits hu h3 h4]
  cases hc : c.nano
  · have a1 : InRange (x.sec * 1000000) := by unfold InRange minI maxI; omega
    have a2 : InRange (x.sec * 1000000 + (x.nsec + 500) / 1000) := by unfold InRange minI maxI; omega
    have a3 : (x.nsec + 500).tdiv 1000 = (x.nsec + 500) / 1000 := Int.tdiv_eq_ediv_of_nonneg (by omega)
    simp [Cfg.tps, hc, ck_ok a1, ckFast_ok hu (show -2147483648 ≤ x.nsec + 500 by omega) (by omega), a3, ck_ok a2]
  · have a1 : InRange (x.sec * 1000000000) := by unfold InRange minI maxI; omega
    have a2 : InRange (x.sec * 1000000000 + x.nsec) := by unfold InRange minI maxI; omega
    simp [Cfg.tps, hc, ck_ok a1, ck_ok a2]

/-- C78, conversion to a `system_time`: every normalised `xtime` whose second fits converts, to the nearest tick: exactly if ticks are nanoseconds, and
otherwise at most half a microsecond away. -/
theorem converts_to_nearest {c : Cfg} {x : Xtime} (hu : c.Usual) (hn : x.Normalised) (hf : x.Fits c) :
    ∃ t, toSystemTime c x = some t ∧ (c.nano = true → ticksNs c t = x.ns) ∧ -500 < ticksNs c t - x.ns ∧ ticksNs c t - x.ns ≤ 500 := by
  refine ⟨_, toSystemTime_eq hu hn hf, ?_, ?_⟩
  · intro h; simp [ticksNs, h, Xtime.ns]
  · obtain ⟨n1, n2⟩ := hn
    cases hc : c.nano <;> simp [ticksNs, hc, Xtime.ns] <;> omega

example : (⟨64, 64, false⟩ : Cfg).Usual ∧ (⟨1700000000, 123456789⟩ : Xtime).Normalised ∧ (⟨1700000000, 123456789⟩ : Xtime).Fits ⟨64, 64, false⟩
    ∧ toSystemTime ⟨64, 64, false⟩ ⟨1700000000, 123456789⟩ = some 1700000000123457 := by decide +kernel

/-- C78: of two such times, the one that is not later converts to a time that is not later. -/
theorem conversion_is_monotone {c : Cfg} {x y : Xtime} (hu : c.Usual) (hx : x.Normalised) (fx : x.Fits c) (hy : y.Normalised) (fy : y.Fits c)
    (h : x.ns ≤ y.ns) {s t : Int} (hs : toSystemTime c x = some s) (ht : toSystemTime c y = some t) : s ≤ t := by
  rw [toSystemTime_eq hu hx fx] at hs
  rw [toSystemTime_eq hu hy fy] at ht
  injection hs with hs; injection ht with ht
  subst hs; subst ht
  obtain ⟨n1, n2⟩ := hx
  obtain ⟨m1, m2⟩ := hy
  unfold Xtime.ns at h
  cases hc : c.nano <;> simp <;> omega

example : ∃ x y : Xtime, x.ns < y.ns ∧ toSystemTime ⟨64, 32, false⟩ x = some 1000000 ∧ toSystemTime ⟨64, 32, false⟩ y = some 1000001 :=
  ⟨⟨0, 999999600⟩, ⟨1, 500⟩, by decide +kernel⟩

/-- What `get_xtime` computes for a time that is not before 1970. -/
theorem getXtime_eq {c : Cfg} (hu : c.Usual) {t : Int} (h0 : 0 ≤ t) :
    getXtime c t = if c.nano then ⟨t / 1000000000, t % 1000000000⟩ else ⟨t / 1000000, t % 1000000 * 1000⟩ := by
  have bm : ∀ {n : Int}, 0 ≤ n → n < 1000000000 → n.bmod (2 ^ c.fastBits) = n := by
    intro n h1 h2
    rcases hu.2 with h | h <;> rw [h, Int.bmod_def] <;> split <;> omega
  unfold getXtime
  cases hc : c.nano
  · have e : (1000000000 : Int).tdiv 1000000 = 1000 := by decide
    simp only [Cfg.tps, hc, Bool.false_eq_true, if_false, e, Int.tdiv_eq_ediv_of_nonneg h0, Int.tmod_eq_emod_of_nonneg h0]
    rw [bm (by omega) (by omega)]
  · have e : (1000000000 : Int).tdiv 1000000000 = 1 := by decide
    simp only [Cfg.tps, hc, if_true, e, Int.tdiv_eq_ediv_of_nonneg h0, Int.tmod_eq_emod_of_nonneg h0, Int.mul_one]
    rw [bm (by omega) (by omega)]

/-- C78, conversion from a `system_time`: for every time from 1970 on, the `xtime` is normalised and is exactly that instant. -/
theorem from_system_time_is_exact {c : Cfg} (hu : c.Usual) {t : Int} (h0 : 0 ≤ t) : (getXtime c t).Normalised ∧ (getXtime c t).ns = ticksNs c t := by
  rw [getXtime_eq hu h0]
  cases hc : c.nano <;> simp [Xtime.Normalised, Xtime.ns, ticksNs, hc] <;> omega

example : getXtime ⟨64, 64, false⟩ 1700000000123457 = ⟨1700000000, 123457000⟩ := by decide +kernel

/-- C78, round trip: a time from 1970 on that is converted to an `xtime` and back is the same time (if its second fits into a `long`). -/
theorem roundtrip_partial {c : Cfg} (hu : c.Usual) {t : Int} (h0 : 0 ≤ t) (hf : (getXtime c t).Fits c) : toSystemTime c (getXtime c t) = some t := by
  rw [toSystemTime_eq hu (from_system_time_is_exact hu h0).1 hf, getXtime_eq hu h0]
  cases hc : c.nano <;> simp <;> omega

example : (getXtime ⟨64, 64, false⟩ 1700000000123457).Fits ⟨64, 64, false⟩ := by decide +kernel

/-- The other round trip, with nanoseconds or for whole microseconds. -/
theorem roundtrip_xtime {c : Cfg} {x : Xtime} (hu : c.Usual) (hn : x.Normalised) (hf : x.Fits c) (h0 : 0 ≤ x.sec)
    (hm : c.nano = true ∨ x.nsec % 1000 = 0) : (toSystemTime c x).map (getXtime c) = some x := by
  rw [toSystemTime_eq hu hn hf]
  obtain ⟨n1, n2⟩ := hn
  obtain ⟨s, n⟩ := x
  dsimp only at *
  have h : 0 ≤ (if c.nano then s * 1000000000 + n else s * 1000000 + (n + 500) / 1000) := by split <;> omega
  rw [Option.map_some, getXtime_eq hu h]
  cases hc : c.nano
  · have : n % 1000 = 0 := by rcases hm with e | e; · rw [hc] at e; cases e
                              · exact e
    simp; omega
  · simp; omega

example : (toSystemTime ⟨64, 64, false⟩ ⟨7, 42000⟩).map (getXtime ⟨64, 64, false⟩) = some ⟨7, 42000⟩ := by decide +kernel

/-- C78, false of the code: a time before 1970 becomes an `xtime` that is not normalised, and with microseconds the way back is a microsecond off. -/
theorem before_1970_not_normalised : ¬ (getXtime ⟨64, 64, false⟩ (-1)).Normalised ∧ toSystemTime ⟨64, 64, false⟩ (getXtime ⟨64, 64, false⟩ (-1)) = some 0
    ∧ toSystemTime ⟨64, 64, false⟩ (getXtime ⟨64, 64, false⟩ (-3000003)) = some (-3000002) := by decide +kernel

/-- Every time before 1970 that is not a whole second is affected. -/
theorem before_1970 {c : Cfg} (hu : c.Usual) {t : Int} (h0 : t < 0) (hm : t % c.tps ≠ 0) : ¬ (getXtime c t).Normalised := by
  have bm : ∀ {n : Int}, -1000000000 < n → n < 0 → n.bmod (2 ^ c.fastBits) = n := by
    intro n h1 h2
    rcases hu.2 with h | h <;> rw [h, Int.bmod_def] <;> split <;> omega
  have e : t.tmod c.tps = -((-t) % c.tps) := by
    have := Int.neg_tmod (-t) c.tps
    rw [Int.neg_neg] at this
    rw [this, Int.tmod_eq_emod_of_nonneg (by omega)]
  intro hn
  have h := hn.1
  unfold getXtime at h
  dsimp only at h
  rw [e] at h
  cases hc : c.nano
  · have e' : (1000000000 : Int).tdiv 1000000 = 1000 := by decide
    simp only [Cfg.tps, hc, Bool.false_eq_true, if_false, e'] at h hm
    rw [bm (by omega) (by omega)] at h
    omega
  · have e' : (1000000000 : Int).tdiv 1000000000 = 1 := by decide
    simp only [Cfg.tps, hc, if_true, e', Int.mul_one] at h hm
    rw [bm (by omega) (by omega)] at h
    omega

example : (-3000003 : Int) < 0 ∧ (-3000003 : Int) % (⟨64, 64, false⟩ : Cfg).tps ≠ 0 := by decide

/-- C78, false of the code with a 32-bit `long` (Windows): the first second that does not fit, in January 2038, converts to a time in 1901. A timed wait or
lock until then, or later, does not wait. -/
theorem wraps_in_2038 : toSystemTime ⟨32, 32, false⟩ ⟨2147483648, 0⟩ = some (-2147483648000000) := by decide +kernel

/-- It is so for every time from then on to 2106. -/
theorem wraps_after_2038 {c : Cfg} {x : Xtime} (hu : c.Usual) (hl : c.longBits = 32) (hn : x.Normalised) (h1 : 2147483648 ≤ x.sec) (h2 : x.sec < 4294967295) :
    ∃ t, toSystemTime c x = some t ∧ t < 0 := by
  have e : toLong c.longBits x.sec = x.sec - 4294967296 := by
    rw [hl]; unfold toLong; rw [Int.bmod_def]; split <;> omega
  obtain ⟨n1, n2⟩ := hn
  cases hc : c.nano
  · have a1 : InRange ((x.sec - 4294967296) * 1000000) := by unfold InRange minI maxI; omega
    have a2 : InRange ((x.sec - 4294967296) * 1000000 + (x.nsec + 500) / 1000) := by unfold InRange minI maxI; omega
    have a3 : (x.nsec + 500).tdiv 1000 = (x.nsec + 500) / 1000 := Int.tdiv_eq_ediv_of_nonneg (by omega)
    refine ⟨(x.sec - 4294967296) * 1000000 + (x.nsec + 500) / 1000, ?_, by omega⟩
    simp [toSystemTime, e, Cfg.tps, hc, ck_ok a1, ckFast_ok hu (show -2147483648 ≤ x.nsec + 500 by omega) (by omega), a3, ck_ok a2]
  · have a1 : InRange ((x.sec - 4294967296) * 1000000000) := by unfold InRange minI maxI; omega
    have a2 : InRange ((x.sec - 4294967296) * 1000000000 + x.nsec) := by unfold InRange minI maxI; omega
    refine ⟨(x.sec - 4294967296) * 1000000000 + x.nsec, ?_, by omega⟩
    simp [toSystemTime, e, Cfg.tps, hc, ck_ok a1, ck_ok a2]

example : (⟨32, 32, true⟩ : Cfg).Usual ∧ (⟨3000000000, 5⟩ : Xtime).Normalised := by decide

/-- C78, comparison: for normalised times the result is defined, and its sign is that of the difference of the instants, whatever the seconds. -/
theorem cmp_orders {c : Cfg} {x y : Xtime} (hu : c.Usual) (hx : x.Normalised) (hy : y.Normalised) :
    ∃ r, xtimeCmp c x y = some r ∧ (r < 0 ↔ x.ns < y.ns) ∧ (r = 0 ↔ x.ns = y.ns) ∧ (0 < r ↔ y.ns < x.ns) := by
  obtain ⟨n1, n2⟩ := hx
  obtain ⟨m1, m2⟩ := hy
  unfold xtimeCmp Xtime.ns
  by_cases h : x.sec = y.sec
  · rw [if_pos h, ckFast_ok hu (by omega) (by omega)]
    refine ⟨x.nsec - y.nsec, ?_, by omega, by omega, by omega⟩
    rw [Option.map_some, Int.bmod_def]
    split <;> congr 1 <;> omega
  · rw [if_neg h]
    refine ⟨_, rfl, ?_⟩
    split <;> omega

example : xtimeCmp ⟨64, 64, true⟩ ⟨5, 999999999⟩ ⟨6, 0⟩ = some (-1) ∧ xtimeCmp ⟨64, 64, true⟩ ⟨5, 999999999⟩ ⟨5, 1⟩ = some 999999998 := by decide +kernel

/-- C78, `xtime_get`: for `TIME_UTC_` it stores the instant the clock shows and returns its argument; for any other clock it stores nothing and returns 0. -/
theorem get_reads_clock {c : Cfg} (hu : c.Usual) {now : Int} (h0 : 0 ≤ now) (k : Int) :
    (k = 1 → ∃ x, xtimeGet c now k = (some x, 1) ∧ x.Normalised ∧ x.ns = ticksNs c now) ∧ (k ≠ 1 → xtimeGet c now k = (none, 0)) := by
  refine ⟨fun h => ⟨getXtime c now, ?_, from_system_time_is_exact hu h0⟩, fun h => if_neg h⟩
  rw [h]; exact if_pos rfl

/-- C78, `get_milliseconds_until`: waiting for the milliseconds it returns is waiting for longer than the rest of the time, by a millisecond at most; it is 0
exactly when the time has come. This holds if the time is less than 2³²-1 ms away (49 days), or if `long` has 64 bits and the distance fits into a tick count. -/
theorem milliseconds_cover_partial {c : Cfg} (hu : c.Usual) {now target : Int} (hd : InRange (target - now))
    (hf : c.longBits = 64 ∨ ticksNs c (target - now) < 4294967295 * 1000000) :
    (target ≤ now → millisecondsUntil c now (some target) = 0) ∧
    (now < target → ticksNs c (target - now) < millisecondsUntil c now (some target) * 1000000 ∧
      (millisecondsUntil c now (some target) : Int) * 1000000 ≤ ticksNs c (target - now) + 1000000) := by
  refine ⟨fun h => if_pos h, fun h => ?_⟩
  unfold millisecondsUntil
  unfold InRange minI maxI at hd
  dsimp only
  rw [if_neg (by omega)]
  cases hc : c.nano
  · have e : (1000000 : Int).tdiv 1000 = 1000 := by decide
    simp only [Cfg.tps, ticksNs, hc, Bool.false_eq_true, if_false, e, Int.tdiv_eq_ediv_of_nonneg (show 0 ≤ target - now by omega)] at hf ⊢
    have : ((target - now) / 1000 + 1) % 2 ^ c.longBits = (target - now) / 1000 + 1 := by
      rcases hu.1 with e | e <;> rw [e] at hf ⊢ <;> refine Int.emod_eq_of_lt (by omega) ?_
      · rcases hf with f | f
        · cases f
        · omega
      · omega
    rw [this, Int.toNat_of_nonneg (by omega)]
    omega
  · have e : (1000000000 : Int).tdiv 1000 = 1000000 := by decide
    simp only [Cfg.tps, ticksNs, hc, if_true, e, Int.tdiv_eq_ediv_of_nonneg (show 0 ≤ target - now by omega)] at hf ⊢
    have : ((target - now) / 1000000 + 1) % 2 ^ c.longBits = (target - now) / 1000000 + 1 := by
      rcases hu.1 with e | e <;> rw [e] at hf ⊢ <;> refine Int.emod_eq_of_lt (by omega) ?_
      · rcases hf with f | f
        · cases f
        · omega
      · omega
    rw [this, Int.toNat_of_nonneg (by omega)]
    omega

example : millisecondsUntil ⟨32, 32, false⟩ 1000 (some 3500) = 3 ∧ InRange (3500 - 1000) := by decide

/-- C78, false of the code with a 32-bit `long` (Windows): a time 2³²-1 ms away gives 0, as if it had come; with a millisecond less it gives the value that means
infinity. -/
theorem milliseconds_wrap : millisecondsUntil ⟨32, 32, false⟩ 0 (some 4294967295000) = 0
    ∧ millisecondsUntil ⟨32, 32, false⟩ 0 (some 4294967294000) = millisecondsUntil ⟨32, 32, false⟩ 0 none := by decide +kernel

end Verif.Xtime
