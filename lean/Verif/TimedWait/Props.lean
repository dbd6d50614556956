import Verif.TimedWait.Lemmas
/-!
# C17: timed predicate waits report the predicate and never time out early
-/

namespace Verif.TimedWait

/-- **C17.** In every environment (clocks, adjustments, wake-ups, changes of the predicate), a wait with predicate returns the value which the predicate has at that moment,
with the lock held, and returns `false` only if the deadline has been reached during the call; a wait without predicate reports a time-out only if
the deadline has been reached.

Missing from the full statement (`next true`): a call whose times are negative or outside 64 bits may throw `condition_error` or have undefined behaviour,
see `wait_until_in_the_past_throws` and `wait_for_max_overflows`; the specification `next false` allows exactly these failures. -/
theorem timed_waits_conform_partial {now user : Int} {pred windows : Bool} {ls : List Label} {s : State} {es : List Event} (h0 : 0 ≤ now)
    (h : run step (init now user pred windows) ls = some (s, es)) : Accepts (next false) (specInit now user pred) es :=
  simulation (s := init now user pred windows) R (fun _ _ _ _ _ hR hs => sim_step hR hs)
    { now := rfl, user := rfl, pred := rfl, held := rfl, pos := h0, beg := Int.le_refl _, hi := Int.le_refl _, lo := Int.le_refl _, ok := ⟨rfl, rfl⟩ } h

def failed : Event → Bool
  | .returned .threw => true
  | .returned .overflow => true
  | _ => false

theorem accepts_strict {q : SState} {es : List Event} (hf : es.all (fun e => !failed e) = true) (h : Accepts (next false) q es) : Accepts (next true) q es := by
  induction es generalizing q with
  | nil => trivial
  | cons e es ih =>
    simp only [List.all_cons, Bool.and_eq_true] at hf
    have he : next true q e = next false q e := by
      cases e with
      | returned r => cases r <;> first | rfl | simp [failed] at hf
      | _ => rfl
    simp only [Accepts] at h ⊢
    rw [he]
    cases hn : next false q e with
    | ok q' => simp only [hn] at h ⊢; exact ih hf.2 h
    | undefined => trivial
    | illegal => simp [hn] at h

/-- **C17.** The full statement for every history in which no call fails. -/
theorem timed_waits_conform_if_no_failure {now user : Int} {pred windows : Bool} {ls : List Label} {s : State} {es : List Event} (h0 : 0 ≤ now)
    (h : run step (init now user pred windows) ls = some (s, es)) (hf : es.all (fun e => !failed e) = true) : Accepts (next true) (specInit now user pred) es :=
  accepts_strict hf (timed_waits_conform_partial h0 h)

/-- A wait until time 1000 of a clock that is adjusted: it jumps ahead, the predicate becomes true and false again. -/
def demo : List Label :=
  [.call (.waitUntilP false 1000000), .go, .go, .go, .go, .go, .tick 5 100, .setPred true, .setPred false, .wake, .go, .go, .go,
   .tick 5 1000001, .tick 5 7, .go, .go, .go, .tick 1000000 2000000, .expire, .go, .go, .go, .go, .go]

example : (run step (init 50 60 false) demo).map Prod.snd = some
    [.called (.waitUntilP false 1000000), .released, .clock 55 100, .predIs true, .predIs false, .acquired,
     .clock 60 1000001, .clock 65 7, .released, .clock 1000065 2000000, .acquired, .returned (.val false)] := by decide

/-- The specification is not trivial. -/
example : ¬ Accepts (next false) (specInit 50 60 false) [.called (.waitUntilP false 1000), .returned (.val false)] := by
  intro h; exact absurd h (by decide)
example : ¬ Accepts (next false) (specInit 50 60 false) [.called (.waitForP 10), .clock 59 60, .returned (.val false)] := by
  intro h; exact absurd h (by decide)
example : ¬ Accepts (next false) (specInit 50 60 false) [.called (.waitForP 10), .released, .clock 61 61, .predIs true, .acquired, .returned (.val false)] := by
  intro h; exact absurd h (by decide)
example : ¬ Accepts (next false) (specInit 50 60 false) [.called (.waitFor 10), .released, .clock 59 90, .acquired, .returned (.status true)] := by
  intro h; exact absurd h (by decide)
example : ¬ Accepts (next false) (specInit 50 60 false) [.called (.waitFor 10), .released, .clock 69 90, .returned (.status true)] := by
  intro h; exact absurd h (by decide)

/-- The waiting thread sleeps in a wait with predicate. -/
def SleepsP (s : State) : Prop := ∃ ts k, s.pc = .asleep ts k ∧ isLoop k

/-- **C17 (progress).** A wait with predicate that is woken while the predicate is true returns: with `true` if it returns a value. -/
theorem woken_with_true_returns {s : State} (h : SleepsP s) (hp : s.pred = true) :
    ∃ ls s' es r, ls.all (fun l => l == .wake || l == .go) = true ∧ run step s ls = some (s', es) ∧ (r = .val true ∨ r = .unit) ∧ .returned r ∈ es := by
  obtain ⟨ts, k, hpc, hl⟩ := h
  obtain ⟨pc, now, user, pred, held, windows⟩ := s
  simp only at hpc hp; subst hpc hp
  cases k with
  | loopInternal t =>
    exact ⟨[.wake, .go, .go, .go, .go], _, _, .val true, by decide, rfl, .inl rfl, by simp⟩
  | loopUser t =>
    exact ⟨[.wake, .go, .go, .go, .go], _, _, .val true, by decide, rfl, .inl rfl, by simp⟩
  | loopForever b =>
    cases b
    · exact ⟨[.wake, .go, .go, .go], _, _, .unit, by decide, rfl, .inr rfl, by simp⟩
    · exact ⟨[.wake, .go, .go, .go], _, _, .val true, by decide, rfl, .inl rfl, by simp⟩
  | report => exact hl.elim
  | reportUser t => exact hl.elim
  | plainTrue => exact hl.elim

/-- **C17 (progress).** A wait with predicate over the internal clock whose deadline has been reached returns `false` if the predicate is false, without any notification. -/
theorem expired_returns {s : State} {ts : Int} (h : s.pc = .asleep (some ts) (.loopInternal ts)) (hd : ts ≤ s.now) :
    ∃ s' es, run step s [.expire, .go, .go, .go] = some (s', es) ∧ .returned (.val s.pred) ∈ es := by
  obtain ⟨pc, now, user, pred, held, windows⟩ := s
  simp only at h hd; subst h
  refine ⟨{ pc := .idle, now := now, user := user, pred := pred, held := true, windows := windows }, [.acquired, .returned (.val pred)], ?_, by simp⟩
  simp [run, step, go, hd, goto, ret]

/-- The loop over the user's clock wakes up at the latest one poll interval later to look at it again, whatever the internal clock. -/
theorem user_clock_is_polled {s : State} {t : Int} (h : s.pc = .readUser t) (hu : s.user < t) (hr : inRange (t - s.user) = true) (hn : 0 ≤ s.now)
    (hr' : inRange (s.now + poll) = true) :
    ∃ s' es ts, run step s [.go, .go, .go] = some (s', es) ∧ s'.pc = .asleep (some ts) (.loopUser t) ∧ ts ≤ s.now + poll := by
  obtain ⟨pc, now, user, pred, held, windows⟩ := s
  simp only at h hu hr hn hr'; subst h
  have h1 : ¬ (t - user ≤ 0) := by omega
  have h2 : inRange (now + min (t - user) poll) = true := by
    unfold inRange poll at *
    rw [decide_eq_true_eq] at hr' ⊢; omega
  have h3 : validTs (now + min (t - user) poll) = true := validTs_of_nonneg (by simp only [poll]; omega)
  refine ⟨{ pc := .asleep (some (now + min (t - user) poll)) (.loopUser t), now := now, user := user, pred := pred, held := false, windows := windows }, [.released],
    now + min (t - user) poll, ?_, rfl, by simp only; omega⟩
  simp [run, step, go, hr, h1, goto, h2, h3]

/-- **C17, disagreement.** `wait_until` with a time of another clock that lies further in the past than the internal clock has run (for `system_clock`: before the
machine was booted) does not report a time-out: the absolute time computed from it is negative, `ns_to_timespec` makes a negative `tv_nsec`,
`pthread_cond_timedwait` fails with `EINVAL` and `condition_error` is thrown. Here the machine has been up for 10 s and the wait is until 20 s ago. -/
theorem wait_until_in_the_past_throws :
    ∃ ls s es, run step (init 10000000001 1700000000000000000 false) ls = some (s, es) ∧ es = [.called (.waitUntil false 1699999980000000000), .returned .threw] ∧
      ¬ Accepts (next true) (specInit 10000000001 1700000000000000000 false) es :=
  ⟨[.call (.waitUntil false 1699999980000000000), .go, .go, .go], _, _, rfl, by decide, by intro h; exact absurd h (by decide)⟩

/-- **C17, disagreement.** `wait_for` with the largest duration adds it to the current time, which overflows. -/
theorem wait_for_max_overflows :
    ∃ ls s es, run step (init 1 1 false) ls = some (s, es) ∧ es = [.called (.waitForP 9223372036854775807), .returned .overflow] ∧
      ¬ Accepts (next true) (specInit 1 1 false) es :=
  ⟨[.call (.waitForP 9223372036854775807), .go], _, _, rfl, by decide, by intro h; exact absurd h (by decide)⟩

/-- **C17, disagreement.** `timed_wait` with the duration `neg_infin` (a deadline that has passed) reports "not timed out" without having waited. -/
theorem timed_wait_neg_infinity_reports_no_timeout (now user : Int) (pred : Bool) :
    ∃ s, run step (init now user pred) [.call (.timedWait .special), .go] = some (s, [.called (.timedWait .special), .returned (.status false)]) :=
  ⟨_, rfl⟩

/-- **C17 on Windows.** No wait throws `condition_error`, however far in the past its time lies: there, only times outside 64 bits are exempt. -/
theorem windows_never_throws {now user : Int} {pred : Bool} {ls : List Label} {s : State} {es : List Event}
    (h : run step (init now user pred true) ls = some (s, es)) : Event.returned .threw ∉ es := by
  have := run_inv_hist (fun s h => s.windows = true ∧ Event.returned .threw ∉ h) (hist := []) (fun s l s' h es hi hs => ?_) ⟨rfl, by simp⟩ h
  · simpa using this.2
  · obtain ⟨i1, i2⟩ := hi
    have key : s'.windows = s.windows ∧ Event.returned .threw ∉ es := by
      obtain ⟨pc, now, user, pred, held, windows⟩ := s
      simp only at i1
      subst i1
      cases l with
      | go =>
        simp only [step, go] at hs
        cases pc with
        | begin c =>
          simp only at hs
          unfold start goto ret at hs
          (repeat' split at hs) <;> cases hs <;> simp
        | enter ts k => cases ts <;> simp only [Bool.true_or, if_true] at hs <;> cases hs <;> simp
        | check k =>
          simp only [goto, ret] at hs
          (repeat' split at hs) <;> cases hs <;> simp
        | after r k =>
          simp only [goto, ret] at hs
          (repeat' split at hs) <;> cases hs <;> simp
        | _ => simp only [goto, ret] at hs <;> (repeat' split at hs) <;> cases hs <;> simp
      | _ => simp only [step] at hs <;> (repeat' split at hs) <;> cases hs <;> simp
    exact ⟨key.1.trans i1, by simp [i2, key.2]⟩

/-- The wait of `wait_until_in_the_past_throws`, on Windows: it times out. -/
example : ∃ s, run step (init 10000000001 1700000000000000000 false true) [.call (.waitUntil false 1699999980000000000), .go, .go, .go, .expire, .go, .go] =
    some (s, [.called (.waitUntil false 1699999980000000000), .released, .acquired, .returned (.status true)]) := ⟨_, rfl⟩

/-- **C17 on Windows.** A wait until a time that has passed on its clock reports a time-out by itself, in a bounded number of steps. -/
theorem windows_past_times_out {s : State} {t : Int} (hw : s.windows = true) (hp : s.pc = .begin (.waitUntil false t)) (hpast : t ≤ s.user) (hr : inRange (t - s.user) = true)
    (hn : inRange (s.now + (t - s.user)) = true) : ∃ s', run step s [.go, .go, .go, .expire, .go, .go] = some (s', [.released, .acquired, .returned (.status true)]) := by
  obtain ⟨pc, now, user, pred, held, windows⟩ := s
  simp only at hw hp hpast hr hn
  subst hw hp
  have h1 : now + (t - user) ≤ now := by omega
  have h2 : ¬ t > user := by omega
  exact ⟨⟨.idle, now, user, pred, true, true⟩, by simp [run, step, go, start, goto, ret, hr, hn, h1, h2]⟩

end Verif.TimedWait
