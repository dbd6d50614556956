import Verif.TimedLock.Lemmas
/-!
# C70: a timed lock fails only when its time has come, and then it does
-/

set_option linter.unusedSimpArgs false

namespace Verif.TimedLock

/-- **C70.** However the clocks run and are set, whatever other threads do with the mutex, whenever the thread is woken: a timed attempt to lock returns true only when no other thread has the mutex, and
false only when the thread does not have it and the time of the call has come: the steady clock has reached the time point or the sum of the time of the call and the duration, another clock has shown the
time point or a later one at some moment during the call; `timed_lock(pos_infin)` never returns false. This is so for `timed_mutex` and `recursive_timed_mutex`, on POSIX and on Windows.

Missing from the full statement (`next true`): a call with times that are negative or do not fit in 64 bits may abort or have undefined behaviour; `next false` allows exactly this. -/
theorem timed_locks_conform_partial {c : Cfg} {now user : Int} {ls : List Label} {s : State} {es : List Event} (h0 : 0 ≤ now)
    (h : run (step c) (init now user) ls = some (s, es)) : Accepts (next false c) (specInit now user) es :=
  simulation (s := init now user) (R c) (fun _ _ _ _ _ hR hs => sim hR hs)
    { now := rfl, user := rfl, mine := rfl, other := rfl, pos := h0, beg := Int.le_refl _, hi := Int.le_refl _, lo := Int.le_refl _, excl := fun h => absurd rfl h, ok := rfl } h

def failed : Event → Bool
  | .returned .overflow => true
  | .returned .aborted => true
  | _ => false

theorem accepts_strict {c : Cfg} {q : Spec} {es : List Event} (hf : es.all (fun e => !failed e) = true) (h : Accepts (next false c) q es) : Accepts (next true c) q es := by
  induction es generalizing q with
  | nil => trivial
  | cons e es ih =>
    simp only [List.all_cons, Bool.and_eq_true] at hf
    have he : next true c q e = next false c q e := by
      cases e with
      | returned r => cases r with
        | val b => cases b <;> rfl
        | _ => simp [failed] at hf
      | _ => rfl
    simp only [Accepts] at h ⊢
    rw [he]
    cases hn : next false c q e with
    | ok q' => simp only [hn] at h ⊢; exact ih hf.2 h
    | undefined => trivial
    | illegal => simp [hn] at h

/-- **C70.** The full statement for every history in which no call aborts or overflows. -/
theorem timed_locks_conform_if_no_failure {c : Cfg} {now user : Int} {ls : List Label} {s : State} {es : List Event} (h0 : 0 ≤ now)
    (h : run (step c) (init now user) ls = some (s, es)) (hf : es.all (fun e => !failed e) = true) : Accepts (next true c) (specInit now user) es :=
  accepts_strict hf (timed_locks_conform_partial h0 h)

abbrev posix : Cfg := { sys := .posix false, recursive := false }
abbrev win : Cfg := { sys := .windows, recursive := false }

/-- An attempt until time 1000000 of a clock that is adjusted, while another thread has the mutex: the clock jumps ahead and back unseen, and reaches the time; the next attempt succeeds. -/
def demo : List Label :=
  [.otherLock, .call (.until_ false 1000000), .go, .go, .go, .tick 5 100, .wake, .go, .tick 5 1000001, .tick 5 7, .tick 1000000 8, .expire, .go, .go, .go, .go, .tick 1000000 2000000, .expire, .go, .go,
   .otherUnlock, .call (.for_ 5), .go, .go]

example : (run (step posix) (init 50 60) demo).map Prod.snd = some
    [.otherLocked, .called (.until_ false 1000000), .clock 55 100, .clock 60 1000001, .clock 65 7, .clock 1000065 8, .clock 2000065 2000000, .returned (.val false),
     .otherUnlocked, .called (.for_ 5), .returned (.val true)] := by decide

/-- The same on Windows. -/
def demoWin : List Label :=
  [.otherLock, .call (.until_ false 1000000), .go, .go, .go, .go, .tick 5 100, .wake, .go, .go, .go, .tick 1000000 1000000, .expire, .go, .otherUnlock, .call (.for_ 5), .go, .go]

example : (run (step win) (init 50 60) demoWin).map Prod.snd = some
    [.otherLocked, .called (.until_ false 1000000), .clock 55 100, .clock 1000055 1000000, .returned (.val false), .otherUnlocked, .called (.for_ 5), .returned (.val true)] := by decide

/-- The specification is not trivial: too early, while another thread has the mutex, while the thread itself has it, never for an infinite time. -/
example : ¬ Accepts (next false posix) (specInit 50 60) [.otherLocked, .called (.for_ 10), .clock 59 90, .returned (.val false)] := by decide
example : ¬ Accepts (next false posix) (specInit 50 60) [.otherLocked, .called (.until_ false 100), .clock 59 99, .returned (.val false)] := by decide
example : ¬ Accepts (next false posix) (specInit 50 60) [.otherLocked, .called (.until_ true 100), .clock 99 1000, .returned (.val false)] := by decide
example : ¬ Accepts (next false posix) (specInit 50 60) [.otherLocked, .called (.until_ true 100), .clock 101 1000, .returned (.val true)] := by decide
example : ¬ Accepts (next false { posix with recursive := true }) (specInit 50 60)
    [.called (.for_ 0), .returned (.val true), .called (.for_ 0), .returned (.val false)] := by decide
example : ¬ Accepts (next false posix) (specInit 50 60) [.otherLocked, .called .forever, .clock 5900 90000, .returned (.val false)] := by decide
example : ¬ Accepts (next false posix) (specInit 50 60) [.called (.for_ 0), .returned (.val true), .otherLocked] := by decide

/-- **C70 (progress).** A sleeping thread that is woken while the mutex is free gets it. -/
theorem woken_while_free_locks {c : Cfg} {s : State} {ts : Option Int} {k : Kont} (h : s.pc = .asleep ts k) (hl : s.locked = false) :
    ∃ s', run (step c) s [.wake, .go] = some (s', [.returned (.val true)]) ∧ s'.mine = s.mine + 1 := by
  obtain ⟨pc, now, user, mine, other⟩ := s
  simp only at h; subst h
  have hl' : ∀ p, State.locked { pc := p, now := now, user := user, mine := mine, other := other } = false := fun _ => hl
  refine ⟨{ pc := .idle, now := now, user := user, mine := mine + 1, other := other }, ?_, rfl⟩
  cases hk : k.isWin <;> simp [run, step, go, goto, hk, hl', take]

/-- The time of the wait has come, by the clock that counts. -/
def timeHasCome (s : State) : Kont → Prop
  | .report => True
  | .loop t | .winUser t => t ≤ s.user ∧ fits (t - s.user) = true
  | .winSteady t => t ≤ s.now ∧ fits (t - s.now) = true

/-- **C70 (progress).** A thread whose wait has timed out, and whose time has come, returns, without anybody's help: on POSIX with the mutex if it is free now, otherwise false. -/
theorem returns_when_time_has_come {c : Cfg} {s : State} {ts : Int} {k : Kont} (h : s.pc = .asleep (some ts) k) (hd : ts ≤ s.now) (ht : timeHasCome s k) :
    ∃ n s' b, run (step c) s (.expire :: List.replicate n .go) = some (s', [.returned (.val b)]) ∧ (s.locked = true → b = false) := by
  obtain ⟨pc, now, user, mine, other⟩ := s
  simp only at h hd; subst h
  cases hl : State.locked { pc := PC.asleep (some ts) k, now := now, user := user, mine := mine, other := other } with
  | true =>
    have hl' : ∀ p, State.locked { pc := p, now := now, user := user, mine := mine, other := other } = true := fun _ => hl
    cases k with
    | report => exact ⟨1, { pc := .idle, now := now, user := user, mine := mine, other := other }, false, by simp [run, step, go, goto, hd, hl', Kont.isWin, fail, ret, List.replicate], fun _ => rfl⟩
    | loop t =>
      have h1 : t - user ≤ 0 := by simp only [timeHasCome] at ht; omega
      exact ⟨2, { pc := .idle, now := now, user := user, mine := mine, other := other }, false,
        by simp [run, step, go, goto, hd, hl', Kont.isWin, fail, ret, List.replicate, ht.2, h1], fun _ => rfl⟩
    | winSteady t =>
      have h1 : t - now ≤ 0 := by simp only [timeHasCome] at ht; omega
      exact ⟨1, { pc := .idle, now := now, user := user, mine := mine, other := other }, false,
        by simp [run, step, go, goto, hd, Kont.isWin, Kont.left, ret, List.replicate, ht.2, h1], fun _ => rfl⟩
    | winUser t =>
      have h1 : t - user ≤ 0 := by simp only [timeHasCome] at ht; omega
      exact ⟨1, { pc := .idle, now := now, user := user, mine := mine, other := other }, false,
        by simp [run, step, go, goto, hd, Kont.isWin, Kont.left, ret, List.replicate, ht.2, h1], fun _ => rfl⟩
  | false =>
    have hl' : ∀ p, State.locked { pc := p, now := now, user := user, mine := mine, other := other } = false := fun _ => hl
    cases k with
    | report => exact ⟨1, { pc := .idle, now := now, user := user, mine := mine + 1, other := other }, true, by simp [run, step, go, goto, hd, hl', Kont.isWin, take, List.replicate], by simp⟩
    | loop t => exact ⟨1, { pc := .idle, now := now, user := user, mine := mine + 1, other := other }, true, by simp [run, step, go, goto, hd, hl', Kont.isWin, take, List.replicate], by simp⟩
    | winSteady t =>
      have h1 : t - now ≤ 0 := by simp only [timeHasCome] at ht; omega
      exact ⟨1, { pc := .idle, now := now, user := user, mine := mine, other := other }, false,
        by simp [run, step, go, goto, hd, Kont.isWin, Kont.left, ret, List.replicate, ht.2, h1], by simp⟩
    | winUser t =>
      have h1 : t - user ≤ 0 := by simp only [timeHasCome] at ht; omega
      exact ⟨1, { pc := .idle, now := now, user := user, mine := mine, other := other }, false,
        by simp [run, step, go, goto, hd, Kont.isWin, Kont.left, ret, List.replicate, ht.2, h1], by simp⟩

/-- Reachable states like these. -/
example : (run (step posix) (init 50 60) [.otherLock, .call (.for_ 10), .go, .go, .tick 10 70]).map (fun r => (r.1.pc, r.1.now, r.1.locked)) = some (.asleep (some 60) .report, 60, true) := by decide
example : (run (step posix) (init 50 60) [.otherLock, .call (.until_ false 70), .go, .go, .go, .tick 10 70]).map (fun r => (r.1.pc, r.1.now, r.1.user)) = some (.asleep (some 60) (.loop 70), 60, 70) := by decide
example : (run (step win) (init 50 60) [.otherLock, .call (.until_ true 70), .go, .go, .go, .go, .tick 1000000 70]).map (fun r => (r.1.pc, r.1.now)) =
    some (.asleep (some 1000050) (.winSteady 70), 1000050) := by decide
example : (run (step posix) (init 50 60) [.otherLock, .call (.for_ 10), .go, .go, .otherUnlock]).map (fun r => (r.1.pc, r.1.locked)) = some (.asleep (some 60) .report, false) := by decide
example : (run (step posix) (init 50 60) (demo.take 13)).map (fun r => (r.1.pc, r.1.user)) = some (.readUser 1000000, 8) := by decide
example : (run (step win) (init 50 60) (demoWin.take 4)).map (fun r => r.1.pc) = some (.winRead (.winUser 1000000)) := by decide

/-- **C70 (progress, POSIX).** An attempt with a time of the steady clock sleeps until exactly this time. -/
theorem sleeps_until_the_time {asr rec : Bool} {s : State} {t : Int} (h : s.pc = .idle) (ho : s.other = true) (hm : s.mine = 0) (ht : 0 ≤ t) :
    ∃ s', run (step { sys := .posix asr, recursive := rec }) s [.call (.until_ true t), .go, .go] = some (s', [.called (.until_ true t)]) ∧ s'.pc = .asleep (some t) .report := by
  obtain ⟨pc, now, user, mine, other⟩ := s
  simp only at h ho hm; subst h ho hm
  have hv := validTs_of_nonneg ht
  exact ⟨{ pc := .asleep (some t) .report, now := now, user := user, mine := 0, other := true }, by simp [run, step, go, start, goto, State.locked, hv], rfl⟩

/-- **C70 (progress, POSIX).** An attempt with a time of another clock looks at this clock at least every 100 ms. -/
theorem clock_is_polled {asr rec : Bool} {s : State} {t : Int} (h : s.pc = .readUser t) (ho : s.other = true) (hm : s.mine = 0) (hu : s.user < t) (hr : fits (t - s.user) = true) (hn : 0 ≤ s.now)
    (hr' : fits (s.now + interval) = true) :
    ∃ s' ts, run (step { sys := .posix asr, recursive := rec }) s [.go, .go, .go] = some (s', []) ∧ s'.pc = .asleep (some ts) (.loop t) ∧ ts ≤ s.now + interval ∧ ts ≤ s.now + (t - s.user) := by
  obtain ⟨pc, now, user, mine, other⟩ := s
  simp only at h ho hm hu hr hn hr'; subst h ho hm
  have h1 : ¬ (t - user ≤ 0) := by omega
  have h2 : fits (now + min (t - user) interval) = true := by
    rw [fits_iff] at hr' ⊢; simp only [interval] at *; omega
  have h3 : validTs (now + min (t - user) interval) = true := validTs_of_nonneg (by simp only [interval]; omega)
  refine ⟨{ pc := .asleep (some (now + min (t - user) interval)) (.loop t), now := now, user := user, mine := 0, other := true }, now + min (t - user) interval, ?_, rfl, by simp only; omega, by simp only; omega⟩
  simp [run, step, go, hr, h1, goto, h2, h3, State.locked]

/-- **C70 (progress, Windows).** The same; -/
theorem windows_clock_is_polled {rec : Bool} {s : State} {t : Int} (h : s.pc = .winRead (.winUser t)) (hu : s.user < t) (hr : fits (t - s.user) = true) :
    ∃ s' ts, run (step { sys := .windows, recursive := rec }) s [.go, .go] = some (s', []) ∧ s'.pc = .asleep (some ts) (.winUser t) ∧ ts ≤ s.now + interval ∧ ts < s.now + (t - s.user) + 1000000 := by
  obtain ⟨pc, now, user, mine, other⟩ := s
  simp only at h hu hr; subst h
  have h1 : ¬ (t - user ≤ 0) := by omega
  have hg : getMs (min (t - user) interval) = (min (t - user) interval + 999999) / 1000000 := by
    simp only [getMs, interval]; omega
  have hne : ¬ getMs (min (t - user) interval) = 4294967295 := by rw [hg]; simp only [interval]; omega
  refine ⟨{ pc := .asleep (some (now + getMs (min (t - user) interval) * 1000000)) (.winUser t), now := now, user := user, mine := mine, other := other },
    now + getMs (min (t - user) interval) * 1000000, ?_, rfl, ?_, ?_⟩
  · simp [run, step, go, hr, h1, goto, Kont.left, hne]
  · rw [hg]; simp only [interval]; omega
  · rw [hg]; simp only [interval]; omega

/-- and an attempt with a time of the steady clock that is less than 4294967295 ms (49.7 days) away sleeps until then, rounded up to the next millisecond. -/
theorem windows_sleeps_until_the_time {rec : Bool} {s : State} {t : Int} (h : s.pc = .winRead (.winSteady t)) (hu : s.now < t) (hd : t - s.now ≤ 4294967294 * 1000000) :
    ∃ s' ts, run (step { sys := .windows, recursive := rec }) s [.go, .go] = some (s', []) ∧ s'.pc = .asleep (some ts) (.winSteady t) ∧ t ≤ ts ∧ ts < t + 1000000 := by
  obtain ⟨pc, now, user, mine, other⟩ := s
  simp only at h hu hd; subst h
  have h1 : ¬ (t - now ≤ 0) := by omega
  have hr : fits (t - now) = true := by rw [fits_iff]; omega
  have hg : getMs (t - now) = (t - now + 999999) / 1000000 := by simp only [getMs]; omega
  have hne : ¬ getMs (t - now) = 4294967295 := by rw [hg]; omega
  refine ⟨{ pc := .asleep (some (now + getMs (t - now) * 1000000)) (.winSteady t), now := now, user := user, mine := mine, other := other }, now + getMs (t - now) * 1000000, ?_, rfl, ?_, ?_⟩
  · simp [run, step, go, hr, h1, goto, Kont.left, hne]
  · rw [hg]; omega
  · rw [hg]; omega

/-- **C70.** A free mutex is locked at once, even if the time has passed long ago; so is a recursive mutex which the thread has. -/
theorem free_mutex_is_locked {c : Cfg} {s : State} {a : Call} (h : s.pc = .idle) (hw : c.sys = .windows → a ≠ .forever)
    (hl : s.locked = false ∨ (s.mine ≠ 0 ∧ c.recursive = true)) (hf1 : ∀ d, a = .for_ d → fits (s.now + d) = true)
    (hf2 : ∀ t, a = .until_ false t → c.sys ≠ .windows → fits (t - s.user) = true ∧ fits (s.now + min (t - s.user) interval) = true) :
    ∃ n s', run (step c) s (.call a :: List.replicate n .go) = some (s', [.called a, .returned (.val true)]) ∧ s'.mine = s.mine + 1 := by
  obtain ⟨pc, now, user, mine, other⟩ := s
  obtain ⟨sys, rec⟩ := c
  simp only at h hf1 hf2 hw hl; subst h
  have hl' : ∀ p, ¬ (mine ≠ 0 ∧ rec = true) → State.locked { pc := p, now := now, user := user, mine := mine, other := other } = false := fun _ hx => hl.resolve_right hx
  have ent : ∀ ts k, go { sys := sys, recursive := rec } { pc := .enter ts k, now := now, user := user, mine := mine, other := other } =
      some ({ pc := .idle, now := now, user := user, mine := mine + 1, other := other }, [.returned (.val true)]) := by
    intro ts k
    by_cases hx : mine ≠ 0 ∧ rec = true
    · simp only [go, if_pos hx, take]
    · simp only [go, if_neg hx, hl' _ hx, Bool.false_eq_true, if_false, take]
  have wtr : ∀ k, go { sys := sys, recursive := rec } { pc := .winTry k, now := now, user := user, mine := mine, other := other } =
      some ({ pc := .idle, now := now, user := user, mine := mine + 1, other := other }, [.returned (.val true)]) := by
    intro k
    by_cases hx : mine ≠ 0 ∧ rec = true
    · simp only [go]; rw [if_pos (.inl hx)]; rfl
    · simp only [go]; rw [if_pos (.inr (hl' _ hx))]; rfl
  have beg : ∀ b, go { sys := sys, recursive := rec } { pc := .begin b, now := now, user := user, mine := mine, other := other } = start { sys := sys, recursive := rec } { pc := .begin b, now := now, user := user, mine := mine, other := other } b := fun _ => rfl
  have add : ∀ d k, fits (now + d) = true → go { sys := sys, recursive := rec } { pc := .addNow d k, now := now, user := user, mine := mine, other := other } =
      some ({ pc := .enter (some (now + d)) k, now := now, user := user, mine := mine, other := other }, []) := by
    intro d k hf; simp only [go, hf, if_true, goto]
  cases sys with
  | posix asr =>
    cases a with
    | until_ st t =>
      cases st with
      | true => exact ⟨2, { pc := .idle, now := now, user := user, mine := mine + 1, other := other }, by simp [run, step, beg, start, goto, ent, List.replicate], rfl⟩
      | false =>
        obtain ⟨f1, f2⟩ := hf2 t rfl (by simp)
        exact ⟨3, { pc := .idle, now := now, user := user, mine := mine + 1, other := other }, by simp [run, step, beg, start, goto, ent, List.replicate, f1, add _ _ f2], rfl⟩
    | for_ d => exact ⟨2, { pc := .idle, now := now, user := user, mine := mine + 1, other := other }, by simp [run, step, beg, start, goto, ent, List.replicate, hf1 d rfl], rfl⟩
    | forever => exact ⟨2, { pc := .idle, now := now, user := user, mine := mine + 1, other := other }, by simp [run, step, beg, start, goto, ent, List.replicate], rfl⟩
  | windows =>
    cases a with
    | until_ st t => cases st <;> exact ⟨2, { pc := .idle, now := now, user := user, mine := mine + 1, other := other }, by simp [run, step, beg, start, goto, wtr, List.replicate], rfl⟩
    | for_ d => exact ⟨2, { pc := .idle, now := now, user := user, mine := mine + 1, other := other }, by simp [run, step, beg, start, goto, wtr, List.replicate, hf1 d rfl], rfl⟩
    | forever => exact absurd rfl (hw rfl)

example : (run (step posix) (init 50 60) [.call (.until_ false 3), .go, .go, .go]).map Prod.snd = some [.called (.until_ false 3), .returned (.val true)] := by decide

/-- The points of the functions of the Windows implementation. -/
def winPc : PC → Bool
  | .idle | .begin _ => true
  | .asleep _ k | .winTry k | .winRead k | .winWait _ k => k.isWin
  | _ => false

/-- **C70 on Windows.** No call aborts, however far in the past its time lies. -/
theorem windows_never_aborts {rec : Bool} {now user : Int} {ls : List Label} {s : State} {es : List Event}
    (h : run (step { sys := .windows, recursive := rec }) (init now user) ls = some (s, es)) : Event.returned .aborted ∉ es ∧ s.pc ≠ .spin := by
  have := run_inv_hist (fun s h => Event.returned .aborted ∉ h ∧ winPc s.pc = true) (hist := []) (fun s l s' h es hi hs => ?_) ⟨by simp, rfl⟩ h
  · refine ⟨by simpa using this.1, ?_⟩
    intro hp
    have := this.2
    rw [hp] at this
    cases this
  · obtain ⟨i1, i2⟩ := hi
    have key : Event.returned .aborted ∉ es ∧ winPc s'.pc = true := by
      obtain ⟨pc, now, user, mine, other⟩ := s
      simp only at i2
      cases l with
      | go =>
        simp only [step] at hs
        cases pc <;> simp only [winPc, Bool.false_eq_true] at i2 <;> simp only [go, start, goto, ret, take] at hs <;> (repeat' split at hs) <;> cases hs <;> simp_all [winPc, Kont.isWin]
      | _ => simp only [step, goto] at hs <;> (repeat' split at hs) <;> cases hs <;> simp_all [winPc]
    exact ⟨by simp [i1, key.1], key.2⟩

/-- **C70, disagreement (POSIX, without assertions).** `try_lock_until` (or `timed_lock`) with a time of the system clock from before the machine was booted, such as the epoch, does not return false when
another thread has the mutex: `pthread_cond_timedwait` refuses the negative time, and the loop around it tries again for ever, holding the internal mutex. Here the machine has been up for 10 s and the
attempt is until 20 s ago. -/
theorem past_time_hangs :
    ∃ s, run (step posix) (init 10000000001 1700000000000000000) [.otherLock, .call (.until_ false 1699999980000000000), .go, .go, .go] =
      some (s, [.otherLocked, .called (.until_ false 1699999980000000000)]) ∧ s.pc = .spin ∧ s.other = true := ⟨_, rfl, rfl, rfl⟩

/-- From then on nothing happens at all, except that time passes: the call does not return, and the owner cannot unlock the mutex, since it needs the internal mutex for that. -/
theorem hang_is_for_ever {c : Cfg} {s s' : State} {ls : List Label} {es : List Event} (h : s.pc = .spin) (hr : run (step c) s ls = some (s', es)) :
    s'.pc = .spin ∧ s'.other = s.other ∧ ∀ e ∈ es, ∃ n u, e = .clock n u := by
  have := run_inv_hist (fun x h => x.pc = .spin ∧ x.other = s.other ∧ ∀ e ∈ h, ∃ n u, e = Event.clock n u) (hist := []) (fun s l s' h es hi hs => ?_) ⟨h, rfl, by simp⟩ hr
  · simpa using this
  · obtain ⟨i1, i2, i3⟩ := hi
    cases l <;> simp only [step, go, i1] at hs <;> (repeat' split at hs) <;> simp_all
    obtain ⟨rfl, rfl⟩ := hs
    refine ⟨rfl, rfl, ?_⟩
    intro e he
    rcases he with he | he
    · exact i3 e he
    · exact ⟨_, _, by simpa using he⟩

/-- **C70, disagreement (POSIX, with assertions).** The same call aborts the program. -/
theorem past_time_aborts :
    ∃ s es, run (step { posix with sys := .posix true }) (init 10000000001 1700000000000000000) [.otherLock, .call (.until_ false 1699999980000000000), .go, .go, .go] = some (s, es) ∧
      es = [.otherLocked, .called (.until_ false 1699999980000000000), .returned .aborted] ∧ ¬ Accepts (next true { posix with sys := .posix true }) (specInit 10000000001 1700000000000000000) es :=
  ⟨_, _, rfl, rfl, by decide⟩

/-- On Windows the same call returns false. -/
theorem windows_past_time_returns :
    ∃ s, run (step win) (init 10000000001 1700000000000000000) [.otherLock, .call (.until_ false 1699999980000000000), .go, .go, .go] =
      some (s, [.otherLocked, .called (.until_ false 1699999980000000000), .returned (.val false)]) := ⟨_, rfl⟩

/-- **C70, disagreement.** `try_lock_for` with the largest duration adds it to the current time, which overflows. -/
theorem lock_for_max_overflows (rec : Bool) (sys : Sys) :
    ∃ s es, run (step { sys, recursive := rec }) (init 1 1) [.call (.for_ 9223372036854775807), .go] = some (s, es) ∧ es = [.called (.for_ 9223372036854775807), .returned .overflow] ∧
      ¬ Accepts (next true { sys, recursive := rec }) (specInit 1 1) es := by
  cases sys with
  | posix asr => cases asr <;> cases rec <;> exact ⟨_, _, rfl, rfl, by decide⟩
  | windows => cases rec <;> exact ⟨_, _, rfl, rfl, by decide⟩

/-- **C70, disagreement (Windows).** When exactly 4294967295 ms (49.7 days) remain, this number is passed to the wait, to which it means "for ever": the attempt does not time out. -/
theorem windows_waits_for_ever :
    ∃ s, run (step win) (init 0 0) [.otherLock, .call (.for_ 4294967295000000), .go, .go, .go, .go] = some (s, [.otherLocked, .called (.for_ 4294967295000000)]) ∧
      s.pc = .asleep none (.winSteady 4294967295000000) ∧ ∀ n u s' es, run (step win) s [.tick n u, .expire] ≠ some (s', es) := by
  refine ⟨{ pc := .asleep none (.winSteady 4294967295000000), now := 0, user := 0, mine := 0, other := true }, rfl, rfl, ?_⟩
  intro n u s' es h
  simp [run, step] at h

end Verif.TimedLock
