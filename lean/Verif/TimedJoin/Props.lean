import Verif.TimedJoin.Sim
/-!
# C77: a timed join gives up only when its time has come, and then it does
-/

set_option linter.unusedSimpArgs false

namespace Verif.TimedJoin

variable {c : Sys} {s s' : State}

/-- **C77.** However the clocks run and are set, whatever the thread that is joined, other joining threads and interruption do: a join returns true only when the thread has ended altogether, and false only
when the time of the call has come and the thread had not ended when the call began; it throws `thread_interrupted` only when that was asked for; `join()` never gives up. On POSIX and on Windows.

Missing from the full statement (`next true`): a call with times that are negative or do not fit in 64 bits may throw `condition_error` or have undefined behaviour; `next false` allows exactly this. -/
theorem timed_joins_conform_partial {now user : Int} {ls : List Label} {es : List Event} (h0 : 0 ≤ now) (h : run (step c) (init now user) ls = some (s, es)) :
    Accepts (next false c) (specInit now user) es :=
  simulation (s := init now user) (R c) (fun _ _ _ _ _ hR hs => sim hR hs)
    { now := rfl, user := rfl, ended := rfl, gone := rfl, asked := rfl, pos := h0, beg := Int.le_refl _, hi := Int.le_refl _, lo := Int.le_refl _, posix := fun _ h => (by cases h), win := fun _ h => (by cases h),
      joined := fun h => (by cases h), ok := rfl } h

def failed : Event → Bool
  | .returned .overflow => true
  | .returned .threw => true
  | _ => false

theorem accepts_strict {q : Spec} {es : List Event} (hf : es.all (fun e => !failed e) = true) (h : Accepts (next false c) q es) : Accepts (next true c) q es := by
  induction es generalizing q with
  | nil => trivial
  | cons e es ih =>
    simp only [List.all_cons, Bool.and_eq_true] at hf
    have he : next true c q e = next false c q e := by
      cases e with
      | returned r => cases r with
        | val b => cases b <;> rfl
        | interrupted => rfl
        | _ => simp [failed] at hf
      | _ => rfl
    simp only [Accepts] at h ⊢
    rw [he]
    cases hn : next false c q e with
    | ok q' => simp only [hn] at h ⊢; exact ih hf.2 h
    | undefined => trivial
    | illegal => simp [hn] at h

/-- **C77.** The full statement for every history in which no call fails otherwise. -/
theorem timed_joins_conform_if_no_failure {now user : Int} {ls : List Label} {es : List Event} (h0 : 0 ≤ now) (h : run (step c) (init now user) ls = some (s, es))
    (hf : es.all (fun e => !failed e) = true) : Accepts (next true c) (specInit now user) es :=
  accepts_strict hf (timed_joins_conform_partial h0 h)

/-- Joins for 10 ns, in vain; until time 1000 of a clock that is adjusted, in vain; without limit, interrupted; the thread ends; a join until a time long past succeeds. -/
def demo : List Label :=
  [.call (.for_ 10), .go, .go, .tick 3 70, .wake, .go, .tick 7 70, .expire, .go, .call (.until_ false 1000), .go, .go, .go, .tick 930 300, .expire, .go, .go, .go, .go, .tick 700 1000, .expire, .go, .go,
   .call .join, .go, .go, .ask, .notice, .finish, .vanish, .call (.until_ true 5), .go, .go, .go]

example : (run (step .posix) (init 50 60) demo).map (·.2) = some
    [.called (.for_ 10), .clock 53 70, .clock 60 70, .returned (.val false), .called (.until_ false 1000), .clock 990 300, .clock 1690 1000, .returned (.val false), .called .join, .asked,
     .returned .interrupted, .ended, .gone, .called (.until_ true 5), .returned (.val true)] := by decide +kernel

def demoWin : List Label :=
  [.call (.for_ 10), .go, .go, .tick 10 70, .expire, .call (.until_ false 1000), .go, .go, .go, .tick 930 300, .expire, .go, .go, .go, .tick 700 1000, .expire, .go,
   .call .join, .go, .go, .ask, .notice, .finish, .vanish, .call (.until_ true 5), .go, .go, .wake]

example : (run (step .windows) (init 50 60) demoWin).map (·.2) = some
    [.called (.for_ 10), .clock 60 70, .returned (.val false), .called (.until_ false 1000), .clock 990 300, .clock 1690 1000, .returned (.val false), .called .join, .asked,
     .returned .interrupted, .ended, .gone, .called (.until_ true 5), .returned (.val true)] := by decide +kernel

/-- The specification is not trivial: a success while the thread is still at its destructors, failures before the time, a failure to join a thread that has ended, an interruption nobody asked for. -/
example : ¬ Accepts (next false .posix) (specInit 50 60) [.called .join, .ended, .returned (.val true)] := by decide +kernel
example : ¬ Accepts (next false .posix) (specInit 50 60) [.called (.for_ 10), .clock 59 90, .returned (.val false)] := by decide +kernel
example : ¬ Accepts (next false .windows) (specInit 50 60) [.called (.until_ false 100), .clock 590 99, .returned (.val false)] := by decide +kernel
example : ¬ Accepts (next false .posix) (specInit 50 60) [.ended, .called (.for_ 10), .clock 61 90, .returned (.val false)] := by decide +kernel
example : ¬ Accepts (next false .windows) (specInit 50 60) [.ended, .gone, .called (.for_ 10), .clock 61 90, .returned (.val false)] := by decide +kernel
example : ¬ Accepts (next false .posix) (specInit 50 60) [.called .join, .clock 61000 90000, .returned (.val false)] := by decide +kernel
example : ¬ Accepts (next false .posix) (specInit 50 60) [.asked, .called .join, .returned .interrupted, .called .join, .returned .interrupted] := by decide +kernel

/-! ## Progress -/

/-- **C77 (progress).** A thread that has ended is joined by every call, whatever its time, without waiting, if nobody else has joined it: on POSIX. (Time points of another clock than the steady one must be such
that the differences fit in 64 bits.) -/
theorem ended_is_joined (hp : s.pc = .idle) (hov : s.over = false) (hd : s.done = true) (hg : s.gone = true) (hst : s.started = false) {a : Call}
    (hx : match a with | .until_ true _ | .join => True | .until_ false t => fits (t - s.user) = true ∧ fits (s.now + min (t - s.user) interval) = true | .for_ d => fits (s.now + d) = true) :
    ∃ n s', run (step .posix) s (.call a :: List.replicate n .go) = some (s', [.called a, .returned (.val true)]) := by
  obtain ⟨pc, now, user, done', gone, started, joined, asked, over⟩ := s
  simp only at hp hov hd hg hst
  subst hp hov hd hg hst
  cases a with
  | until_ st t =>
    cases st with
    | true => exact ⟨3, _, by simp [run, step, go, start, goto, claim, List.replicate]; rfl⟩
    | false => exact ⟨4, _, by simp [run, step, go, start, goto, claim, List.replicate, hx.1, hx.2]; rfl⟩
  | for_ d => exact ⟨3, _, by simp [run, step, go, start, goto, claim, List.replicate, show fits (now + d) = true from hx]; rfl⟩
  | join => exact ⟨3, _, by simp [run, step, go, start, goto, claim, List.replicate]; rfl⟩

/-- **C77 (progress).** A sleeping join that is woken after the end of the thread returns true. -/
theorem woken_after_end {ts : Option Int} {k : Kont} (hp : s.pc = .asleep ts k) (hd : s.done = true) (hg : s.gone = true) (hst : s.started = false) :
    ∃ n s', run (step c) s (.wake :: List.replicate n .go) = some (s', [.returned (.val true)]) := by
  obtain ⟨pc, now, user, done', gone, started, joined, asked, over⟩ := s
  simp only at hp hd hg hst
  subst hp hd hg hst
  cases c with
  | posix => exact ⟨2, _, by simp [run, step, go, goto, claim, List.replicate]; rfl⟩
  | windows => exact ⟨0, _, by simp [run, step, done, List.replicate]; rfl⟩

/-- The time of the call has come, by the clock that counts. -/
def timeHasCome (s : State) : Kont → Prop
  | .report => True
  | .loop t => t ≤ s.user ∧ fits (t - s.user) = true

/-- **C77 (progress).** A join whose wait has timed out, and whose time has come, returns false if the thread has not ended, without anybody's help. -/
theorem returns_when_time_has_come {ts : Int} {k : Kont} (hp : s.pc = .asleep (some ts) k) (hle : ts ≤ s.now) (ht : timeHasCome s k) (hd : s.done = false) (hg : s.gone = false) :
    ∃ n s', run (step c) s (.expire :: List.replicate n .go) = some (s', [.returned (.val false)]) := by
  obtain ⟨pc, now, user, done', gone, started, joined, asked, over⟩ := s
  simp only at hp hd hg hle
  subst hp hd hg
  cases k with
  | report =>
    cases c with
    | posix => exact ⟨1, _, by simp [run, step, go, goto, hle, fail, ret, List.replicate]; rfl⟩
    | windows => exact ⟨0, _, by simp [run, step, go, goto, hle, fail, ret, List.replicate]; rfl⟩
  | loop t =>
    have h1 : t - user ≤ 0 := by have := ht.1; simp only at this; omega
    have h2 : fits (t - user) = true := ht.2
    cases c with
    | posix => exact ⟨2, _, by simp [run, step, go, goto, hle, fail, ret, List.replicate, h1, h2]; rfl⟩
    | windows => exact ⟨1, _, by simp [run, step, go, goto, hle, fail, ret, List.replicate, h1, h2]; rfl⟩

/-- **C77 (progress).** An attempt with a time of the steady clock, while the thread runs, sleeps until exactly this time. -/
theorem sleeps_until_the_time {t : Int} (hp : s.pc = .idle) (hov : s.over = false) (hd : s.done = false) (ht : 0 ≤ t) (hm : t < maxTime) (hn : 0 ≤ s.now) (hn2 : s.now ≤ maxTime) :
    ∃ s', run (step c) s [.call (.until_ true t), .go, .go] = some (s', [.called (.until_ true t)]) ∧ s'.pc = .asleep (some t) .report := by
  obtain ⟨pc, now, user, done', gone, started, joined, asked, over⟩ := s
  simp only at hp hov hd hn hn2
  subst hp hov hd
  simp only [maxTime] at hm hn2
  have h1 : validTs t = true := validTs_of_nonneg ht
  have h2 : fits (t - now) = true := by rw [fits_iff]; omega
  have h3 : t ≠ maxTime := by simp only [maxTime]; omega
  cases c with
  | posix => exact ⟨_, by simp [run, step, go, start, goto, h1]; rfl, rfl⟩
  | windows => exact ⟨_, by simp [run, step, go, start, goto, h2, h3]; rfl, rfl⟩

/-- **C77 (progress).** An attempt with a time of another clock looks at that clock at least every 100 ms. -/
theorem clock_is_polled {t : Int} (hp : s.pc = .readUser t) (hu : s.user < t) (hr : fits (t - s.user) = true) (hd : s.done = false) (hn : 0 ≤ s.now) (hn2 : s.now + interval < maxTime) :
    ∃ s' ts, run (step c) s [.go, .go, .go] = some (s', []) ∧ s'.pc = .asleep (some ts) (.loop t) ∧ ts ≤ s.now + interval := by
  obtain ⟨pc, now, user, done', gone, started, joined, asked, over⟩ := s
  simp only at hp hu hr hd hn hn2
  subst hp hd
  simp only [maxTime, interval] at hn2
  have h0 : ¬ t - user ≤ 0 := by omega
  have h1 : fits (now + min (t - user) interval) = true := by rw [fits_iff]; simp only [interval]; omega
  have h2 : validTs (now + min (t - user) interval) = true := validTs_of_nonneg (by simp only [interval]; omega)
  have h3 : fits (now + min (t - user) interval - now) = true := by rw [fits_iff]; simp only [interval]; omega
  have h4 : now + min (t - user) interval ≠ maxTime := by simp only [interval, maxTime]; omega
  have h5 : now + min (t - user) interval ≤ now + interval := by simp only [interval]; omega
  cases c with
  | posix => exact ⟨_, _, by simp only [run, step, go, goto, hr, h0, h1, h2, if_true, if_false]; rfl, rfl, h5⟩
  | windows => exact ⟨_, _, by simp only [run, step, go, goto, hr, h0, h1, h3, h4, if_true, if_false]; rfl, rfl, h5⟩

/-! Reachable states like these. -/
example : ((run (step .posix) (init 50 60) (demo.take 3)).map fun r => r.1.pc) = some (.asleep (some 60) .report) := by decide +kernel
example : ((run (step .posix) (init 50 60) (demo.take 16)).map fun r => (r.1.pc, r.1.user)) = some (.readUser 1000, 300) := by decide +kernel
example : ((run (step .windows) (init 50 60) (demoWin.take 11)).map fun r => (r.1.pc, r.1.user)) = some (.readUser 1000, 300) := by decide +kernel
example : ((run (step .posix) (init 50 60) [.call .join, .go, .go, .finish, .vanish]).map fun r => (r.1.pc, r.1.done, r.1.gone, r.1.started)) = some (.asleep none .report, true, true, false) := by decide +kernel

/-! ## What is false -/

/-- POSIX: the time of the call is in the past, seen from the clock by more than the machine has been running: the join throws `condition_error`. -/
theorem past_time_throws : ∃ ls s, run (step .posix) (init 50 60) ls = some (s, [.called (.for_ (-100)), .returned .threw]) ∧ ¬ Accepts (next true .posix) (specInit 50 60) [.called (.for_ (-100)), .returned .threw] :=
  ⟨[.call (.for_ (-100)), .go, .go], _, rfl, by decide +kernel⟩

/-- Windows never throws for that reason. -/
theorem windows_past_time_returns {t : Int} (hp : s.pc = .idle) (hov : s.over = false) (hg : s.gone = false) (ht : t ≤ s.now) (hf : fits (t - s.now) = true) (hm : t ≠ maxTime) :
    ∃ s', run (step .windows) s [.call (.until_ true t), .go, .go, .expire] = some (s', [.called (.until_ true t), .returned (.val false)]) := by
  obtain ⟨pc, now, user, done', gone, started, joined, asked, over⟩ := s
  simp only at hp hov hg ht hf
  subst hp hov hg
  exact ⟨_, by simp [run, step, go, start, goto, hf, hm, ht, fail, ret]; rfl⟩

theorem windows_never_throws {l : Label} {es : List Event} (h : step .windows s l = some (s', es)) : Event.returned .threw ∉ es := by
  have hret : ∀ {r : Ret}, r ≠ .threw → ret s r = some (s', es) → Event.returned .threw ∉ es := fun hr h => by
    cases h; simp only [List.mem_singleton, Event.returned.injEq]; exact fun hx => hr hx.symm
  have hgoto : ∀ {p : PC}, goto s p = some (s', es) → Event.returned .threw ∉ es := fun h => by cases h; simp
  have hdone : done s = some (s', es) → Event.returned .threw ∉ es := fun h => by cases h; simp
  cases l <;> simp only [step, go, start, fail, claim] at h <;> (repeat' split at h) <;>
    first
      | exact hgoto h
      | exact hret (by decide) h
      | exact hdone h
      | (cases h; done)
      | (cases h; simp; done)

/-- `try_join_for` with the largest duration overflows. -/
theorem join_for_max_overflows : ∃ ls s, run (step c) (init 50 60) ls = some (s, [.called (.for_ 9223372036854775807), .returned .overflow]) :=
  ⟨[.call (.for_ 9223372036854775807), .go], _, rfl⟩

/-- POSIX: the function of the thread has returned, but the thread is still busy with the destructors of its `thread_local` variables. However much time passes, and whether or not somebody asks for
interruption: the timed join does not return before it has ended altogether, and so it is with the joins of other threads meanwhile. -/
theorem held_up {ls : List Label} {es : List Event} (hp : s.pc = .joining ∨ s.pc = .waitJoined ∧ s.started = true ∧ s.asked = false) (hg : s.gone = false) (hj : s.joined = false)
    (hl : ∀ l ∈ ls, l ≠ .vanish ∧ (l = .ask → s.pc = .joining)) (h : run (step .posix) s ls = some (s', es)) : ∀ r, Event.returned r ∉ es := by
  induction ls generalizing s es with
  | nil => cases h; simp
  | cons l ls ih =>
    obtain ⟨m, e1, e2, h1, h2, rfl⟩ := run_cons h
    have hl1 := hl l List.mem_cons_self
    have key : (m.pc = s.pc ∧ m.gone = false ∧ m.joined = false ∧ (s.started = true → m.started = true) ∧ (s.pc ≠ .joining → m.asked = s.asked)) ∧ ∀ r, Event.returned r ∉ e1 := by
      cases l with
      | call a => rcases hp with hp | hp <;> simp [step, hp] at h1
      | go => rcases hp with hp | hp <;> simp [step, go, hp, hg, hj] at h1
      | tick dn u => cases h1; exact ⟨⟨rfl, hg, hj, id, fun _ => rfl⟩, by simp⟩
      | finish => simp only [step] at h1; split at h1 <;> cases h1; exact ⟨⟨rfl, hg, hj, id, fun _ => rfl⟩, by simp⟩
      | vanish => exact absurd rfl hl1.1
      | wake => rcases hp with hp | hp <;> simp [step, hp] at h1
      | expire => rcases hp with hp | hp <;> simp [step, hp] at h1
      | ask => cases h1; exact ⟨⟨rfl, hg, hj, id, fun hx => absurd (hl1.2 rfl) hx⟩, by simp⟩
      | notice => rcases hp with hp | hp <;> simp [step, hp] at h1
      | otherStart => simp only [step] at h1; split at h1 <;> cases h1; exact ⟨⟨rfl, hg, hj, fun _ => rfl, fun _ => rfl⟩, by simp⟩
      | otherJoined => simp [step, hg] at h1
    obtain ⟨⟨k1, k2, k3, k4, k5⟩, k6⟩ := key
    have hp' : m.pc = .joining ∨ m.pc = .waitJoined ∧ m.started = true ∧ m.asked = false := by
      rcases hp with hp | ⟨hp, hst, ha⟩
      · exact .inl (k1.trans hp)
      · exact .inr ⟨k1.trans hp, k4 hst, (k5 (by rw [hp]; decide)).trans ha⟩
    have ih' := ih hp' k2 k3 (fun l' hl' => ⟨(hl l' (List.mem_cons_of_mem _ hl')).1, fun hx => k1.trans ((hl l' (List.mem_cons_of_mem _ hl')).2 hx)⟩) h2
    intro r hr
    rcases List.mem_append.mp hr with hr | hr
    · exact k6 r hr
    · exact ih' r hr

/-- A join for 10 ns that is held up so, for any time. -/
theorem timed_join_is_held_up (n : Nat) : ∃ s, run (step .posix) (init 50 60) [.call (.for_ 10), .go, .finish, .go, .tick n 70] = some (s, [.called (.for_ 10), .ended, .clock (50 + n) 70]) ∧
    s.pc = .joining ∧ s.gone = false ∧ s.joined = false :=
  ⟨_, rfl, rfl, rfl, rfl⟩

end Verif.TimedJoin
