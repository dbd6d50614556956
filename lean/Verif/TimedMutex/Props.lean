import Verif.TimedMutex.Lemmas
/-! # Properties C01, C02 and C04: `boost::timed_mutex` -/

namespace Verif.TimedMutex

/-- **C01.** Every history of a `timed_mutex` shared by any number of threads, under any schedule, with any
spurious wake-ups and time-outs, is a history of the abstract mutex of `Spec.lean`: a call reports
success only when nobody holds the mutex, `try_lock` fails only when somebody does. (Calls of `timed_lock`
with not-a-date-time or minus infinity are excluded here and treated in C04.) -/
theorem mutual_exclusion (n : Nat) (ls : List Label) (s : State) (es : List Event)
    (hls : ∀ l ∈ ls, l.isSpecialDuration = false)
    (h : run step (init n) ls = some (s, es)) : Accepts specNext none es :=
  simulation_on (fun l => l.isSpecialDuration = false) R (fun _ _ _ _ _ hp hR hs => step_sim hp hR hs)
    hls (by simp [R, init]) h

/-- A schedule with blocking, a time-out, polling and hand-over. -/
def demo : List Label :=
  [.lock 0, .timedLock 1, .lock 2, .tryLock 3, .timeout 1, .resume 1 true, .unlock 0 (some 2), .poll 1 true,
   .resume 2 false, .unlock 2 none, .tryLock 3]

example : (run step (init 4) demo).map Prod.snd =
    some [.locked 0, .tryLocked 3 false, .unlocked 0, .timedLocked 1 false, .locked 2, .unlocked 2,
      .tryLocked 3 true] := by decide
example : ∀ l ∈ demo, l.isSpecialDuration = false := by decide

/-- **C01, what a call may return.** From any state, whatever the other threads do, the first thing a thread reports after it has called `lock()` is that it has the mutex; `lock()` never gives
up, nor does `timed_lock` with plus infinity; a timed call returns true or false. -/
theorem call_returns (s s' : State) (l : Label) (ls : List Label) (es : List Event) (t : Nat) (k : Kind) (hl : l.call = some (t, k))
    (h : run step s (l :: ls) = some (s', es)) : ∀ e rest, es.filter (·.thread == t) = e :: rest → k.MayReturn t e := by
  intro e rest he
  simp only [run] at h
  split at h
  · cases h
  split at h <;> cases h
  rename_i s1 es1 hs1 _ es2 hs2
  have key : (∃ p, es1 = [] ∧ s1.ts[t]? = some p ∧ Inside k p) ∨ es1 = [k.acquired t] := by
    cases l with
    | timedLockRel u d =>
      cases d <;> simp only [Label.call, reduceCtorEq, Option.some.injEq, Prod.mk.injEq] at hl
      all_goals
        obtain ⟨rfl, rfl⟩ := hl
        simp [step, acquireOrSleep, TimedMutex.RelTime.isPosInfinity, TimedMutex.RelTime.isSpecial] at hs1
        repeat' split at hs1
        all_goals cases hs1
        all_goals first
          | exact .inr rfl
          | exact .inl ⟨_, rfl, List.getElem?_set_self (by grind), .inl rfl⟩
    | lock u | timedLock u =>
      simp only [Label.call, Option.some.injEq, Prod.mk.injEq] at hl
      obtain ⟨rfl, rfl⟩ := hl
      simp only [step, acquireOrSleep] at hs1
      repeat' split at hs1
      all_goals cases hs1
      all_goals first
        | exact .inr rfl
        | exact .inl ⟨_, rfl, List.getElem?_set_self (by grind), .inl rfl⟩
    | _ => cases hl
  rcases key with ⟨p, rfl, hp, hi⟩ | rfl
  · exact inside_run hp hi hs2 e rest he
  · rw [List.filter_append] at he
    cases k <;> simp [Kind.acquired, Event.thread] at he <;> simp [Kind.MayReturn, ← he.1]

/-- Thread 1 waits in `lock()`, is woken for nothing, and gets the mutex in the end; thread 2 gives up. -/
example : ∃ s es, run step (init 3) (.lock 0 :: [.lock 1, .timedLock 2, .spurious 1, .resume 1 false, .timeout 2, .resume 2 false, .unlock 0 (some 1), .resume 1 false]) = some (s, es) ∧
    es.filter (·.thread == 1) = [.locked 1] ∧ es.filter (·.thread == 2) = [.timedLocked 2 false] := ⟨_, _, rfl, by decide, by decide⟩

/-- **C02.** Whenever nobody holds the mutex (as told by the history) and some thread is asleep in a locking call,
there is a thread that is already awake and whose very next step takes the mutex. -/
theorem no_lost_wakeup (n : Nat) (ls : List Label) (s : State) (es : List Event) (t : Nat)
    (hls : ∀ l ∈ ls, l.isSpecialDuration = false)
    (h : run step (init n) ls = some (s, es)) (hfree : specState specNext none es = some none)
    (ht : Asleep s t) :
    ∃ u e s', step s (.resume u false) = some (s', [e]) ∧ specNext none e = .ok (some u) := by
  have hR : R s none :=
    simulation_state_on (fun l => l.isSpecialDuration = false) R
      (fun _ _ _ _ _ hp hR hs => step_sim hp hR hs) hls (by simp [R, init]) h hfree
  have hW : WakeInv s :=
    run_inv WakeInv (fun _ _ _ _ hi hs => step_wake hi hs)
      (by intro _ hc; simp [init, cnt_replicate, PC.isAsleep] at hc) h
  simp only [R, Option.isSome_none] at hR
  obtain ⟨k, hk⟩ := ht
  obtain ⟨u, p, hu, hp⟩ := exists_of_cnt_pos (hW hR (cnt_pos hk rfl))
  cases p with
  | woken k' => exact ⟨u, k'.acquired u, _, by simp [step, hu, acquireOrSleep, hR]; rfl, by cases k' <;> rfl⟩
  | expired => exact ⟨u, .timedLocked u true, _, by simp [step, hu, hR]; rfl, rfl⟩
  | idle => cases hp
  | asleep k' => cases hp
  | polling => cases hp

/-- Non-vacuity: three sleepers, the signal was consumed by the one whose time-out had just fired. -/
example : ∃ s es, run step (init 4) [.lock 0, .timedLock 1, .lock 2, .lock 3, .timeout 1, .unlock 0 (some 1)]
      = some (s, es) ∧ specState specNext none es = some none ∧ Asleep s 2 :=
  ⟨_, _, rfl, by decide, .lock, by decide⟩

/-- **C04, negation.** The property "whenever `timed_lock(duration)` returns true the caller owns the mutex" is false of the code:
with not-a-date-time, `timed_lock` returns true while another thread holds the mutex (mutex.hpp:143-146). -/
theorem timed_lock_special_not_held :
    ∃ ls s es, run step (init 2) ls = some (s, es) ∧ ¬ Accepts specNext none es ∧
      ls = [.lock 0, .timedLockRel 1 .notADateTime] :=
  ⟨_, _, _, rfl, by decide, rfl⟩

/-- The same with minus infinity on a free mutex: the call returns true and a later `try_lock` by another thread succeeds. -/
theorem timed_lock_neg_infinity_not_held :
    ∃ ls s es, run step (init 2) ls = some (s, es) ∧ ¬ Accepts specNext none es ∧
      ls = [.timedLockRel 0 .negInfinity, .tryLock 1] :=
  ⟨_, _, _, rfl, by decide, rfl⟩

/-- **C04, the part that holds.** Full statement: for every relative time, a `timed_lock` that returns true leaves the
caller owning the mutex. Proved for every relative time other than not-a-date-time and minus infinity; for
those two it is false (above). -/
theorem timed_lock_true_holds_partial (n : Nat) (ls : List Label) (s : State) (es : List Event) (t : Nat) (h₀ : Holder)
    (hls : ∀ l ∈ ls, l.isSpecialDuration = false)
    (h : run step (init n) ls = some (s, es ++ [.timedLocked t true]))
    (hc : specState specNext none es = some h₀) :
    h₀ = none ∧ specState specNext none (es ++ [.timedLocked t true]) = some (some t) := by
  have hn := (mutual_exclusion n ls s _ hls h).next_of_specState hc
  cases h₀ with
  | none => exact ⟨rfl, by simp [specState_append, hc, specState, specNext]⟩
  | some x => exact absurd rfl hn

example : ∃ s, run step (init 2) [.lock 0, .unlock 0 none, .timedLockRel 1 (.finite 5)] =
    some (s, [.locked 0, .unlocked 0] ++ [.timedLocked 1 true]) ∧
    specState specNext none [.locked 0, .unlocked 0] = some none := ⟨_, rfl, by decide⟩

end Verif.TimedMutex
