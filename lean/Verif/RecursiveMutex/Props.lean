import Verif.RecursiveMutex.Lemmas
/-! # Property C03 (and C04 for the recursive mutex): `boost::recursive_timed_mutex` -/

namespace Verif.RecursiveMutex
open Verif.TimedMutex (RelTime)

/-- **C03.** Full statement: every history is one of the abstract recursive mutex with unbounded depth
(`specNext none`). Proved here up to depth 2^32 - 1, the greatest value of `unsigned count`; beyond that it
is false (`depth_overflow`). Calls of `timed_lock` with not-a-date-time or minus infinity are treated in C04. -/
theorem ownership_and_depth_partial (n : Nat) (ls : List Label) (s : State) (es : List Event)
    (hls : ∀ l ∈ ls, l.isSpecialDuration = false)
    (h : run step (init n) ls = some (s, es)) : Accepts (specNext (some (2 ^ 32 - 1))) none es :=
  simulation_on (fun l => l.isSpecialDuration = false) R (fun _ _ _ _ _ hp hR hs => step_sim hp hR hs)
    hls (by simp [R, init]) h

def demo : List Label :=
  [.lock 0, .timedLock 0, .lock 1, .tryLock 0, .timedLock 2, .unlock 0 (some 1), .resume 1 false, .timeout 2,
   .resume 2 false, .unlock 0 (some 1), .unlock 0 none, .tryLock 2, .resume 1 false, .unlock 2 (some 1), .resume 1 false]

example : (run step (init 3) demo).map Prod.snd =
    some [.locked 0, .timedLocked 0 true, .tryLocked 0 true, .unlocked 0, .timedLocked 2 false, .unlocked 0,
      .unlocked 0, .tryLocked 2 true, .unlocked 2, .locked 1] := by decide
example : ∀ l ∈ demo, l.isSpecialDuration = false := by decide

/-- **C03, what a call may return.** From any state, whatever the other threads do, the first thing a thread reports after it has called `lock()` is that it has the mutex; `lock()` never gives
up, nor does `timed_lock` with plus infinity; a timed call returns true or false. -/
theorem call_returns (s s' : State) (l : Label) (ls : List Label) (es : List Event) (t : Nat) (k : TimedMutex.Kind) (hl : l.call = some (t, k))
    (h : run step s (l :: ls) = some (s', es)) : ∀ e rest, es.filter (·.thread == t) = e :: rest → MayReturn t e k := by
  intro e rest he
  simp only [run] at h
  split at h
  · cases h
  split at h <;> cases h
  rename_i s1 es1 hs1 _ es2 hs2
  have key : (∃ p, es1 = [] ∧ s1.ts[t]? = some p ∧ Inside k p) ∨ es1 = [acquired t k] := by
    cases l with
    | timedLockRel u d =>
      cases d <;> simp only [Label.call, reduceCtorEq, Option.some.injEq, Prod.mk.injEq] at hl
      all_goals
        obtain ⟨rfl, rfl⟩ := hl
        simp [step, enter, acquireOrSleep, State.take, TimedMutex.RelTime.isPosInfinity, TimedMutex.RelTime.isSpecial] at hs1
        repeat' split at hs1
        all_goals cases hs1
        all_goals first
          | exact .inr rfl
          | exact .inl ⟨_, rfl, List.getElem?_set_self (by grind), .inl rfl⟩
    | lock u | timedLock u =>
      simp only [Label.call, Option.some.injEq, Prod.mk.injEq] at hl
      obtain ⟨rfl, rfl⟩ := hl
      simp only [step, enter, acquireOrSleep, State.take] at hs1
      repeat' split at hs1
      all_goals cases hs1
      all_goals first
        | exact .inr rfl
        | exact .inl ⟨_, rfl, List.getElem?_set_self (by grind), .inl rfl⟩
    | _ => cases hl
  rcases key with ⟨p, rfl, hp, hi⟩ | rfl
  · exact inside_run hp hi hs2 e rest he
  · rw [List.filter_append] at he
    cases k <;> simp [acquired, Event.thread] at he <;> simp [MayReturn, ← he.1]

/-- Thread 1 waits in `lock()`, is woken for nothing, and gets the mutex in the end; thread 2 gives up. -/
example : ∃ s es, run step (init 3) (.lock 0 :: [.lock 1, .timedLock 2, .spurious 1, .resume 1 false, .timeout 2, .resume 2 false, .unlock 0 (some 1), .resume 1 false]) = some (s, es) ∧
    es.filter (·.thread == 1) = [.locked 1] ∧ es.filter (·.thread == 2) = [.timedLocked 2 false] := ⟨_, _, rfl, by decide, by decide⟩

/-- **C03, negation beyond the range of `unsigned`.** A thread that has locked 2^32 + 1 times and unlocked once
loses the mutex to another thread although it still owes 2^32 unlocks. -/
theorem depth_overflow :
    ∃ ls s es, run step (init 2) ls = some (s, es) ∧ ¬ Accepts (specNext none) none es := by
  have h1 : run step (init 2) [.lock 0] =
      some ({ isLocked := true, owner := 0, count := 1, ts := [.idle, .idle] }, [.locked 0]) := rfl
  have h2 := run_relock modulus 1 (by decide)
  have hc : (1 + modulus) % modulus = 1 := by simp only [modulus]
  rw [hc] at h2
  have h3 : run step { isLocked := true, owner := 0, count := 1, ts := [.idle, .idle] } [.unlock 0 none, .tryLock 1] =
      some ({ isLocked := true, owner := 1, count := 1, ts := [.idle, .idle] }, [.unlocked 0, .tryLocked 1 true]) := by
    decide
  exact ⟨_, _, _, run_append h1 (run_append h2 h3), not_accepts_early_release modulus (by decide)⟩

/-- **C03, hand-over.** When the recursive mutex is free (by the history) and a thread is asleep in a locking call, some
thread is awake and takes the mutex with its next step. -/
theorem no_lost_wakeup (n : Nat) (ls : List Label) (s : State) (es : List Event) (t : Nat)
    (hls : ∀ l ∈ ls, l.isSpecialDuration = false)
    (h : run step (init n) ls = some (s, es)) (hfree : specState (specNext (some (2 ^ 32 - 1))) none es = some none)
    (ht : Asleep s t) :
    ∃ u e s', step s (.resume u false) = some (s', [e]) ∧ specNext none none e = .ok (some (u, 1)) := by
  have hR : R s none :=
    simulation_state_on (fun l => l.isSpecialDuration = false) R
      (fun _ _ _ _ _ hp hR hs => step_sim hp hR hs) hls (by simp [R, init]) h hfree
  have hW : WakeInv s :=
    run_inv WakeInv (fun _ _ _ _ hi hs => step_wake hi hs)
      (by intro _ hc; simp [init, cnt_replicate, PC.isAsleep] at hc) h
  simp only [R] at hR
  obtain ⟨k, hk⟩ := ht
  obtain ⟨u, p, hu, hp⟩ := exists_of_cnt_pos (hW hR.1 (cnt_pos hk rfl))
  cases p with
  | woken k' =>
    exact ⟨u, acquired u k', s.take u, by simp [step, hu, acquireOrSleep, hR.1], by cases k' <;> rfl⟩
  | expired => exact ⟨u, .timedLocked u true, s.take u, by simp [step, hu, hR.1], rfl⟩
  | idle => cases hp
  | asleep k' => cases hp
  | polling => cases hp

example : ∃ s es, run step (init 3) [.lock 0, .lock 0, .lock 1, .lock 2, .unlock 0 (some 1), .unlock 0 (some 2)]
      = some (s, es) ∧ specState (specNext (some (2 ^ 32 - 1))) none es = some none := ⟨_, _, rfl, by decide⟩

example : ∃ s es, run step (init 3) [.lock 0, .lock 1, .lock 2, .unlock 0 (some 1)]
      = some (s, es) ∧ specState (specNext (some (2 ^ 32 - 1))) none es = some none ∧ Asleep s 2 :=
  ⟨_, _, rfl, by decide, .lock, by decide⟩

/-- **C04 for the recursive mutex, negation**: not-a-date-time makes `timed_lock` return true on a mutex held
by somebody else (recursive_mutex.hpp:249-252). -/
theorem timed_lock_special_not_held :
    ∃ ls s es, run step (init 2) ls = some (s, es) ∧ ¬ Accepts (specNext none) none es ∧
      ls = [.lock 0, .timedLockRel 1 .notADateTime] :=
  ⟨_, _, _, rfl, by decide, rfl⟩

/-- **C04 for the recursive mutex, the part that holds**: with any other relative time, true means owned. -/
theorem timed_lock_true_holds_partial (n : Nat) (ls : List Label) (s : State) (es : List Event) (t : Nat)
    (h₀ h₁ : Holder) (hls : ∀ l ∈ ls, l.isSpecialDuration = false)
    (h : run step (init n) ls = some (s, es ++ [.timedLocked t true]))
    (hc : specState (specNext (some (2 ^ 32 - 1))) none es = some h₀)
    (hc' : specState (specNext (some (2 ^ 32 - 1))) none (es ++ [.timedLocked t true]) = some h₁) :
    (h₀ = none ∧ h₁ = some (t, 1)) ∨ ∃ d, h₀ = some (t, d) ∧ h₁ = some (t, d + 1) := by
  have hn := (ownership_and_depth_partial n ls s _ hls h).next_of_specState hc
  rw [specState_append, hc] at hc'
  simp only [Option.bind_some, specState, specNext] at hc' hn
  rcases h₀ with _ | ⟨u, d⟩
  · simp [specAcquire] at hc'; exact Or.inl ⟨rfl, hc'.symm⟩
  · simp only [specAcquire] at hn hc'
    by_cases hu : u = t
    · subst hu
      by_cases hm : d < 2 ^ 32 - 1
      · simp [hm] at hc'; exact Or.inr ⟨d, rfl, hc'.symm⟩
      · simp [hm] at hc'
    · simp [hu] at hn

example : ∃ s, run step (init 2) [.lock 0, .timedLockRel 0 (.finite 5)] =
    some (s, [.locked 0] ++ [.timedLocked 0 true]) ∧
    specState (specNext (some (2 ^ 32 - 1))) none [.locked 0] = some (some (0, 1)) := ⟨_, rfl, by decide⟩

end Verif.RecursiveMutex
