import Verif.WinMutex.Lemmas
import Verif.WinMutex.Word
/-! # Property C05: the Windows mutex -/

namespace Verif.WinMutex

/-- **C05, exclusion.** Every history of the Windows mutex, with every interleaving of its atomic operations, any number of threads and
any time-outs, is a history of the abstract mutex. -/
theorem mutual_exclusion (n : Nat) (ls : List Label) (s : State) (es : List Event)
    (h : run step (init n) ls = some (s, es)) : Accepts specNext none es :=
  simulation R (fun _ _ _ _ _ hR hs => step_sim hR hs) (R_init n) h

/-- Two lockers, one timed locker that gives up although the event was already set, a barging `try_lock`. -/
def demo : List Label :=
  [.call 0 false, .call 1 true, .next 1, .call 2 false, .next 2, .next 1, .next 2, .next 2, .tryLock 3, .unlock 0,
   .next 0, .next 0, .giveUp 1, .tryLock 3, .next 2, .next 2, .next 2, .unlock 3, .next 3, .next 3, .next 2, .next 2]

example : (run step (init 4) demo).map Prod.snd = some
    [.locked 0, .tryLocked 3 false, .unlocked 0, .timedLocked 1 false, .tryLocked 3 true, .unlocked 3, .locked 2] := by
  decide

/-- **C05, what a call may return.** From any state, whatever the other threads do, the first thing a thread reports after it has called `lock()` is that it has the mutex: `lock()` never gives up;
a timed call returns true or false. -/
theorem call_returns (s s' : State) (ls : List Label) (es : List Event) (t : Nat) (timed : Bool) (h : run step s (.call t timed :: ls) = some (s', es)) :
    ∀ e rest, es.filter (·.thread == t) = e :: rest → MayReturn t timed e := by
  intro e rest he
  simp only [run] at h
  split at h
  · cases h
  split at h <;> cases h
  rename_i s1 es1 hs1 _ es2 hs2
  rw [List.filter_append] at he
  rcases call_step hs1 with ⟨rfl, q, hq, hi⟩ | ⟨e', rfl, hm⟩
  · exact inside_run hq hi hs2 e rest he
  · simp [hm.thread] at he
    exact he.1 ▸ hm

/-- Thread 1 and thread 2 wait, one in `lock()` and one in a timed call that gives up. -/
example : ∃ s s' es, run step s (.call 1 false :: [.call 2 true, .next 1, .next 1, .next 2, .next 2, .giveUp 2, .unlock 0, .next 0, .next 0, .next 1, .next 1]) = some (s', es) ∧
    es.filter (·.thread == 1) = [.locked 1] ∧ es.filter (·.thread == 2) = [.timedLocked 2 false] :=
  ⟨{ word := { locked := true, eventSet := false, waiters := 0 }, signalled := false, ts := [.idle, .idle, .idle] }, _, _, rfl, by decide, by decide⟩

theorem run_single {s s' : State} {l : Label} {es : List Event} (h : step s l = some (s', es)) :
    run step s [l] = some (s', es) := by simp [run, h]

/-- From `s`, threads already inside the mutex's functions can bring one of them to the end of its lock call. -/
def Drains (s : State) : Prop :=
  ∃ ls s' u e, (∀ l ∈ ls, l.isNext = true) ∧ run step s ls = some (s', [e]) ∧ e.acquires u

theorem acquired_acquires (t : Nat) (timed : Bool) : (acquired t timed).acquires t := by
  cases timed <;> simp [acquired, Event.acquires]

theorem Drains.step {s s' : State} {t : Nat} (h : WinMutex.step s (.next t) = some (s', [])) (hd : Drains s') : Drains s := by
  obtain ⟨ls, s'', u, e, h1, h2, h3⟩ := hd
  refine ⟨.next t :: ls, s'', u, e, ?_, ?_, h3⟩
  · intro l hl
    rcases List.mem_cons.mp hl with rfl | hl
    · rfl
    · exact h1 l hl
  · simp [run, h, h2]

theorem drains_clearing {s : State} {u : Nat} {timed : Bool} {old : Word} (hu : s.ts[u]? = some (.clearing timed old))
    (hl : s.word.locked = false) : Drains s := by
  have final : ∀ s : State, s.ts[u]? = some (.clearing timed s.word) → s.word.locked = false → Drains s := by
    intro s hu hl
    exact ⟨[.next u], _, u, acquired u timed, by simp [Label.isNext], run_single (by simp [WinMutex.step, hu, hl]; rfl),
      acquired_acquires u timed⟩
  by_cases hw : s.word = old
  · exact final s (hw ▸ hu) hl
  · exact Drains.step (t := u) (s' := { s with ts := s.ts.set u (.clearing timed s.word) })
      (by simp [WinMutex.step, hu, hw]) (final _ (by simp [getElem?_set_eq hu]) hl)

theorem drains_signalled {s : State} {t : Nat} {timed : Bool} {old : Word} (ht : s.ts[t]? = some (.waiting timed old))
    (hl : s.word.locked = false) (hs : s.signalled = true) : Drains s :=
  Drains.step (t := t) (s' := { s with signalled := false, ts := s.ts.set t (.clearing timed old.clearGuess) })
    (by simp [WinMutex.step, ht, hs])
    (drains_clearing (u := t) (timed := timed) (old := old.clearGuess) (by simp [getElem?_set_eq ht]) hl)

theorem drains_setting {s : State} {t u : Nat} {timed : Bool} {old : Word} (ht : s.ts[t]? = some (.waiting timed old))
    (hl : s.word.locked = false) (hu : s.ts[u]? = some .setting) : Drains s := by
  have hne : u ≠ t := by rintro rfl; rw [ht] at hu; cases hu
  exact Drains.step (t := u) (s' := { s with signalled := true, ts := s.ts.set u .idle })
    (by simp [WinMutex.step, hu])
    (drains_signalled (t := t) (timed := timed) (old := old) (by simp [getElem?_set_eq hu, hne, ht]) hl rfl)

theorem drains_unlocking {s : State} {t u : Nat} {timed : Bool} {old : Word} (ht : s.ts[t]? = some (.waiting timed old))
    (hl : s.word.locked = false) (hu : s.ts[u]? = some .unlocking) (he : s.word.eventSet = false) : Drains s := by
  have hne : u ≠ t := by rintro rfl; rw [ht] at hu; cases hu
  exact Drains.step (t := u)
    (s' := { s with word := { s.word with eventSet := true }, ts := s.ts.set u .setting })
    (by simp [WinMutex.step, hu, he])
    (drains_setting (t := t) (u := u) (timed := timed) (old := old) (by simp [getElem?_set_eq hu, hne, ht]) hl
      (by simp [getElem?_set_eq hu]))

/-- **C05, hand-over.** Whenever nobody holds the mutex and a thread waits for it, some waiting thread obtains it by letting only the
threads that are already inside `lock`/`unlock` continue: no further call is needed, so no wake-up was lost. -/
theorem handover (n : Nat) (ls : List Label) (s : State) (es : List Event) (t : Nat)
    (h : run step (init n) ls = some (s, es)) (hfree : specState specNext none es = some none) (ht : Waiting s t) :
    ∃ ls' s' u e, (∀ l ∈ ls', l.isNext = true) ∧ run step s ls' = some (s', [e]) ∧ e.acquires u := by
  have hR : R s none := simulation_state R (fun _ _ _ _ _ hR hs => step_sim hR hs) (R_init n) h hfree
  obtain ⟨timed, old, ht⟩ := ht
  have hl : s.word.locked = false := hR.lock
  have hw : 0 < s.word.waiters := by rw [hR.waiters]; exact cnt_pos ht rfl
  change Drains s
  cases he : s.word.eventSet with
  | true =>
    have h3 := hR.event
    rw [he] at h3
    by_cases hs : s.signalled = true
    · exact drains_signalled ht hl hs
    by_cases hset : 0 < cnt PC.isSetting s.ts
    · obtain ⟨u, p, hu, hp⟩ := exists_of_cnt_pos hset
      cases p <;> simp [PC.isSetting] at hp
      exact drains_setting ht hl hu
    have hclr : 0 < cnt PC.isClearing s.ts := by simp [hs] at h3; omega
    obtain ⟨u, p, hu, hp⟩ := exists_of_cnt_pos hclr
    cases p <;> simp [PC.isClearing] at hp
    exact drains_clearing hu hl
  | false =>
    have h4 := hR.wake hl hw
    simp only [he, Bool.false_eq_true, false_or] at h4
    obtain ⟨u, p, hu, hp⟩ := exists_of_cnt_pos h4
    cases p <;> simp [PC.isUnlocking] at hp
    exact drains_unlocking ht hl hu he

/-- Non-vacuity: the unlocking thread has cleared the lock flag but not yet set the event. -/
example : ∃ s es, run step (init 2) [.call 0 false, .call 1 false, .next 1, .next 1, .unlock 0] = some (s, es) ∧
    specState specNext none es = some none ∧ Waiting s 1 ∧ s.signalled = false :=
  ⟨_, _, rfl, by decide, ⟨_, _, rfl⟩, rfl⟩

end Verif.WinMutex
