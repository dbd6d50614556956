import Verif.CondLife.SimPlain
import Verif.CondLife.SimPosix
import Verif.CondLife.SimWin
/-!
# C73: when a condition variable may be destroyed

The documentation (/repo/doc/condition_variables.qbk 163-175, 507-519): "All threads waiting on `*this` have been notified by a call to `notify_one` or `notify_all` (though the respective calls to `wait` or
`timed_wait` need not have returned)." That is the rule `next false`. The rule `next true` asks that the waiting threads have their mutex back.

Proved:
* `condition_variable` on POSIX without interruption keeps to the documented rule (`plain_documented`);
* `condition_variable_any` there, and both classes on POSIX with interruption and on Windows, keep to the stricter rule (`any_strict_partial`, `posix_strict_partial`, `win_strict_partial`); they do not keep to the
  documented one (`any_documented_fails`, `posix_documented_fails`, `posix_interrupt_fails`, `win_documented_fails`).
-/

namespace Verif.CondLife

/-- A client that keeps to the rule sees no use of what has been destroyed, if the model follows the rule. -/
theorem no_stale {strict : Bool} {σ : Spec} {es : List Event} (h : Accepts (next strict) σ es) (hc : ClientOk (next strict) σ es) (c : Nat) : .stale c ∉ es := by
  induction es generalizing σ with
  | nil => simp
  | cons e es ih =>
    intro hm
    simp only [Accepts] at h
    simp only [ClientOk] at hc
    cases hn : next strict σ e with
    | ok σ' =>
      rw [hn] at h hc
      rcases List.mem_cons.mp hm with e' | hm
      · subst e'; simp [next] at hn
      · exact ih h hc hm
    | undefined => rw [hn] at hc; exact hc
    | illegal => rw [hn] at h; exact h

/-! ## POSIX without interruption -/

theorem plain_accepts (any : Bool) (n : Nat) {ls : List Plain.Label} {s : Plain.State} {es : List Event} (h : run (Plain.step any) (Plain.init n) ls = some (s, es)) :
    Accepts (next any) (start n) es :=
  simulation (Plain.R any) (fun _ _ _ _ _ hR hs => Plain.sim hR hs) (Plain.R.init any n) h

/-- `condition_variable`, POSIX without interruption: for any number of threads, condition variables and mutexes and in every execution, a client that destroys a condition variable only after every thread
waiting on it has been woken, though it need not have returned, and when no notification is going on, sees no use of a destroyed condition variable. -/
theorem plain_documented (n : Nat) {ls : List Plain.Label} {s : Plain.State} {es : List Event} (h : run (Plain.step false) (Plain.init n) ls = some (s, es)) :
    Accepts (next false) (start n) es ∧ (ClientOk (next false) (start n) es → ∀ c, .stale c ∉ es) :=
  ⟨plain_accepts false n h, fun hc c => no_stale (plain_accepts false n h) hc c⟩

/-- Partial: `condition_variable_any`, POSIX without interruption: the same if the waiting threads have their mutex back as well. -/
theorem any_strict_partial (n : Nat) {ls : List Plain.Label} {s : Plain.State} {es : List Event} (h : run (Plain.step true) (Plain.init n) ls = some (s, es)) :
    Accepts (next true) (start n) es ∧ (ClientOk (next true) (start n) es → ∀ c, .stale c ∉ es) :=
  ⟨plain_accepts true n h, fun hc c => no_stale (plain_accepts true n h) hc c⟩

/-! ## POSIX with interruption -/

theorem posix_accepts (n : Nat) {ls : List Posix.Label} {s : Posix.State} {es : List Event} (h : run Posix.step (Posix.init n) ls = some (s, es)) :
    Accepts (next true) (start n) es :=
  simulation Posix.R (fun _ _ _ _ _ hR hs => Posix.sim hR hs) (Posix.R.init n) h

/-- Partial: both classes, POSIX with interruption: a client that destroys a condition variable only when every thread that waited on it has its mutex back, and when no notification is going on, sees
no use of a destroyed condition variable, also by threads that interrupt one another at any time. -/
theorem posix_strict_partial (n : Nat) {ls : List Posix.Label} {s : Posix.State} {es : List Event} (h : run Posix.step (Posix.init n) ls = some (s, es)) :
    Accepts (next true) (start n) es ∧ (ClientOk (next true) (start n) es → ∀ c, .stale c ∉ es) :=
  ⟨posix_accepts n h, fun hc c => no_stale (posix_accepts n h) hc c⟩

/-! ## Windows -/

theorem win_accepts (M n : Nat) {ls : List Win.Label} {s : Win.State} {es : List Event} (h : run (Win.step M) (Win.init n) ls = some (s, es)) :
    Accepts (next true) (start n) es :=
  simulation Win.R (fun _ _ _ _ _ hR hs => Win.sim hR hs) (Win.R.init n) h

/-- Partial: both classes on Windows, whatever the largest count of a semaphore: as `posix_strict_partial`. -/
theorem win_strict_partial (M n : Nat) {ls : List Win.Label} {s : Win.State} {es : List Event} (h : run (Win.step M) (Win.init n) ls = some (s, es)) :
    Accepts (next true) (start n) es ∧ (ClientOk (next true) (start n) es → ∀ c, .stale c ∉ es) :=
  ⟨win_accepts M n h, fun hc c => no_stale (win_accepts M n h) hc c⟩

/-! ## The documented rule is not enough -/

/-- What a run shows. -/
def obs {S L : Type} (step : S → L → Option (S × List Event)) (s : S) (ls : List L) : Option (List Event) := (run step s ls).map (·.2)

theorem obs_some {S L : Type} {step : S → L → Option (S × List Event)} {s : S} {ls : List L} {es : List Event} (h : obs step s ls = some es) : ∃ s', run step s ls = some (s', es) := by
  unfold obs at h
  cases hr : run step s ls with
  | none => rw [hr] at h; cases h
  | some p => rw [hr] at h; cases h; exact ⟨p.1, rfl⟩

def plainRun : List Plain.Label := [.lock 0 7, .wait 0 3 7, .notifyAll 1 3, .destroy 3, .go 0]
def anyRun : List Plain.Label := [.lock 0 7, .wait 0 3 7, .go 0, .go 0, .go 0, .notifyAll 1 3, .destroy 3, .go 0]

/-- The client has kept to the documented rule: the only waiting thread has been notified, and `notify_all` has returned. -/
theorem any_documented_fails : ∃ ls s es, run (Plain.step true) (Plain.init 2) ls = some (s, es) ∧ ClientOk (next false) (start 2) es ∧ .stale 3 ∈ es := by
  obtain ⟨s, h⟩ := obs_some (show obs (Plain.step true) (Plain.init 2) anyRun =
    some [.called 0 3, .released 0, .notify 1 3, .woken 0, .notified 1, .destroyed 3, .stale 3] by decide +kernel)
  exact ⟨_, s, _, h, by decide +kernel, by simp⟩

def posixRun : List Posix.Label :=
  [.base (.lock 0 7), .base (.wait 0 3 7 false), .base (.go 0), .base (.go 0), .base (.go 0), .base (.go 0), .base (.notifyAll 1 3), .destroy 3, .base (.go 0)]

theorem posix_documented_fails : ∃ ls s es, run Posix.step (Posix.init 2) ls = some (s, es) ∧ ClientOk (next false) (start 2) es ∧ .stale 3 ∈ es := by
  obtain ⟨s, h⟩ := obs_some (show obs Posix.step (Posix.init 2) posixRun =
    some [.called 0 3, .released 0, .notify 1 3, .woken 0, .notified 1, .destroyed 3, .stale 3] by decide +kernel)
  exact ⟨_, s, _, h, by decide +kernel, by simp⟩

/-- Here it is the thread that interrupts the waiting one that uses what has been destroyed. -/
def interruptRun : List Posix.Label :=
  [.base (.lock 0 7), .base (.wait 0 3 7 false), .base (.go 0), .base (.go 0), .base (.go 0), .base (.go 0), .base (.notifyAll 1 3), .base (.interrupt 2 0), .destroy 3, .base (.go 2)]

theorem posix_interrupt_fails : ∃ ls s es, run Posix.step (Posix.init 3) (ls ++ [.base (.go 2)]) = some (s, es) ∧ .base (.interrupt 2 0) ∈ ls ∧ ClientOk (next false) (start 3) es ∧ .stale 3 ∈ es := by
  obtain ⟨s, h⟩ := obs_some (show obs Posix.step (Posix.init 3) interruptRun =
    some [.called 0 3, .released 0, .notify 1 3, .woken 0, .notified 1, .destroyed 3, .stale 3] by decide +kernel)
  exact ⟨interruptRun.dropLast, s, _, h, by decide, by decide +kernel, by simp⟩

def winRun : List Win.Label :=
  [.base (.lock 0), .base (.enter 0 false), .base (.release 0), .base (.notify 1 true), .base (.act 1), .destroy, .base (.pass 0), .base (.tryWake 0), .base (.remove 0)]

theorem win_documented_fails : ∃ ls s es, run (Win.step 100) (Win.init 2) ls = some (s, es) ∧ ClientOk (next false) (start 2) es ∧ .stale 0 ∈ es := by
  obtain ⟨s, h⟩ := obs_some (show obs (Win.step 100) (Win.init 2) winRun =
    some [.called 0 0, .released 0, .notify 1 0, .woken 0, .notified 1, .destroyed 0, .woken 0, .stale 0] by decide +kernel)
  exact ⟨_, s, _, h, by decide +kernel, by simp⟩

/-! ## The hypotheses are met -/

/-- POSIX without interruption: destroyed between the notification and the return of `wait`. -/
example : obs (Plain.step false) (Plain.init 2) plainRun = some [.called 0 3, .released 0, .notify 1 3, .woken 0, .notified 1, .destroyed 3, .back 0] := by decide +kernel
example : ClientOk (next false) (start 2) [.called 0 3, .released 0, .notify 1 3, .woken 0, .notified 1, .destroyed 3, .back 0] := by decide +kernel

/-- Destroyed when the thread has its mutex back: `condition_variable_any`. -/
example : obs (Plain.step true) (Plain.init 2) [.lock 0 7, .wait 0 3 7, .go 0, .go 0, .go 0, .notifyOne 1 3 (some 0), .go 0, .go 0, .destroy 3] =
    some [.called 0 3, .released 0, .notify 1 3, .woken 0, .notified 1, .back 0, .destroyed 3] := by decide +kernel
example : ClientOk (next true) (start 2) [.called 0 3, .released 0, .notify 1 3, .woken 0, .notified 1, .back 0, .destroyed 3] := by decide +kernel

/-- With an interruption; the thread that interrupts is done later than the one that waits. -/
example : obs Posix.step (Posix.init 3) [.base (.lock 0 7), .base (.wait 0 3 7 false), .base (.go 0), .base (.go 0), .base (.go 0), .base (.go 0), .base (.notifyAll 1 3), .base (.interrupt 2 0),
      .base (.go 0), .base (.go 2), .base (.go 0), .base (.go 0), .destroy 3, .base (.go 0)] =
    some [.called 0 3, .released 0, .notify 1 3, .woken 0, .notified 1, .back 0, .destroyed 3] := by decide +kernel

/-- Windows. -/
example : obs (Win.step 100) (Win.init 2) [.base (.lock 0), .base (.enter 0 false), .base (.release 0), .base (.notify 1 true), .base (.act 1), .base (.pass 0), .base (.tryWake 0), .base (.remove 0),
      .base (.relock 0), .destroy] =
    some [.called 0 0, .released 0, .notify 1 0, .woken 0, .notified 1, .woken 0, .back 0, .destroyed 0] := by decide +kernel
example : ClientOk (next true) (start 2) [.called 0 0, .released 0, .notify 1 0, .woken 0, .notified 1, .woken 0, .back 0, .destroyed 0] := by decide +kernel

/-- The stricter rule forbids to destroy before the thread is back; both forbid it while it waits. -/
example : ¬ ClientOk (next true) (start 2) [.called 0 3, .released 0, .notify 1 3, .woken 0, .notified 1, .destroyed 3] := by decide +kernel
example : ¬ ClientOk (next false) (start 2) [.called 0 3, .released 0, .destroyed 3] := by decide +kernel

end Verif.CondLife
