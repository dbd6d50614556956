import Verif.TimedQueue.Lemmas
/-! # Property C31 (`sync_timed_queue`) -/

set_option linter.unusedSectionVars false

namespace Verif.TimedQueue
variable {V : Type} [DecidableEq V]

/-- **C31, clocks that do not go backwards.** Every history is one of a queue that never delivers an element before its time, delivers
the earliest first, reports `closed`, `empty`, `not_ready` and `timeout` only when no element is due, and never looks at the top of an
empty queue. -/
theorem never_early (poll : Option Int) (now steady : Int) (n : Nat) (ls : List (Label V)) (s : State V) (es : List (Event V))
    (h : run (step { monotone := true, poll }) (init V now steady n) ls = some (s, es)) :
    Accepts (specNext false) (Queue.new V) es :=
  simulation (Sim _) (sim (Or.inr rfl)) (init_sim _ now steady n) h

/-- **C31, any clock, partial.** The same with a clock that may jump backwards, except that `pull_until` may evaluate `top()` on an
empty queue, after which nothing is promised (`backward_clock`). -/
theorem never_early_any_clock_partial (c : Cfg) (now steady : Int) (n : Nat) (ls : List (Label V)) (s : State V)
    (es : List (Event V)) (h : run (step c) (init V now steady n) ls = some (s, es)) :
    Accepts (specNext true) (Queue.new V) es :=
  simulation (Sim c) (sim (Or.inl rfl)) (init_sim c now steady n) h

/-- Elements due at 30, 10 and 20; a consumer waits, the clock advances, another consumer steals, `pull_until` gives up at 25. -/
def demo : List (Label Nat) :=
  let r (x : Int) : Reads := ⟨x, x, x, x, x⟩
  [.pull 1 .status (r 0) 0, .push 0 7 30, .resume 1 (r 1) 0, .push 0 8 10, .push 0 9 20, .resume 1 (r 5) 0, .tryPull 2 9 0,
   .timeout 1 10, .tryPull 2 11 1, .resume 1 (r 12) 0, .timeout 1 21, .resume 1 (r 21) 1, .pull 2 (.until_ 25) (r 22) 0,
   .timeout 2 26, .resume 2 (r 26) 0, .close 0, .closeNotify 0, .tryPull 2 29 0, .tryPull 2 30 0, .tryPull 2 31 0]

example : (run (step { monotone := true, poll := none }) (init Nat 0 0 3) demo).map Prod.snd = some
    [.pushed 0 7 30 true, .pushed 0 8 10 true, .pushed 0 9 20 true, .notReadyPull 2 9, .pulled 2 8 10 11, .pulled 1 9 20 21,
     .timedOut 2 false 25 26 26, .closed 0, .closeReturned 0, .closedPull 2 29, .pulled 2 7 30 30, .closedPull 2 31] := by decide

/-- `pull_until(10)` on an empty queue: the wait ends when the clock reads 10, then the clock is set back to 5. -/
def backward : List (Label Nat) :=
  [.pull 0 (.until_ 10) ⟨0, 0, 0, 0, 0⟩ 0, .timeout 0 10, .resume 0 ⟨5, 5, 5, 5, 5⟩ 0]

/-- **C31 fails when the clock goes backwards**: `top()` is called on an empty queue. -/
theorem backward_clock : ∃ s es, run (step { monotone := false, poll := some 100 }) (init Nat 0 0 1) backward = some (s, es) ∧
    ¬ Accepts (specNext false) (Queue.new Nat) es ∧ es = [.garbage 0] :=
  ⟨_, _, rfl, by decide, by decide⟩

/-- **C31, whatever is due can be had.** If an element is due at a reading the clock can give, `try_pull` with that reading delivers an
element, the earliest one. -/
theorem due_is_delivered (c : Cfg) (s : State V) (t : Nat) (now : Int) (x : V × Int) (hx : x ∈ s.data) (hdue : x.2 ≤ now)
    (ht : s.ts[t]? = some .idle) (hclock : c.monotone = true → s.now ≤ now) :
    ∃ i s' v due, step c s (.tryPull t now i) = some (s', [.pulled t v due now]) ∧ due ≤ now ∧ ∀ y ∈ s.data, due ≤ y.2 := by
  have hr : reached { s with now := now } now = true := reached_iff.mpr ⟨x, hx, hdue⟩
  have hrc : readClock c s now = some { s with now := now } := by
    simp only [readClock]; rw [if_neg]; rintro ⟨h1, h2⟩; have := hclock h1; omega
  cases htop : topTime s.data with
  | none => rw [topTime_none.mp htop] at hx; cases hx
  | some m =>
    obtain ⟨⟨y, hy, hym⟩, hmin⟩ := topTime_some htop
    obtain ⟨i, hi⟩ := List.getElem?_of_mem hy
    have := hmin x hx
    refine ⟨i, { s with now := now, data := s.data.eraseIdx i, ts := s.ts.set t .idle }, y.1, y.2, ?_, by omega, by rw [hym]; exact hmin⟩
    simp only [step, ht, hrc, hr, if_true, pop, hi, htop, hym]

/-- **C31, no consumer oversleeps.** Whenever an element in the queue (computed from the history) is due at clock reading `now`, a consumer
that is asleep in `pull`, `wait_pull` or `pull_until` has reached the deadline of its wait: its wait ends at that reading. -/
theorem sleeper_wakes_in_time (c : Cfg) (now0 steady : Int) (n : Nat) (ls : List (Label V)) (s : State V) (es : List (Event V))
    (q : Queue V) (t : Nat) (now : Int) (x : V × Int)
    (h : run (step c) (init V now0 steady n) ls = some (s, es)) (hq : specState (specNext true) (Queue.new V) es = some q)
    (hx : x ∈ q.items) (hdue : x.2 ≤ now) (ht : Asleep s t) (hclock : c.monotone = true → s.now ≤ now) :
    ∃ s', step c s (.timeout t now) = some (s', []) ∧ ¬ Asleep s' t := by
  obtain ⟨hR, hI, -⟩ := simulation_state (Sim c) (sim (ub := true) (Or.inl rfl)) (init_sim c now0 steady n) h hq
  have hx' : x ∈ s.data := hR.1.mem_iff.mpr hx
  have hrc : readClock c s now = some { s with now := now } := by
    simp only [readClock]; rw [if_neg]; rintro ⟨h1, h2⟩; have := hclock h1; omega
  rcases ht with ⟨k, hk⟩ | ⟨k, w, hk⟩
  · have : s.data = [] := hI t _ hk
    rw [this] at hx'; cases hx'
  · cases w with
    | none =>
      refine ⟨_, by simp only [step, hk]; rfl, ?_⟩
      rintro (⟨k', hk'⟩ | ⟨k', w', hk'⟩) <;> simp only [getElem?_set_eq hk, if_true] at hk' <;> cases hk'
    | some w =>
      have hw : w ≤ x.2 := hI t _ hk x hx'
      have hwn : w ≤ now := by omega
      refine ⟨_, by simp only [step, hk, hrc, hwn, if_true]; rfl, ?_⟩
      rintro (⟨k', hk'⟩ | ⟨k', w', hk'⟩) <;> simp only [getElem?_set_eq hk, if_true] at hk' <;> cases hk'

/-- Non-vacuity: a consumer sleeps until 30, then an element due at 10 arrives and the consumer goes to sleep again. -/
example : ∃ s es, run (step { monotone := true, poll := none }) (init Nat 0 0 2)
      [.push 0 7 30, .pull 1 .status ⟨0, 0, 0, 0, 0⟩ 0, .push 0 8 10, .resume 1 ⟨1, 1, 1, 1, 1⟩ 0] = some (s, es) ∧
    specState (specNext true) (Queue.new Nat) es = some { items := [(7, 30), (8, 10)], closed := false } ∧ Asleep s 1 :=
  ⟨_, _, rfl, by decide, Or.inr ⟨_, _, rfl⟩⟩

/-- **C31, closing.** Once a `close()` has returned, no consumer is asleep. -/
theorem close_wakes_everybody (c : Cfg) (now0 steady : Int) (n : Nat) (ls : List (Label V)) (s : State V) (es : List (Event V))
    (u t : Nat) (h : run (step c) (init V now0 steady n) ls = some (s, es)) (hc : .closeReturned u ∈ es) :
    ¬ Asleep s t := by
  have hC := (run_inv_hist (fun (s : State V) h => Inv c s ∧ ClosedInv s h)
    (fun s l s' h es hi hs =>
      have hok := step_ok (ub := true) (q := ⟨s.data, s.closed⟩) (Or.inl rfl) hi.1 hi.2 ⟨List.Perm.refl _, rfl⟩ hs
      ⟨hok.inv, hok.closed⟩) (hist := []) ⟨init_inv c now0 steady n, by rintro ⟨t, ht⟩; cases ht⟩ h).2
  obtain ⟨h1, h2⟩ := hC ⟨u, by simpa using hc⟩
  rintro (⟨k, hk⟩ | ⟨k, w, hk⟩)
  · have := cnt_pos (f := PC.isAsleep) hk rfl; omega
  · have := cnt_pos (f := PC.isAsleep) hk rfl; omega

example : ∃ s es, run (step { monotone := true, poll := none }) (init Nat 0 0 2)
      [.pull 1 .throwing ⟨0, 0, 0, 0, 0⟩ 0, .close 0, .closeNotify 0, .resume 1 ⟨1, 1, 1, 1, 1⟩ 0] = some (s, es) ∧
    es = [.closed 0, .closeReturned 0, .closedPull 1 1] := ⟨_, _, rfl, by decide⟩

end Verif.TimedQueue
