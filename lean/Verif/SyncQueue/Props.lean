import Verif.SyncQueue.Lemmas
import Verif.SyncQueue.Returns
/-! # Properties C25, C26, C27 (`sync_queue`) and C30 (`sync_priority_queue`) -/

set_option linter.unusedSectionVars false

namespace Verif.SyncQueue
variable {V : Type} [DecidableEq V]

/-- **C25.** Every history of a `sync_queue`, with any number of producers and consumers and any interleaving, is a history of a FIFO
queue: elements come out once each, in the order in which they went in, and the observers tell the truth. -/
theorem sync_queue_is_fifo (n : Nat) (ls : List (Label V)) (s : State V) (es : List (Event V))
    (h : run (step fifo) (init V n) ls = some (s, es)) : Accepts (specNext .fifo) (Queue.new V) es :=
  simulation (Sim Eq) (sim fifo_refines) (init_sim fifo_refines n) h

/-- **C30.** Every history of a `sync_priority_queue` is a history of a queue that hands out greatest elements first. -/
theorem sync_priority_queue_is_ordered (less : V → V → Bool) (n : Nat) (ls : List (Label V)) (s : State V)
    (es : List (Event V)) (h : run (step (greatest less)) (init V n) ls = some (s, es)) :
    Accepts (specNext (.priority less)) (Queue.new V) es :=
  simulation (Sim List.Perm) (sim (priority_refines less)) (init_sim (priority_refines less) n) h

/-- Consumers 1 and 2 block, producer 0 pushes twice, consumer 3 barges in, the queue is closed while consumer 2 sleeps. -/
def demo : List (Label Nat) :=
  [.pull 1 .throwing 0, .pull 2 .status 0, .push 0 7, .push 0 5, .tryPull 3 0, .size 0, .resume 2 0, .resume 1 0, .tryPull 3 0,
   .pull 2 .status 0, .close 0, .push 3 9, .closeNotify 0, .resume 1 0, .resume 2 0, .isClosed 3]

example : (run (step fifo) (init Nat 4) demo).map Prod.snd = some
    [.pushed 0 7 .success, .pushed 0 5 .success, .pulled 3 7, .sizeIs 0 1, .pulled 2 5, .noPull 3 .empty, .closed 0,
     .pushed 3 9 .closed, .closeReturned 0, .noPull 1 .closed, .noPull 2 .closed, .closedIs 3 true] := by decide

example : (run (step (greatest fun a b : Nat => decide (a < b))) (init Nat 2)
      [.push 0 3, .push 0 8, .push 0 5, .tryPull 1 1, .pull 1 .timed 1, .size 1, .take 0, .pull 1 .timed 0, .timeout 1,
       .resume 1 0]).map Prod.snd = some
    [.pushed 0 3 .success, .pushed 0 8 .success, .pushed 0 5 .success, .pulled 1 8, .pulled 1 5, .sizeIs 1 1, .taken 0 [3],
     .noPull 1 .timeout] := by decide

/-- **C27.** While the queue (computed from the history) is not empty, no consumer is asleep. -/
theorem no_sleeper_when_nonempty (n : Nat) (ls : List (Label V)) (s : State V) (es : List (Event V)) (q : Queue V) (t : Nat)
    (h : run (step fifo) (init V n) ls = some (s, es)) (hq : specState (specNext .fifo) (Queue.new V) es = some q)
    (hne : q.items ≠ []) : ¬ Asleep s t := by
  have hR : R Eq s q :=
    (simulation_state (Sim Eq) (sim fifo_refines) (init_sim fifo_refines n) h hq).1
  have hW : WakeInv s := run_inv WakeInv (fun _ _ _ _ hi hs => step_wake hi hs) (by simp [WakeInv, init]) h
  rintro ⟨k, hk⟩
  have h1 := hW (by rw [hR.1]; exact hne)
  have h2 := cnt_pos (f := PC.isAsleep) hk rfl
  omega

/-- **C27 for `sync_priority_queue`.** -/
theorem priority_no_sleeper_when_nonempty (less : V → V → Bool) (n : Nat) (ls : List (Label V)) (s : State V)
    (es : List (Event V)) (q : Queue V) (t : Nat) (h : run (step (greatest less)) (init V n) ls = some (s, es))
    (hq : specState (specNext (.priority less)) (Queue.new V) es = some q) (hne : q.items ≠ []) : ¬ Asleep s t := by
  have hR : R List.Perm s q :=
    (simulation_state (Sim List.Perm) (sim (priority_refines less)) (init_sim (priority_refines less) n) h hq).1
  have hW : WakeInv s := run_inv WakeInv (fun _ _ _ _ hi hs => step_wake hi hs) (by simp [WakeInv, init]) h
  rintro ⟨k, hk⟩
  have h1 := hW (by intro h0; have := hR.1; rw [h0] at this; exact hne this.symm.eq_nil)
  have h2 := cnt_pos (f := PC.isAsleep) hk rfl
  omega

/-- **C27, progress.** While the queue is not empty, any consumer blocked in a pull gets the first element with its own next step. -/
theorem blocked_consumer_gets_element (n : Nat) (ls : List (Label V)) (s : State V) (es : List (Event V)) (v : V)
    (rest : List V) (c : Bool) (t : Nat) (h : run (step fifo) (init V n) ls = some (s, es))
    (hq : specState (specNext .fifo) (Queue.new V) es = some { items := v :: rest, closed := c }) (ht : InPull s t) :
    ∃ s', step fifo s (.resume t 0) = some (s', [.pulled t v]) := by
  have hR : R Eq s _ :=
    (simulation_state (Sim Eq) (sim fifo_refines) (init_sim fifo_refines n) h hq).1
  have hd : s.data = v :: rest := hR.1
  rcases ht with ht | ⟨k, hk⟩ | hk
  · exact absurd ht (no_sleeper_when_nonempty n ls s es _ t h hq (by simp))
  · exact ⟨_, by simp [step, hk, waitThenPull, hd, pop, fifo]; rfl⟩
  · exact ⟨_, by simp [step, hk, hd, pop, fifo]; rfl⟩

/-- Non-vacuity: two blocked consumers, one element. -/
example : ∃ s es, run (step fifo) (init Nat 3) [.pull 1 .throwing 0, .pull 2 .status 0, .push 0 7] = some (s, es) ∧
    specState (specNext .fifo) (Queue.new Nat) es = some { items := [7], closed := false } ∧ InPull s 1 ∧ InPull s 2 :=
  ⟨_, _, rfl, by decide, Or.inr (Or.inl ⟨_, rfl⟩), Or.inr (Or.inl ⟨_, rfl⟩)⟩

/-- **C26, pushing.** After a `close()` took effect, every push reports `closed` (or `busy`); the contents only shrink. This is the
specification's `pushed` clause; here spelled out over histories. -/
theorem push_after_close (n : Nat) (ls : List (Label V)) (s : State V) (es es' : List (Event V)) (t u : Nat) (v : V)
    (r : Status) (h : run (step fifo) (init V n) ls = some (s, es ++ .closed t :: es' ++ [.pushed u v r])) :
    r = .closed ∨ r = .busy := by
  have hA := sync_queue_is_fifo n ls s _ h
  have hmono : ∀ (l : List (Event V)) (q q' : Queue V), specState (specNext .fifo) q l = some q' → q.closed = true →
      q'.closed = true := by
    intro l
    induction l with
    | nil => intro q q' h hc; simp only [specState, Option.some.injEq] at h; exact h ▸ hc
    | cons e l ih =>
      intro q q' h hc
      simp only [specState] at h
      cases hn : specNext .fifo q e with
      | ok m =>
        simp only [hn] at h
        refine ih m q' h ?_
        cases e with
        | pushed t v r => cases r <;> simp only [specNext] at hn <;> (repeat' split at hn) <;> cases hn <;> first | exact hc | rfl
        | noPull t r => cases r <;> simp only [specNext] at hn <;> (repeat' split at hn) <;> cases hn <;> exact hc
        | _ => simp only [specNext] at hn <;> (repeat' split at hn) <;> cases hn <;> first | exact hc | rfl
      | undefined => simp [hn] at h
      | illegal => simp [hn] at h
  have hnu : ∀ (q : Queue V) (e : Event V), specNext .fifo q e ≠ .undefined := by
    intro q e
    cases e with
    | pushed t v r => cases r <;> simp only [specNext] <;> (repeat' split) <;> simp
    | noPull t r => cases r <;> simp only [specNext] <;> (repeat' split) <;> simp
    | _ => simp only [specNext] <;> (repeat' split) <;> simp
  have hcl : ∀ (l : List (Event V)) (q : Queue V), ClientOk (specNext .fifo) q l := by
    intro l
    induction l with
    | nil => intro q; trivial
    | cons e l ih =>
      intro q
      simp only [ClientOk]
      cases hn : specNext .fifo q e with
      | ok m => exact ih m
      | undefined => exact absurd hn (hnu q e)
      | illegal => trivial
  obtain ⟨qe, hqe⟩ := hA.specState_isSome (hcl _ _)
  rw [specState_append, specState_append] at hqe
  cases h1 : specState (specNext .fifo) (Queue.new V) es with
  | none => simp [h1] at hqe
  | some q1 =>
    cases h2 : specState (specNext .fifo) q1 (.closed t :: es') with
    | none => simp [h1, h2] at hqe
    | some q2 =>
      simp only [h1, h2, Option.bind_some] at hqe
      have hc : q2.closed = true := hmono es' { q1 with closed := true } q2 (by simpa [specState, specNext] using h2) rfl
      cases r <;> simp [specState, specNext, hc] at hqe ⊢

example : (run (step fifo) (init Nat 2) [.close 0, .closeNotify 0, .push 1 3]).map Prod.snd = some
    ([] ++ .closed 0 :: [.closeReturned 0] ++ [.pushed 1 3 .closed]) := by decide

/-- **C26, nobody stays blocked.** Once a `close()` has returned, no consumer is asleep, and every consumer that is inside a pull
returns with its next step. -/
theorem close_releases_everybody (front : List V → Nat → Bool) (n : Nat) (ls : List (Label V)) (s : State V)
    (es : List (Event V)) (c t : Nat) (h : run (step front) (init V n) ls = some (s, es)) (hc : .closeReturned c ∈ es) :
    ¬ Asleep s t ∧ (s.data = [] → InPull s t → ∃ s', step front s (.resume t 0) = some (s', [.noPull t .closed])) := by
  have hI : ClosingInv s ∧ ClosedInv s es := by
    have := run_inv_hist (fun s es => ClosingInv s ∧ ClosedInv s es)
      (fun s l s' h es hi hs => ⟨step_closing hi.1 hs, step_closed hi.1 hi.2 hs⟩)
      (hist := []) (s := init V n) ⟨?_, ?_⟩ h
    · simpa using this
    · intro u hu; simp [init, List.getElem?_replicate] at hu
    · rintro ⟨u, hu⟩; cases hu
  obtain ⟨h1, h2⟩ := hI.2 ⟨c, hc⟩
  have hna : ¬ Asleep s t := by
    rintro ⟨k, hk⟩
    have := cnt_pos (f := PC.isAsleep) hk rfl
    omega
  refine ⟨hna, fun hd ht => ?_⟩
  rcases ht with ht | ⟨k, hk⟩ | hk
  · exact absurd ht hna
  · exact ⟨_, by simp [step, hk, waitThenPull, hd, h1]; rfl⟩
  · exact ⟨_, by simp [step, hk, hd, h1]; rfl⟩

/-- Non-vacuity: a consumer was asleep when the queue was closed. -/
example : ∃ s es, run (step fifo) (init Nat 2) [.pull 1 .throwing 0, .close 0, .closeNotify 0] = some (s, es) ∧
    .closeReturned 0 ∈ es ∧ s.data = [] ∧ InPull s 1 :=
  ⟨_, _, rfl, by decide, rfl, Or.inr (Or.inl ⟨_, rfl⟩)⟩

/-- **C26, draining.** After `close()` the elements still in the queue can be pulled: `try_pull` on a non-empty queue succeeds
whether or not it is closed. -/
theorem elements_survive_close (n : Nat) (ls : List (Label V)) (s : State V) (es : List (Event V)) (v : V)
    (rest : List V) (t : Nat) (h : run (step fifo) (init V n) ls = some (s, es))
    (hq : specState (specNext .fifo) (Queue.new V) es = some { items := v :: rest, closed := true })
    (ht : s.ts[t]? = some .idle) :
    ∃ s', step fifo s (.tryPull t 0) = some (s', [.pulled t v]) := by
  have hR : R Eq s _ :=
    (simulation_state (Sim Eq) (sim fifo_refines) (init_sim fifo_refines n) h hq).1
  have hd : s.data = v :: rest := hR.1
  exact ⟨_, by simp [step, ht, hd, pop, fifo]; rfl⟩

example : ∃ s es, run (step fifo) (init Nat 2) [.push 0 4, .push 0 5, .close 0] = some (s, es) ∧
    specState (specNext .fifo) (Queue.new Nat) es = some { items := [4, 5], closed := true } ∧ s.ts[1]? = some .idle :=
  ⟨_, _, rfl, by decide, rfl⟩

end Verif.SyncQueue
