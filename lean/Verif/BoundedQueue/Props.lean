import Verif.BoundedQueue.Lemmas
/-! # Properties C28 and C29 (`sync_bounded_queue`) -/

set_option linter.unusedSectionVars false

namespace Verif.BoundedQueue
variable {V : Type} [DecidableEq V]

/-- **C28, partial.** Every history of a `sync_bounded_queue(cap)`, for any number of threads and any interleaving, is a history of a
FIFO queue of at most `cap` elements, and `empty`, `full`, `capacity`, `closed` tell the truth. Missing from the full statement
(`Accepts (specNext .all cap)`): `size()` may be one too small, and `wait_push_back` may throw; both are refuted below. -/
theorem bounded_fifo_partial (cap n : Nat) (ls : List (Label V)) (s : State V) (es : List (Event V))
    (h : run step (init V cap n) ls = some (s, es)) : Accepts (specNext .kept cap) (Queue.new V) es :=
  simulation (Sim cap) sim (init_sim cap n) h

/-- A queue of two: two producers, of which one has to wait, and two consumers, of which one has to wait. -/
def demo : List (Label Nat) :=
  [.pull 2 .throwing, .push 0 .throwing 7, .notify 0 (some 2), .push 0 .throwing 8, .push 0 .status 9, .full 3, .tryPush 3 1,
   .resume 2, .notify 2 (some 0), .resume 0, .tryPull 2, .pull 2 .status, .capacity 3, .tryPull 2, .close 1, .closeNotify 1,
   .closeNotify 1, .push 0 .status 4, .pull 2 .status]

example : (run step (init Nat 2 4) demo).map Prod.snd = some
    [.pushed 0 7 .success, .pushed 0 8 .success, .fullIs 3 true, .pushed 3 1 .full, .pulled 2 7, .waitPushed 0 9 .success,
     .pulled 2 8, .pulled 2 9, .capacityIs 3 2, .noPull 2 .empty, .closed 1, .closeReturned 1, .waitPushed 0 4 .closed,
     .noPull 2 .closed] := by decide

/-- Fill a queue of three, take two out, put one back: the input index has wrapped around to 0. -/
def wrapped : List (Label Nat) :=
  [.tryPush 0 1, .tryPush 0 2, .tryPush 0 3, .tryPull 0, .tryPull 0, .tryPush 0 4, .size 0]

/-- **C28 fails for `size()`**: two elements are in the queue and `size()` says one. -/
theorem size_is_wrong : ∃ s es, run step (init Nat 3 1) wrapped = some (s, es) ∧
    ¬ Accepts (specNext { exactSize := true, waitPushReturns := false } 3) (Queue.new Nat) es ∧
    specState (specNext .kept 3) (Queue.new Nat) es = some { items := [3, 4], closed := false } ∧ Event.sizeIs 0 1 ∈ es :=
  ⟨_, _, rfl, by decide, by decide, by decide⟩

/-- A producer waits in `wait_push_back` on a full queue; the queue is closed. -/
def closedWhileWaiting : List (Label Nat) :=
  [.tryPush 0 1, .push 1 .status 2, .close 0, .closeNotify 0, .closeNotify 0, .resume 1]

/-- **C28 fails for `wait_push_back`**: it throws `sync_queue_is_closed` instead of returning `closed`. -/
theorem wait_push_back_throws : ∃ s es, run step (init Nat 1 2) closedWhileWaiting = some (s, es) ∧
    ¬ Accepts (specNext { exactSize := false, waitPushReturns := true } 1) (Queue.new Nat) es ∧
    Event.waitPushed 1 2 .threw ∈ es :=
  ⟨_, _, rfl, by decide, by decide⟩

theorem specNext_ne_undefined (p : Promises) (cap : Nat) (q : Queue V) (e : Event V) : specNext p cap q e ≠ .undefined := by
  cases e with
  | pushed t v r => cases r <;> simp only [specNext] <;> (repeat' split) <;> simp
  | waitPushed t v r => cases r <;> simp only [specNext] <;> (repeat' split) <;> simp
  | noPull t r => cases r <;> simp only [specNext] <;> (repeat' split) <;> simp
  | _ => simp only [specNext] <;> (repeat' split) <;> simp

/-- **C28, capacity.** The number of elements (counted from the history) never exceeds the capacity. -/
theorem never_over_capacity (cap n : Nat) (ls : List (Label V)) (s : State V) (es : List (Event V))
    (h : run step (init V cap n) ls = some (s, es)) :
    ∃ q, specState (specNext .kept cap) (Queue.new V) es = some q ∧ q.items.length ≤ cap := by
  have hcl : ∀ (l : List (Event V)) (q : Queue V), ClientOk (specNext .kept cap) q l := by
    intro l
    induction l with
    | nil => intro q; trivial
    | cons e l ih =>
      intro q
      simp only [ClientOk]
      cases hn : specNext .kept cap q e with
      | ok m => exact ih m
      | undefined => exact absurd hn (specNext_ne_undefined _ _ q e)
      | illegal => trivial
  obtain ⟨q, hq⟩ := (bounded_fifo_partial cap n ls s es h).specState_isSome (hcl _ _)
  exact ⟨q, hq, (simulation_state (Sim cap) sim (init_sim cap n) h hq).1.1.room⟩

theorem full_inv {cap n : Nat} {ls : List (Label V)} {s : State V} {es : List (Event V)} {q : Queue V}
    (h : run step (init V cap n) ls = some (s, es)) (hl : ∀ l ∈ ls, l.isInterruptLate = false)
    (hq : specState (specNext .kept cap) (Queue.new V) es = some q) :
    R cap s q ∧ W s cap q.items.length := by
  have hR := (simulation_state (Sim cap) sim (init_sim cap n) h hq).1
  have hI : Inv cap s ∧ ∃ es, ClosedInv s es :=
    run_inv_on (fun l => Label.isInterruptLate l = false) (fun s => Inv cap s ∧ ∃ es, ClosedInv s es)
      (fun s l s' es hl ⟨h1, _, h2⟩ hs => ⟨step_inv h2.closing hl h1 hs, _, step_closed h2 hs⟩) hl
      ⟨init_inv cap n, _, init_closed cap n⟩ h
  obtain ⟨⟨items, hr, hW⟩, -⟩ := hI
  have : items.length = q.items.length := by
    have a1 := hr.inp_eq; have a2 := hr.out_lt; have a3 := hr.room
    have b1 := hR.1.inp_eq; have b3 := hR.1.room
    have c1 := mod_eq_or (a := s.out + items.length) (c := cap + 1) (by omega)
    have c2 := mod_eq_or (a := s.out + q.items.length) (c := cap + 1) (by omega)
    omega
  exact ⟨hR, this ▸ hW⟩

theorem resumeE {cap : Nat} {s : State V} {q : Queue V} {t : Nat} {k : Kind} {v : V} {rest : List V} (hR : R cap s q)
    (hv : q.items = v :: rest) (ht : s.ts[t]? = some (.wokenE k)) :
    ∃ s', step s (.resume t) = some (s', [.pulled t v]) := by
  have hr := hR.1
  rw [hv] at hr
  have he : s.isEmpty = false := hr.empty_iff
  have hf := hr.front
  simp only [step, ht, roundPull, he, Bool.not_false, if_true, pullFront, hf]
  split <;> exact ⟨_, rfl⟩

theorem resumeF {cap : Nat} {s : State V} {q : Queue V} {t : Nat} {k : Kind} {v : V} (hR : R cap s q)
    (hc : q.closed = false) (hroom : q.items.length < cap) (ht : s.ts[t]? = some (.wokenF k v)) :
    ∃ s', step s (.resume t) = some (s', [pushEvent t k v .success]) := by
  have he : s.isFull = false := by rw [hR.1.full_iff]; simp; omega
  have hcl : s.closed = false := hR.2.trans hc
  simp only [step, ht, roundPush, he, hcl, pushAt]
  simp only [Bool.false_eq_true, if_false]
  split <;> exact ⟨_, rfl⟩

/-- **C29, consumers, partial.** In every schedule in which no thread is interrupted after its wait has ended: if the open queue holds an
element and a consumer is asleep, then threads that are already inside a call can, without any new call being made, hand the first
element to a consumer. Missing: the same with late interruptions, refuted by `lost_wakeup_interrupt`. -/
theorem consumer_served_partial (cap n : Nat) (ls : List (Label V)) (s : State V) (es : List (Event V)) (v : V) (rest : List V)
    (t : Nat) (h : run step (init V cap n) ls = some (s, es)) (hl : ∀ l ∈ ls, l.isInterruptLate = false)
    (hq : specState (specNext .kept cap) (Queue.new V) es = some { items := v :: rest, closed := false }) (ht : AsleepE s t) :
    ∃ ls' s' es' u, (∀ l ∈ ls', l.isInside = true) ∧ run step s ls' = some (s', es') ∧ Event.pulled u v ∈ es' := by
  obtain ⟨hR, hW⟩ := full_inv h hl hq
  obtain ⟨k, hk⟩ := ht
  have h1 := hW.elems hR.2
  have h2 : 0 < aE s.ts := cnt_pos hk rfl
  simp only [List.length_cons] at h1
  by_cases hw : 0 < wE s.ts
  · obtain ⟨u, p, hu, hp⟩ := exists_of_cnt_pos hw
    cases p <;> simp [PC.isWokenE] at hp
    obtain ⟨s', hs'⟩ := resumeE hR rfl hu
    exact ⟨[.resume u], s', _, u, by simp [Label.isInside], by simp only [run, hs']; rfl, by simp⟩
  · obtain ⟨w, p, hw', hp⟩ := exists_of_cnt_pos (f := PC.isNotifyE) (ts := s.ts) (by unfold nE at h1; omega)
    cases p <;> simp [PC.isNotifyE] at hp
    have hne : w ≠ t := by rintro rfl; rw [hk] at hw'; cases hw'
    obtain ⟨s', hs'⟩ := resumeE (s := { s with ts := (s.ts.set w .idle).set t (.wokenE k) }) (q := ⟨v :: rest, false⟩) (t := t)
      (k := k) ⟨hR.1.congr rfl rfl rfl rfl, hR.2⟩ rfl (by
        have : (s.ts.set w .idle)[t]? = some (.asleepE k) := by rw [getElem?_set_eq hw']; simp [hne, hk]
        simp only [getElem?_set_eq this, if_true])
    exact ⟨[.notify w (some t), .resume t], s', _, t, by simp [Label.isInside],
      by simp only [run, step, hw', hk]; simp only [step] at hs'; simp only [hs']; rfl, by simp⟩

/-- Non-vacuity: two consumers sleep, one element arrives. -/
example : ∃ s es, run step (init Nat 1 3) [.pull 1 .throwing, .pull 2 .status, .push 0 .throwing 5] = some (s, es) ∧
    specState (specNext .kept 1) (Queue.new Nat) es = some { items := [5], closed := false } ∧ AsleepE s 1 :=
  ⟨_, _, rfl, by decide, _, rfl⟩

/-- **C29, producers, partial.** The same for producers: if the open queue has room and a producer is asleep, then threads that are
already inside a call can, without any new call, complete a blocked push. -/
theorem producer_served_partial (cap n : Nat) (ls : List (Label V)) (s : State V) (es : List (Event V)) (q : Queue V)
    (t : Nat) (h : run step (init V cap n) ls = some (s, es)) (hl : ∀ l ∈ ls, l.isInterruptLate = false)
    (hq : specState (specNext .kept cap) (Queue.new V) es = some q) (hc : q.closed = false) (hroom : q.items.length < cap)
    (ht : AsleepF s t) :
    ∃ ls' s' es' u v, (∀ l ∈ ls', l.isInside = true) ∧ run step s ls' = some (s', es') ∧
      (Event.pushed u v .success ∈ es' ∨ Event.waitPushed u v .success ∈ es') := by
  obtain ⟨hR, hW⟩ := full_inv h hl hq
  obtain ⟨k, v, hk⟩ := ht
  have h1 := hW.room (hR.2.trans hc)
  have h2 : 0 < aF s.ts := cnt_pos hk rfl
  have hev : ∀ u k (v : V), Event.pushed u v .success ∈ [pushEvent u k v .success] ∨
      Event.waitPushed u v .success ∈ [pushEvent u k v .success] := by
    intro u k v; cases k <;> simp [pushEvent]
  by_cases hw : 0 < wF s.ts
  · obtain ⟨u, p, hu, hp⟩ := exists_of_cnt_pos hw
    cases p <;> simp [PC.isWokenF] at hp
    next k' v' =>
      obtain ⟨s', hs'⟩ := resumeF hR hc hroom hu
      exact ⟨[.resume u], s', _, u, v', by simp [Label.isInside], by simp only [run, hs']; rfl, by simpa using hev u k' v'⟩
  · obtain ⟨w, p, hw', hp⟩ := exists_of_cnt_pos (f := PC.isNotifyF) (ts := s.ts) (by unfold nF at h1; omega)
    cases p <;> simp [PC.isNotifyF] at hp
    have hne : w ≠ t := by rintro rfl; rw [hk] at hw'; cases hw'
    obtain ⟨s', hs'⟩ := resumeF (s := { s with ts := (s.ts.set w .idle).set t (.wokenF k v) }) (q := q) (t := t)
      (k := k) (v := v) ⟨hR.1.congr rfl rfl rfl rfl, hR.2⟩ hc hroom (by
        have : (s.ts.set w .idle)[t]? = some (.asleepF k v) := by rw [getElem?_set_eq hw']; simp [hne, hk]
        simp only [getElem?_set_eq this, if_true])
    exact ⟨[.notify w (some t), .resume t], s', _, t, v, by simp [Label.isInside],
      by simp only [run, step, hw', hk]; simp only [step] at hs'; simp only [hs']; rfl, by simpa using hev t k v⟩

/-- Non-vacuity: the queue is full, two producers sleep, one element is taken out. -/
example : ∃ s es, run step (init Nat 1 3) [.tryPush 0 4, .push 1 .throwing 5, .push 2 .status 6, .tryPull 0] = some (s, es) ∧
    specState (specNext .kept 1) (Queue.new Nat) es = some { items := [], closed := false } ∧ AsleepF s 2 :=
  ⟨_, _, rfl, by decide, _, _, rfl⟩

/-- Two consumers sleep; one element is pushed, which wakes the first; that one is interrupted before it looks at the queue. -/
def lateInterrupt : List (Label Nat) :=
  [.pull 1 .throwing, .pull 2 .throwing, .push 0 .throwing 5, .notify 0 (some 1), .interruptLate 1]

/-- **C29 fails with a late interruption**: the element stays in the open queue, consumer 2 sleeps, and no thread inside a call can
move. -/
theorem lost_wakeup_interrupt : ∃ s es, run step (init Nat 1 3) lateInterrupt = some (s, es) ∧
    specState (specNext .kept 1) (Queue.new Nat) es = some { items := [5], closed := false } ∧ AsleepE s 2 ∧
    ∀ l : Label Nat, l.isInside = true → step s l = none := by
  refine ⟨_, _, rfl, by decide, ⟨_, rfl⟩, ?_⟩
  intro l hl
  cases l <;> simp [Label.isInside] at hl
  case resume t => match t with | 0 => rfl | 1 => rfl | 2 => rfl | t + 3 => rfl
  case notify t u => match t with | 0 => rfl | 1 => rfl | 2 => rfl | t + 3 => rfl

/-- **C29, closing.** Once a `close()` has returned, nobody is asleep in the queue: a woken consumer gets an element or learns with its
next step that the queue is closed, and a woken producer learns that it is closed. -/
theorem close_releases_everybody (cap n : Nat) (ls : List (Label V)) (s : State V) (es : List (Event V)) (c : Nat)
    (h : run step (init V cap n) ls = some (s, es)) (hc : .closeReturned c ∈ es) (t : Nat) :
    ¬ AsleepE s t ∧ ¬ AsleepF s t ∧
    (∀ k, s.ts[t]? = some (.wokenE k) → ∃ s' e, step s (.resume t) = some (s', [e]) ∧
      ((∃ v, e = .pulled t v) ∨ e = .noPull t .threw ∨ e = .noPull t .closed)) ∧
    (∀ k v, s.ts[t]? = some (.wokenF k v) → ∃ s' e, step s (.resume t) = some (s', [e]) ∧
      (e = .pushed t v .threw ∨ e = .waitPushed t v .threw)) := by
  have hI : ClosedInv s es := by
    have := run_inv_hist (step := step) (fun (s : State V) es => ClosedInv s es) (fun s l s' h es hi hs => step_closed hi hs)
      (hist := []) (init_closed cap n) h
    simpa using this
  obtain ⟨q, hq, -⟩ := never_over_capacity cap n ls s es h
  have hR := (simulation_state (Sim cap) sim (init_sim cap n) h hq).1
  obtain ⟨h1, h2, h3⟩ := hI.2.2 ⟨c, hc⟩
  refine ⟨?_, ?_, ?_, ?_⟩
  · rintro ⟨k, hk⟩; have : 0 < aE s.ts := cnt_pos hk rfl; omega
  · rintro ⟨k, v, hk⟩; have : 0 < aF s.ts := cnt_pos hk rfl; omega
  · intro k hk
    cases hi : q.items with
    | cons v rest =>
      obtain ⟨s', hs'⟩ := resumeE hR hi hk
      exact ⟨s', _, hs', Or.inl ⟨v, rfl⟩⟩
    | nil =>
      have he : s.isEmpty = true := by rw [hR.1.empty_iff, hi]; rfl
      refine ⟨{ s with ts := s.ts.set t .idle }, .noPull t (match k with | .throwing => .threw | .status => .closed), ?_, ?_⟩
      · simp [step, hk, roundPull, he, h1]; cases k <;> rfl
      · cases k <;> simp
  · intro k v hk
    refine ⟨{ s with ts := s.ts.set t .idle }, pushEvent t k v .threw, ?_, ?_⟩
    · simp [step, hk, roundPush, h1]
    · cases k <;> simp [pushEvent]

/-- Non-vacuity: a consumer and (on another queue) a producer slept when the queue was closed. -/
example : ∃ s es, run step (init Nat 1 2) [.pull 1 .status, .close 0, .closeNotify 0, .closeNotify 0] = some (s, es) ∧
    .closeReturned 0 ∈ es ∧ s.ts[1]? = some (.wokenE .status) := ⟨_, _, rfl, by decide, rfl⟩
example : ∃ s es, run step (init Nat 1 2) [.tryPush 0 3, .push 1 .status 4, .close 0, .closeNotify 0, .closeNotify 0] = some (s, es) ∧
    .closeReturned 0 ∈ es ∧ s.ts[1]? = some (.wokenF .status 4) := ⟨_, _, rfl, by decide, rfl⟩

end Verif.BoundedQueue
