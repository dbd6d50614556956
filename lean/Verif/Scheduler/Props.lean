import Verif.Scheduler.Live
set_option linter.unusedSimpArgs false
set_option linter.unusedVariables false
/-! # C51: scheduled work -/

namespace Verif.Scheduler

open TimedQueue (Reads)

variable {c : TimedQueue.Cfg} {n : Nat}

/-- **C51.** With a clock that does not go backwards (`steady_clock`), any number of workers, clients and closures, and every schedule: closures start only after they have been
accepted, never before their time, the earliest first, each worker one at a time; workers leave, submissions are refused, the program is ended and the destructor returns only for the
reasons the specification gives. -/
theorem history_conforms (hm : c.monotone = true) (m : Nat) (now steady : Int) (ls : List Label) (s : State) (es : List Event)
    (h : run (step c n) (init n m now steady) ls = some (s, es)) : Accepts (specNext n false) (Book.new n) es :=
  simulation (Rel c n) (sim (Or.inr hm)) (init_rel m now steady) h

/-- The same with any clock, up to the point where the queue reads the top of an empty heap, if it does. -/
theorem history_conforms_any_clock_partial (m : Nat) (now steady : Int) (ls : List Label) (s : State) (es : List Event)
    (h : run (step c n) (init n m now steady) ls = some (s, es)) : Accepts (specNext n true) (Book.new n) es :=
  simulation (Rel c n) (sim (Or.inl rfl)) (init_rel m now steady) h

theorem next_ne_undefined (b : Book) (e : Event) : specNext n false b e ≠ .undefined := by
  intro hn
  cases e <;> simp only [specNext, must] at hn <;> repeat' split at hn
  all_goals cases hn <;> simp_all

theorem accepts_state {b : Book} {es : List Event} (h : Accepts (specNext n false) b es) : ∃ b', specState (specNext n false) b es = some b' := by
  induction es generalizing b with
  | nil => exact ⟨b, rfl⟩
  | cons e es ih =>
    simp only [Accepts, specState] at *
    cases hn : specNext n false b e with
    | ok b' => simp only [hn] at h ⊢; exact ih h
    | undefined => exact absurd hn (next_ne_undefined b e)
    | illegal => simp [hn] at h

/-- **C51, no closure starts early.** -/
theorem never_early (hm : c.monotone = true) (m : Nat) (now0 steady : Int) (ls : List Label) (s : State) (es : List Event)
    (h : run (step c n) (init n m now0 steady) ls = some (s, es)) (w : Nat) (v : Work) (due now : Int) (he : .started w v due now ∈ es) : due ≤ now := by
  obtain ⟨a, z, rfl⟩ := List.append_of_mem he
  have hA := history_conforms hm m now0 steady ls s _ h
  obtain ⟨b, hb⟩ := accepts_state hA.prefix
  have := hA.next_of_specState hb
  simp only [specNext, must] at this
  repeat' split at this
  all_goals simp_all

/-- The event accepts / starts closure `v` with time `due`. -/
def isAccept (v : Work) (due : Int) : Event → Bool
  | .accepted _ v' due' => decide ((v', due') = (v, due))
  | _ => false
def isStart (v : Work) (due : Int) : Event → Bool
  | .started _ v' due' _ => decide ((v', due') = (v, due))
  | _ => false

theorem count_balance (v : Work) (due : Int) {es : List Event} : ∀ {b b' : Book}, specState (specNext n false) b es = some b' →
    es.countP (isStart v due) + b'.pending.count (v, due) = es.countP (isAccept v due) + b.pending.count (v, due) := by
  induction es with
  | nil => intro b b' h; simp only [specState, Option.some.injEq] at h; subst h; rfl
  | cons e es ih =>
    intro b b' h
    simp only [specState] at h
    split at h
    · rename_i b1 hb1
      have := ih h
      simp only [List.countP_cons]
      cases e with
      | accepted t v' due' =>
        simp only [specNext, must] at hb1
        repeat' split at hb1
        all_goals cases hb1
        simp only [List.count_append, List.count_cons, List.count_nil, isAccept, isStart] at this ⊢
        by_cases hv : (v', due') = (v, due)
        · simp only [hv, decide_true, beq_self_eq_true, if_true] at this ⊢; simp; omega
        · simp only [hv, decide_false, beq_eq_false_iff_ne.mpr hv] at this ⊢; simp at this ⊢; omega
      | started w v' due' now =>
        simp only [specNext, must] at hb1
        repeat' split at hb1
        all_goals cases hb1
        rename_i hx
        simp only [isAccept, isStart] at this ⊢
        by_cases hv : (v', due') = (v, due)
        · have hpos := List.count_pos_iff.mpr hx.2.1
          simp only [hv, List.count_erase_self, decide_true, if_true] at this hpos ⊢
          simp
          omega
        · rw [List.count_erase_of_ne (fun h => hv h.symm)] at this
          simp only [hv, decide_false]
          simp
          omega
      | _ =>
        simp only [specNext, must] at hb1
        repeat' split at hb1
        all_goals cases hb1
        all_goals simpa [isAccept, isStart] using this
    · cases h
    · cases h

/-- **C51, no closure starts more often than it was accepted.** -/
theorem starts_at_most_once (hm : c.monotone = true) (m : Nat) (now0 steady : Int) (ls : List Label) (s : State) (es : List Event)
    (h : run (step c n) (init n m now0 steady) ls = some (s, es)) (v : Work) (due : Int) : es.countP (isStart v due) ≤ es.countP (isAccept v due) := by
  obtain ⟨b, hb⟩ := accepts_state (history_conforms hm m now0 steady ls s es h)
  have := count_balance v due hb
  simp only [Book.new, List.count_nil] at this
  omega

/-- **C51, due work is started.** Whenever an accepted closure is waiting and due at a reading the clock can give, and a worker has nothing to do, that worker, going on by itself, starts a
closure at that reading after at most two steps. -/
theorem due_work_starts (m : Nat) (now0 steady : Int) (ls : List Label) (s : State) (es : List Event) (b : Book) (w : Nat) (x : Work × Int) (now : Int)
    (h : run (step c n) (init n m now0 steady) ls = some (s, es)) (hb : specState (specNext n true) (Book.new n) es = some b) (ho : b.over = false)
    (hf : b.Free w) (hx : x ∈ b.pending) (hdue : x.2 ≤ now) (hclock : s.q.now ≤ now) :
    ∃ ls s' v due, run (step c n) s ls = some (s', [.started w v due now]) ∧ ls.length ≤ 2 ∧ ∀ l ∈ ls, l.pullBy w := by
  have hR := simulation_state (Rel c n) (sim (ub := true) (Or.inl rfl)) (init_rel m now0 steady) h hb
  have hd : s.dead = false := by
    have := hR.over
    cases hd : s.dead with
    | false => rfl
    | true => simp_all
  refine due_starts hR hd ?_ hx hdue hclock
  have h1 := hR.away w
  have h2 := hR.run w
  rw [hf.2] at h2
  cases hw : s.w w with
  | fetch => rfl
  | left => simp [hw, hf.1] at h1
  | busy v => simp [hw] at h2

/-- **C51, destruction ends.** Once the destructor has been called it can return, as long as the closures that run do return and an executor they hand work to accepts it. -/
theorem destructor_returns (hm : c.monotone = true) (m : Nat) (now0 steady : Int) (ls : List Label) (s : State) (es : List Event) (b : Book)
    (h : run (step c n) (init n m now0 steady) ls = some (s, es)) (hb : specState (specNext n true) (Book.new n) es = some b) (ho : b.over = false)
    (hdy : b.dying = true) (hex : b.exClosed = false) : ∃ d ls s' es, run (step c n) s ls = some (s', es ++ [.destroyed d]) := by
  have hR := simulation_state (Rel c n) (sim (ub := true) (Or.inl rfl)) (init_rel m now0 steady) h hb
  have hover := hR.over
  have hd : s.dead = false := by
    cases hd : s.dead with
    | false => rfl
    | true => simp_all
  refine dtor_returns hm (ok_run hm (ok_init m now0 steady) h) hd (hR.ex ▸ hex) ?_ ?_
  · intro h0; have := hR.dying.mpr h0; simp_all
  · intro h0; simp_all

/-- **C51, work is handed over only if it was submitted that way.** In particular `scheduling_adaptor`, whose member functions submit plain closures only, never hands anything to the executor it
was constructed with. -/
theorem handed_only_if_submitted (hm : c.monotone = true) (m : Nat) (now0 steady : Int) (ls : List Label) (s : State) (es : List Event)
    (h : run (step c n) (init n m now0 steady) ls = some (s, es)) (w id : Nat) (he : .handed w id ∈ es) : ∃ t due, Event.accepted t (.hand id) due ∈ es := by
  have key : ∀ (es : List Event) (b b' : Book), specState (specNext n false) b es = some b' →
      ∀ v, ((∃ due, (v, due) ∈ b'.pending) ∨ ∃ w, b'.running w = some v) → ((∃ due, (v, due) ∈ b.pending) ∨ ∃ w, b.running w = some v) ∨ ∃ t due, Event.accepted t v due ∈ es := by
    intro es
    induction es with
    | nil => intro b b' h v hv; simp only [specState, Option.some.injEq] at h; subst h; exact Or.inl hv
    | cons e es ih =>
      intro b b' h v hv
      simp only [specState] at h
      split at h
      · rename_i b1 hb1
        rcases ih b1 b' h v hv with h1 | ⟨t, due, h1⟩
        · have : ((∃ due, (v, due) ∈ b.pending) ∨ ∃ w, b.running w = some v) ∨ ∃ t due, e = Event.accepted t v due := by
            cases e <;> simp only [specNext, must] at hb1 <;> (repeat' split at hb1) <;> cases hb1
            all_goals first
              | exact Or.inl h1
              | skip
            · simp only [List.mem_append, List.mem_singleton, Prod.mk.injEq] at h1
              rcases h1 with ⟨due', h1 | ⟨rfl, rfl⟩⟩ | h1
              · exact Or.inl (Or.inl ⟨due', h1⟩)
              · exact Or.inr ⟨_, _, rfl⟩
              · exact Or.inl (Or.inr h1)
            · rename_i hx
              have := fun x y => List.mem_of_mem_erase (a := x) (b := y) (l := b.pending)
              grind
            all_goals grind
          rcases this with h2 | ⟨t, due, rfl⟩
          · exact Or.inl h2
          · exact Or.inr ⟨t, due, by simp⟩
        · exact Or.inr ⟨t, due, List.mem_cons_of_mem _ h1⟩
      · cases h
      · cases h
  obtain ⟨a, z, rfl⟩ := List.append_of_mem he
  have hA := history_conforms hm m now0 steady ls s _ h
  obtain ⟨b, hb⟩ := accepts_state hA.prefix
  have := hA.next_of_specState hb
  have hr : b.running w = some (.hand id) := by
    simp only [specNext, must] at this
    repeat' split at this
    all_goals simp_all
  rcases key a _ b hb (.hand id) (Or.inr ⟨w, hr⟩) with h1 | ⟨t, due, h1⟩
  · simp [Book.new] at h1
  · exact ⟨t, due, by simp [h1]⟩

/-! ## What a user might expect and does not get -/

/-- Full C51 also asks that a closure that has been accepted is run before the destructor returns. -/
def AllRun (es : List Event) : Prop := (∃ d, Event.destroyed d ∈ es) → ∀ t v due, Event.accepted t v due ∈ es → ∃ w now, Event.started w v due now ∈ es

/-- `steady_clock`. -/
abbrev steadyCfg : TimedQueue.Cfg := { monotone := true, poll := none }

/-- A scheduler is closed and destroyed before the time of a closure: the closure is dropped without a word. -/
def dropped : List Label :=
  [.submit 1 (.fn 7) 100, .fetch 0 (at_ 0) 0, .destroy 1, .destroyNotify, .interruptNext, .interruptWait 0, .join]

theorem drops_what_is_not_due : ∃ s es, run (step steadyCfg 1) (init 1 1 0 0) dropped = some (s, es) ∧ ¬ AllRun es ∧
    es = [.accepted 1 (.fn 7) 100, .destroying 1, .closed 1, .closeReturned 1, .interrupted 0, .leftInterrupted 0, .destroyed 1] := by
  refine ⟨_, _, rfl, ?_, by decide⟩
  intro h
  obtain ⟨w, now, h'⟩ := h ⟨1, by decide⟩ 1 (.fn 7) 100 (by decide)
  simp [lift, List.flatMap] at h'

/-- Even work that is due: two closures are due at 30, the clock has read 40, and the destructor returns with one of them never started. -/
def droppedDue : List Label :=
  [.submit 2 (.fn 7) 30, .submit 2 (.fn 8) 30, .fetch 1 (at_ 0) 0, .fetch 0 (at_ 40) 0, .destroy 2, .destroyNotify, .interruptNext, .interruptNext, .interruptWait 1,
   .throwInterrupted 0, .join]

theorem drops_what_is_due : ∃ s es, run (step steadyCfg 2) (init 2 1 0 0) droppedDue = some (s, es) ∧ ¬ AllRun es ∧
    es = [.accepted 2 (.fn 7) 30, .accepted 2 (.fn 8) 30, .started 0 (.fn 7) 30 40, .destroying 2, .closed 2, .closeReturned 2, .interrupted 0, .interrupted 1,
      .leftInterrupted 1, .abandoned 0 (.fn 7), .destroyed 2] := by
  have : ∃ s es, run (step steadyCfg 2) (init 2 1 0 0) droppedDue = some (s, es) ∧
    es = [.accepted 2 (.fn 7) 30, .accepted 2 (.fn 8) 30, .started 0 (.fn 7) 30 40, .destroying 2, .closed 2, .closeReturned 2, .interrupted 0, .interrupted 1,
      .leftInterrupted 1, .abandoned 0 (.fn 7), .destroyed 2] := ⟨_, _, rfl, by decide⟩
  obtain ⟨s, es, h, rfl⟩ := this
  refine ⟨s, _, h, ?_, rfl⟩
  intro h
  obtain ⟨w, now, h'⟩ := h ⟨2, by simp⟩ 2 (.fn 8) 30 (by simp)
  simp at h'

/-- An executor that is closed between the submission and the due time ends the program. -/
theorem closed_executor_terminates : ∃ s es, run (step steadyCfg 1) (init 1 1 0 0)
      [.via 1 (.hand 7) 10 false, .push 1, .closeExecutor, .fetch 0 (at_ 10) 0, .finish 0] = some (s, es) ∧
    es = [.accepted 1 (.hand 7) 10, .executorClosed, .started 0 (.hand 7) 10 10, .terminated 0 (.hand 7) .executorClosed] := ⟨_, _, rfl, by decide⟩

/-- A closure from which `thread_interrupted` escapes ends its worker, without any interruption and without a trace. -/
theorem worker_lost : ∃ s es, run (step steadyCfg 1) (init 1 1 0 0)
      [.submit 1 (.fn 7) 0, .fetch 0 (at_ 0) 0, .throwInterrupted 0, .submit 1 (.fn 8) 1] = some (s, es) ∧
    es = [.accepted 1 (.fn 7) 0, .started 0 (.fn 7) 0 0, .abandoned 0 (.fn 7), .accepted 1 (.fn 8) 1] := ⟨_, _, rfl, by decide⟩

/-- Without workers the executor still accepts work, and never starts any. -/
theorem no_worker_no_start (hm : c.monotone = true) (m : Nat) (now0 steady : Int) (ls ls' : List Label) (s s' : State) (es es' : List Event) (b : Book)
    (h : run (step c n) (init n m now0 steady) ls = some (s, es)) (hb : specState (specNext n true) (Book.new n) es = some b) (hall : ∀ w < n, b.away w = true)
    (h' : run (step c n) s ls' = some (s', es')) (w : Nat) (v : Work) (due now : Int) : Event.started w v due now ∉ es' := by
  have hR := simulation_state (Rel c n) (sim (ub := true) (Or.inl rfl)) (init_rel m now0 steady) h hb
  have hall' : ∀ w, b.away w = true := by
    intro w
    rcases Nat.lt_or_ge w n with hw | hw
    · exact hall w hw
    · exact (hR.away w).mpr (hR.wlt w hw)
  have hA := simulation (Rel c n) (sim (ub := false) (Or.inr hm)) hR h'
  intro he
  obtain ⟨a, z, rfl⟩ := List.append_of_mem he
  obtain ⟨b', hb'⟩ := accepts_state hA.prefix
  have key : ∀ (es : List Event) (b b' : Book), specState (specNext n false) b es = some b' → (∀ w, b.away w = true) → ∀ w, b'.away w = true := by
    intro es
    induction es with
    | nil => intro b b' h hb; simp only [specState, Option.some.injEq] at h; subst h; exact hb
    | cons e es ih =>
      intro b b' h hb
      simp only [specState] at h
      split at h
      · rename_i b1 hb1
        refine ih b1 b' h ?_
        cases e <;> simp only [specNext, must] at hb1 <;> (repeat' split at hb1) <;> cases hb1
        all_goals grind
      · cases h
      · cases h
  have h1 := key a b b' hb' hall'
  have := hA.next_of_specState hb'
  simp only [specNext, must, Book.Free, h1 w] at this
  simp at this

/-! ## Non-vacuity -/

/-- Two workers, a plain closure and one for another executor, in the order of their times, then destruction. -/
def demo : List Label :=
  [.fetch 0 (at_ 0) 0, .submit 2 (.fn 7) 30, .via 2 (.hand 8) 10 false, .push 2, .resume 0 (at_ 1) 0, .timeout 0 10, .resume 0 (at_ 10) 1, .finish 0,
   .fetch 1 (at_ 30) 0, .submit 1 (.fn 9) 500, .finish 1, .destroy 2, .destroyNotify, .fetch 0 (at_ 31) 0, .interruptNext, .interruptNext, .fetch 1 (at_ 31) 0, .join]

example : ∃ s es, run (step steadyCfg 2) (init 2 1 0 0) demo = some (s, es) ∧
    es = [.accepted 2 (.fn 7) 30, .accepted 2 (.hand 8) 10, .started 0 (.hand 8) 10 10, .handed 0 8, .started 1 (.fn 7) 30 30, .accepted 1 (.fn 9) 500, .ended 1 (.fn 7),
      .destroying 2, .closed 2, .closeReturned 2, .left 0 31, .interrupted 0, .interrupted 1, .left 1 31, .destroyed 2] := ⟨_, _, rfl, by decide⟩

/-- The hypotheses of `due_work_starts`: a worker asleep until 30 while a closure due at 30 waits. -/
example : ∃ s es b, run (step steadyCfg 1) (init 1 1 0 0) [.submit 1 (.fn 7) 30, .fetch 0 (at_ 0) 0] = some (s, es) ∧
    specState (specNext 1 true) (Book.new 1) es = some b ∧ b.over = false ∧ b.Free 0 ∧ (.fn 7, 30) ∈ b.pending ∧ s.q.now ≤ 30 :=
  ⟨_, _, _, rfl, rfl, rfl, ⟨rfl, rfl⟩, by decide, by decide⟩

/-- The hypotheses of `destructor_returns`: a worker is in a closure when the destructor starts. -/
example : ∃ s es b, run (step steadyCfg 1) (init 1 1 0 0) [.submit 1 (.fn 7) 0, .fetch 0 (at_ 0) 0, .destroy 1] = some (s, es) ∧
    specState (specNext 1 true) (Book.new 1) es = some b ∧ b.over = false ∧ b.dying = true ∧ b.exClosed = false ∧ b.running 0 = some (.fn 7) :=
  ⟨_, _, _, rfl, rfl, rfl, rfl, rfl, rfl⟩

/-- The hypotheses of `no_worker_no_start`. -/
example : ∃ s es b, run (step steadyCfg 1) (init 1 1 0 0) [.submit 1 (.fn 7) 0, .fetch 0 (at_ 0) 0, .throwInterrupted 0, .submit 1 (.fn 8) 1] = some (s, es) ∧
    specState (specNext 1 true) (Book.new 1) es = some b ∧ (∀ w < 1, b.away w = true) ∧ b.pending = [(.fn 8, 1)] :=
  ⟨_, _, _, rfl, rfl, by decide, by decide⟩

end Verif.Scheduler
