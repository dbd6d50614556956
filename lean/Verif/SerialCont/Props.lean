import Verif.SerialCont.Live
/-!
# Properties of `serial_executor_cont`

C57: the closures given to a `serial_executor_cont` run one after the other, in the order of submission, whatever the underlying executor does.
-/

set_option linter.unusedSimpArgs false
set_option linter.unusedVariables false

namespace Verif.SerialCont

/-! ## Order -/

/-- Whatever the underlying executor, the clients and the closures do: what is seen of the closures is a beginning of "closure 0 begins, closure 0 ends, closure 1 begins, ...". -/
theorem serial_order {ls : List Label} {s : State} {es : List Event} (h : run step init ls = some (s, es)) : Serial es := by
  obtain ⟨f, ph, -, he⟩ := reach_front h
  rw [Serial, he]
  simp only [seen]
  split
  · exact ⟨f + 1, by rw [serial_succ]; exact ⟨[.ended f], by simp⟩⟩
  · split
    · exact ⟨f + 1, by rw [serial_succ]; exact List.prefix_refl _⟩
    · exact ⟨f, by simp⟩

/-- Two clients submit, and a closure submits a third one while it runs. -/
def sample : List Label :=
  [.call (.client 0) .submit, .go (.client 0), .go (.client 0), .give (.client 0), .begin 0, .call (.client 1) .submit, .go (.client 1), .call (.closure 0) .submit, .go (.client 1),
   .go (.closure 0), .go (.closure 0), .finish 0, .mark 0, .pass 0, .begin 1, .finish 1, .mark 1, .pass 1, .begin 2, .finish 2, .mark 2,
   .call (.client 0) .close, .go (.client 0), .call (.client 1) .submit, .go (.client 1), .call (.client 1) .closed, .go (.client 1), .destroy 0, .destroyEnd]

def sampleHist : List Event :=
  [.called (.client 0) .submit, .queued (.client 0) 0, .submitted (.client 0) 0, .started 0, .called (.client 1) .submit, .called (.closure 0) .submit, .queued (.client 1) 1,
   .submitted (.client 1) 1, .queued (.closure 0) 2, .submitted (.closure 0) 2, .ended 0, .started 1, .ended 1, .started 2, .ended 2,
   .called (.client 0) .close, .closeReturned (.client 0), .called (.client 1) .submit, .refused (.client 1), .called (.client 1) .closed, .closedIs (.client 1) true, .destroyCalled 0, .destroyed 0]

example : ∃ s, run step init sample = some (s, sampleHist) := ⟨_, rfl⟩
example : ¬ Serial [.started 0, .started 1] := by
  rintro ⟨n, h⟩
  match n with
  | 0 => simp [serial, isRun] at h
  | n + 1 => rw [serial, List.range_succ_eq_map, show List.filter isRun [.started 0, .started 1] = [.started 0, .started 1] from rfl] at h; simp at h
example : ¬ Serial [.started 1] := by
  rintro ⟨n, h⟩
  match n with
  | 0 => simp [serial, isRun] at h
  | n + 1 => rw [serial, List.range_succ_eq_map, show List.filter isRun [.started 1] = [.started 1] from rfl] at h; simp at h

/-! ## The contract -/

/-- If the client destroys the executor only when no closure is left, the history follows the contract. The full contract (`next false`) also asks the destructor to wait; see
`destructor_does_not_wait`. -/
theorem history_conforms_partial {ls : List Label} {s : State} {es : List Event} (h : run step init ls = some (s, es)) : Accepts (next true) start es :=
  simulation (R := R) (fun s l s' es σ hi hs => step_ok hi hs) R.init h

/-- Nothing here is outside the contract. -/
example : (specState (next true) start sampleHist).isSome = true := by decide
example : ¬ Accepts (next true) start [.called (.client 0) .submit, .queued (.client 0) 0, .called (.client 1) .submit, .queued (.client 1) 1, .started 1] := by decide
example : ¬ Accepts (next true) start [.called (.client 0) .close, .closeReturned (.client 0), .called (.client 0) .submit, .queued (.client 0) 0] := by decide
example : ¬ Accepts (next true) start [.called (.client 0) .submit, .refused (.client 0)] := by decide

/-! ## Progress -/

theorem step_queued {s s' : State} {l : Label} {es : List Event} {k : Caller} {c : Nat} (hs : step s l = some (s', es)) (he : .queued k c ∈ es) : c < s'.n := by
  simp only [step] at hs
  split at hs
  · cases hs
  cases l <;> simp only [stepLive, stepGo, stepGive, stepGiveInline, stepReject, stepMark, stepPass, stepPassReject, accessEx] at hs
  all_goals (repeat' split at hs) <;> cases hs <;> simp [finishSubmit] at he ⊢ <;> omega

theorem reach_queued {ls : List Label} {s : State} {es : List Event} (h : run step init ls = some (s, es)) {k : Caller} {c : Nat} (he : .queued k c ∈ es) : c < s.n := by
  have := run_inv_hist (step := step) (fun s hist => ∀ k c, .queued k c ∈ hist → c < s.n) (fun s l s' hist es h hs k c hx => by
    rcases List.mem_append.1 hx with hx | hx
    · exact Nat.lt_of_lt_of_le (h k c hx) (step_mono hs)
    · exact step_queued hs hx) (hist := []) (by simp) h
  exact this k c (by simpa using he)

theorem mem_serial {c f : Nat} (h : c < f) : .ended c ∈ serial f := by
  simp only [serial, List.mem_flatMap, List.mem_range]
  exact ⟨c, h, by simp⟩

/-- If the underlying executor keeps what it is given, no closure throws and nobody destroys the executor, then at any moment every closure taken in so far can still be brought to its end, by steps
of calls that have begun and of the underlying executor alone. -/
theorem accepted_closures_complete {ls : List Label} {s : State} {es : List Event} (h : run step init ls = some (s, es)) (hf : ∀ l ∈ ls, l.fair = true) :
    ∃ ls' s' es', (∀ l ∈ ls', l.work = true) ∧ run step s ls' = some (s', es') ∧ ∀ k c, .queued k c ∈ es → .ended c ∈ es ++ es' := by
  obtain ⟨f, ph, hg⟩ := run_inv_on (step := step) (P := fun l => l.fair = true) (fun s => ∃ f ph, Good s f ph) (fun s l s' es hl hi hs => by
    obtain ⟨f, ph, hi⟩ := hi
    exact step_good hi hl hs) hf ⟨0, .idle, Good.init⟩ h
  obtain ⟨s', f', ph', ⟨ls', es', hw, hr⟩, hg', hn⟩ := all_end _ hg s.n (Nat.le_refl _) (Nat.le_refl _)
  refine ⟨ls', s', es', hw, hr, fun k c hq => ?_⟩
  have hc := reach_queued h hq
  obtain ⟨f₀, ph₀, hf₀, he₀⟩ := reach_front (run_append h hr)
  have hlt : c < f₀ := by
    have h1 := hf₀.done f'
    rw [hg'.fi.done f'] at h1
    have : f' ≤ f₀ := by simpa using h1.symm
    omega
  have : .ended c ∈ (es ++ es').filter isRun := by rw [he₀, seen]; exact List.mem_append_left _ (mem_serial hlt)
  exact (List.mem_filter.1 this).1

/-- Two closures are in: one is running and in the middle of its own `submit`, the other waits. -/
example : ∃ s es, run step init (sample.take 10) = some (s, es) ∧ (∀ l ∈ sample.take 10, l.fair = true) ∧ .queued (.client 1) 1 ∈ es ∧ .ended 0 ∉ es := ⟨_, _, rfl, by decide, by decide, by decide⟩

/-! ## What goes wrong -/

/-- The destructor returns although a closure is running and another one has not begun, contrary to what its comment says (96). -/
theorem destructor_does_not_wait : ∃ ls s es, run step init ls = some (s, es) ∧ .destroyed 0 ∈ es ∧ .started 0 ∈ es ∧ .ended 0 ∉ es ∧ .queued (.client 0) 1 ∈ es ∧ .started 1 ∉ es ∧
    ¬ Accepts (next false) start es :=
  ⟨[.call (.client 0) .submit, .go (.client 0), .go (.client 0), .give (.client 0), .call (.client 0) .submit, .go (.client 0), .go (.client 0), .begin 0, .destroy 0, .destroyEnd], _, _, rfl,
    by decide, by decide, by decide, by decide, by decide, by decide⟩

/-- Worse: when the running closure ends, the executor's member is used although it has been destroyed. -/
theorem use_after_destructor : ∃ ls s es, run step init ls = some (s, es) ∧ .destroyed 0 ∈ es ∧ .bad ∈ es :=
  ⟨[.call (.client 0) .submit, .go (.client 0), .go (.client 0), .give (.client 0), .call (.client 0) .submit, .go (.client 0), .go (.client 0), .begin 0, .destroy 0, .destroyEnd, .finish 0, .mark 0,
    .pass 0], _, _, rfl, by decide, by decide⟩

/-- Once the underlying executor has thrown, in `submit` or after the end of a closure, no closure begins any more. -/
theorem nothing_starts_after_failure {ls ls' : List Label} {s s' : State} {es es' : List Event} (h : run step init ls = some (s, es)) (h' : run step s ls' = some (s', es'))
    (he : (∃ k c, .failed k c ∈ es) ∨ ∃ c, .lost c ∈ es) (d : Nat) : .started d ∉ es' := by
  have hb : Broken s := by
    refine reach_broken h ?_
    rcases he with ⟨k, c, he⟩ | ⟨c, he⟩
    · exact ⟨_, he, rfl⟩
    · exact ⟨_, he, rfl⟩
  have := run_inv_hist (step := step) (fun s hist => Broken s ∧ .started d ∉ hist) (fun s l s' hist es h hs => by
    obtain ⟨h1, h2⟩ := step_broken h.1 hs
    refine ⟨h1, ?_⟩
    rw [List.mem_append]
    exact fun hx => hx.elim h.2 (h2 d)) (hist := []) ⟨hb, by simp⟩ h'
  simpa using this.2

/-- Closures that `submit` has accepted, before the failure and after it, never run. -/
theorem accepted_closure_lost : ∃ ls s es, run step init ls = some (s, es) ∧ .lost 1 ∈ es ∧ .submitted (.client 0) 1 ∈ es ∧ .submitted (.client 0) 2 ∈ es ∧
    ∀ ls' s' es', run step s ls' = some (s', es') → ∀ d, .started d ∉ es' := by
  have hr : ∃ s es, run step init [.call (.client 0) .submit, .go (.client 0), .go (.client 0), .give (.client 0), .call (.client 0) .submit, .go (.client 0), .go (.client 0), .begin 0, .finish 0,
      .mark 0, .passReject 0, .call (.client 0) .submit, .go (.client 0), .go (.client 0)] = some (s, es) ∧ .lost 1 ∈ es ∧ .submitted (.client 0) 1 ∈ es ∧ .submitted (.client 0) 2 ∈ es :=
    ⟨_, _, rfl, by decide, by decide, by decide⟩
  obtain ⟨s, es, h, h1, h2, h3⟩ := hr
  exact ⟨_, s, es, h, h1, h2, h3, fun ls' s' es' h' d => nothing_starts_after_failure h h' (.inr ⟨1, h1⟩) d⟩

/-- `fut_` has been moved from and will not be assigned. -/
def Poisoned (s : State) : Prop := s.fut = none ∧ ∀ k, (s.pc k).moved = false

theorem step_poisoned {s s' : State} {l : Label} {es : List Event} (h : Poisoned s) (hs : step s l = some (s', es)) : Poisoned s' ∧ ∀ k c, .queued k c ∉ es := by
  obtain ⟨h1, h2⟩ := h
  have h3 : ∀ k c, s.pc k ≠ .launch c := fun k c hk => by have := h2 k; rw [hk] at this; cases this
  have h4 : ∀ k c, s.pc k ≠ .inline c := fun k c hk => by have := h2 k; rw [hk] at this; cases this
  have h5 : ∀ k q, q.moved = false → ∀ j, (upd s.pc k q j).moved = false := by
    intro k q hq j; rw [upd_apply]; split
    · exact hq
    · exact h2 j
  simp only [step] at hs
  split at hs
  · cases hs
  cases l <;> simp only [stepLive, stepGo, stepGive, stepGiveInline, stepReject, stepMark, stepPass, stepPassReject, accessEx] at hs
  all_goals (repeat' split at hs) <;> cases hs <;> first
    | exact ⟨⟨h1, h5 _ _ rfl⟩, by simp⟩
    | exact ⟨⟨h1, h2⟩, by simp⟩
    | (exfalso; rename_i hk; exact h3 _ _ hk)
    | (exfalso; rename_i hk _; exact h4 _ _ hk)
    | (exfalso; simp_all; done)

theorem reject_poisons {s s' : State} {f : Nat} {ph : Ph} {l : Label} {es : List Event} {k : Caller} {c : Nat} (h : FInv s f ph) (hs : step s l = some (s', es)) (he : .failed k c ∈ es) :
    Poisoned s' := by
  simp only [step] at hs
  split at hs
  · cases hs
  cases l <;> simp only [stepLive, stepGo, stepGive, stepGiveInline, stepReject, stepMark, stepPass, stepPassReject, accessEx] at hs
  all_goals (repeat' split at hs) <;> cases hs <;> simp at he
  rename_i k' _ c' hk
  refine ⟨?_, fun j => ?_⟩
  · cases hfut : s.fut with
    | none => rfl
    | some p => have := (h.fut p hfut).2 k'; rw [hk] at this; cases this
  · simp only [upd_apply]; split
    · rfl
    · rename_i hj
      cases hq : (s.pc j).moved with
      | false => rfl
      | true => have := h.others (k := k') (by rw [hk]; rfl) j hj; rw [holds_of_moved hq] at this; cases this

/-- Once `submit` has thrown an exception of the underlying executor, no closure is ever taken in again, although the executor is not closed. -/
theorem failed_submit_poisons {ls ls' : List Label} {s s' : State} {es es' : List Event} (h : run step init ls = some (s, es)) (h' : run step s ls' = some (s', es')) {k : Caller} {c : Nat}
    (he : .failed k c ∈ es) (j : Caller) (d : Nat) : .queued j d ∉ es' := by
  have hp := (run_inv_hist (step := step) (fun s hist => (∃ f ph, FInv s f ph) ∧ (.failed k c ∈ hist → Poisoned s)) (fun s l s' hist es h hs => by
    obtain ⟨⟨f, ph, hf⟩, hb⟩ := h
    obtain ⟨f', ph', hf', -⟩ := step_front hf hs
    refine ⟨⟨f', ph', hf'⟩, fun hx => ?_⟩
    rcases List.mem_append.1 hx with hx | hx
    · exact (step_poisoned (hb hx) hs).1
    · exact reject_poisons hf hs hx) (hist := []) ⟨⟨0, .idle, FInv.init⟩, by simp⟩ h).2 (by simpa using he)
  have := run_inv_hist (step := step) (fun s hist => Poisoned s ∧ .queued j d ∉ hist) (fun s l s' hist es h hs => by
    obtain ⟨h1, h2⟩ := step_poisoned h.1 hs
    refine ⟨h1, ?_⟩
    rw [List.mem_append]
    exact fun hx => hx.elim h.2 (h2 j d)) (hist := []) ⟨hp, by simp⟩ h'
  simpa using this.2

/-- The next `submit` uses a null pointer. -/
example : ∃ s es, run step init [.call (.client 0) .submit, .go (.client 0), .go (.client 0), .reject (.client 0), .call (.client 0) .submit, .go (.client 0), .go (.client 0)] = some (s, es) ∧
    .failed (.client 0) 0 ∈ es ∧ .invalid (.client 0) ∈ es ∧ s.closed = false := ⟨_, _, rfl, by decide, by decide, rfl⟩

/-- The return of a call. -/
def isReturn : Event → Bool
  | .submitted _ _ | .refused _ | .failed _ _ | .invalid _ | .closeReturned _ | .closedIs _ _ | .destroyed _ => true
  | _ => false

/-- A closure that is run within `submit` waits for the mutex that this `submit` holds. -/
structure Dead (s : State) (k : Caller) (c : Nat) : Prop where
  fi : ∃ f ph, FInv s f ph
  inl : s.pc k = .inline c
  lock : ∃ o, s.pc (.closure c) = .lock o
  job : s.job c = .running
  gone : s.gone = false

theorem step_deadlock {s s' : State} {k : Caller} {c : Nat} {l : Label} {es : List Event} (h : Dead s k c) (hs : step s l = some (s', es)) : Dead s' k c ∧ ∀ e ∈ es, isReturn e = false ∧ e ≠ .ended c := by
  obtain ⟨f, ph, hf⟩ := h.fi
  obtain ⟨f', ph', hf', -⟩ := step_front hf hs
  obtain ⟨rfl, hcn, hp⟩ := job_front hf h.job (by simp) (by simp) (by simp) (by simp)
  have hph : ph = .running := by cases ph <;> simp [Ph.job] at hp <;> rfl
  subst hph
  have hi := h.inl; have hj := h.job; have hg := h.gone
  obtain ⟨o, hl⟩ := h.lock
  have hm := hf.holds k (by rw [hi]; rfl)
  have hoth := hf.others (k := k) (by rw [hi]; rfl)
  have hjob : ∀ d j, s.job d = j → j ≠ .none → j ≠ .waiting → j ≠ .finished → (∀ l, j ≠ .launching l) → d = c ∧ j = .running := by
    intro d j hd h1 h2 h3 h4
    obtain ⟨hx, -, hy⟩ := job_front hf hd h1 h2 h3 h4
    exact ⟨hx, hy.symm⟩
  have hpass : ∀ d l, s.job d ≠ .launching l := fun d l hd => by have := (job_pass hf hd).2.1; cases this
  have hlaunch : ∀ k c, s.pc k ≠ .launch c := fun k c hk => by have := (hf.launch k c hk).2.2; cases this
  simp only [step] at hs
  split at hs
  · cases hs
  cases l with
  | call k' o' =>
    simp only [stepLive] at hs
    split at hs <;> cases hs
    rename_i hmay
    have hid : s.pc k' = .idle := by cases k' <;> simp only [mayCall, Bool.and_eq_true, beq_iff_eq] at hmay <;> exact hmay.1
    have h1 : k ≠ k' := by rintro rfl; rw [hi] at hid; cases hid
    have h2 : Caller.closure c ≠ k' := by rintro rfl; rw [hl] at hid; cases hid
    exact ⟨{ fi := ⟨f', ph', hf'⟩, inl := (by simp only [upd_apply]; rw [if_neg h1]; exact hi), lock := ⟨o, by simp only [upd_apply]; rw [if_neg h2]; exact hl⟩, job := hj, gone := hg }, by simp [isReturn]⟩
  | go k' =>
    simp only [stepLive, stepGo] at hs
    split at hs
    · cases hs
    · rw [if_neg (by simp [hg]), if_neg (by simp [hm])] at hs; cases hs
    · rename_i hk'
      by_cases hkk : k' = k
      · subst hkk; rw [hi] at hk'; cases hk'
      · have := hoth k' hkk; rw [hk'] at this; cases this
    · cases hs
    · rename_i d hk'
      by_cases hkk : k' = k
      · subst hkk; rw [hi] at hk'; cases hk'; rw [if_neg (by simp [hj])] at hs; cases hs
      · have := hoth k' hkk; rw [hk'] at this; cases this
  | give k' => simp only [stepLive, stepGive] at hs; split at hs <;> cases hs; rename_i hk; exact absurd hk (hlaunch _ _)
  | giveInline k' => simp only [stepLive, stepGiveInline] at hs; split at hs <;> cases hs; rename_i hk; exact absurd hk (hlaunch _ _)
  | reject k' => simp only [stepLive, stepReject] at hs; split at hs <;> cases hs; rename_i hk; exact absurd hk (hlaunch _ _)
  | begin d => simp only [stepLive] at hs; split at hs <;> cases hs; rename_i hd; have := (hjob d _ hd (by simp) (by simp) (by simp) (by simp)).2; cases this
  | finish d => simp only [stepLive] at hs; split at hs <;> cases hs; rename_i hd; obtain ⟨rfl, -⟩ := hjob d _ hd.1 (by simp) (by simp) (by simp) (by simp); rw [hl] at hd; cases hd.2
  | throw d => simp only [stepLive] at hs; split at hs <;> cases hs; rename_i hd; obtain ⟨rfl, -⟩ := hjob d _ hd.1 (by simp) (by simp) (by simp) (by simp); rw [hl] at hd; cases hd.2
  | mark d => simp only [stepLive, stepMark] at hs; split at hs <;> cases hs; rename_i hd; have := (hjob d _ hd (by simp) (by simp) (by simp) (by simp)).2; cases this
  | pass d => simp only [stepLive, stepPass] at hs; split at hs <;> cases hs; rename_i hd; exact absurd hd (hpass _ _)
  | passReject d => simp only [stepLive, stepPassReject] at hs; split at hs <;> cases hs; rename_i hd; exact absurd hd (hpass _ _)
  | destroy t =>
    simp only [stepLive] at hs
    split at hs <;> cases hs
    exact ⟨{ fi := ⟨f', ph', hf'⟩, inl := hi, lock := ⟨o, hl⟩, job := hj, gone := hg }, by simp [isReturn]⟩
  | destroyEnd =>
    simp only [stepLive] at hs
    split at hs
    · cases hs
    · rw [if_neg (by simp [hm])] at hs; cases hs

/-- The destructor takes and releases the mutex; nobody gets it afterwards. -/
theorem reach_gone {ls : List Label} {s : State} {es : List Event} (h : run step init ls = some (s, es)) : s.gone = true → s.mtx = none :=
  run_inv (step := step) (fun s => s.gone = true → s.mtx = none) (fun s l s' es h hs => by
    simp only [step] at hs
    split at hs
    · cases hs
    cases l <;> simp only [stepLive, stepGo, stepGive, stepGiveInline, stepReject, stepMark, stepPass, stepPassReject, accessEx] at hs
    all_goals (repeat' split at hs) <;> cases hs <;> simp only [finishSubmit] <;> grind) (by simp [init]) h

/-- If the underlying executor carries out a closure at once, within `submit`, and the closure calls a function of this executor, then that call, the `submit`, and every other call never return. -/
theorem inline_call_deadlocks {ls ls' : List Label} {s s₁ s' : State} {es es₁ es' : List Event} (h : run step init ls = some (s, es)) {k : Caller} {c : Nat} {o : Op}
    (h1 : run step s [.giveInline k, .call (.closure c) o] = some (s₁, es₁)) (hc : .started c ∈ es₁) (h' : run step s₁ ls' = some (s', es')) :
    .ended c ∉ es' ∧ ∀ e ∈ es', isReturn e = false := by
  have hd : Dead s₁ k c := by
    obtain ⟨f₁, ph₁, hf₁, -⟩ := reach_front (run_append h h1)
    obtain ⟨f, ph, hf, -⟩ := reach_front h
    obtain ⟨s2, e1, e2, hs1, hr, rfl⟩ := run_cons h1
    obtain ⟨s3, e3, e4, hs2, hr3, rfl⟩ := run_cons hr
    simp only [run_nil, Option.some.injEq, Prod.mk.injEq] at hr3
    obtain ⟨rfl, rfl⟩ := hr3
    obtain ⟨f₂, ph₂, hf₂, -⟩ := step_front hf hs1
    simp only [step] at hs1
    split at hs1
    · cases hs1
    simp only [stepLive, stepGiveInline] at hs1
    split at hs1 <;> cases hs1
    rename_i d hpk
    simp only [step] at hs2
    split at hs2
    · cases hs2
    simp only [stepLive] at hs2
    split at hs2 <;> cases hs2
    rename_i hmay
    simp only [mayCall, Bool.and_eq_true, beq_iff_eq] at hmay
    obtain ⟨hx, -⟩ := job_front hf₂ hmay.2 (by simp) (by simp) (by simp) (by simp)
    obtain ⟨hy, -⟩ := job_front hf₂ (c := d) (j := .running) (by simp [upd_apply]) (by simp) (by simp) (by simp) (by simp)
    have hcd : d = c := by omega
    subst hcd
    have hkc : k ≠ .closure d := by rintro rfl; have := hmay.1; simp [upd_apply] at this
    refine { fi := ⟨f₁, ph₁, hf₁⟩, inl := (by simp only [upd_apply]; rw [if_neg hkc]; simp), lock := ⟨o, by simp [upd_apply]⟩, job := hmay.2, gone := ?_ }
    cases hg : s.gone with
    | false => rfl
    | true => have := hf.holds k (by rw [hpk]; rfl); rw [reach_gone h hg] at this; cases this
  have := run_inv_hist (step := step) (fun s hist => Dead s k c ∧ ∀ e ∈ hist, isReturn e = false ∧ e ≠ .ended c) (fun s l s' hist es h hs => by
    obtain ⟨h1, h2⟩ := step_deadlock h.1 hs
    refine ⟨h1, fun e he => ?_⟩
    rcases List.mem_append.1 he with he | he
    · exact h.2 e he
    · exact h2 e he) (hist := []) ⟨hd, by simp⟩ h'
  simp only [List.nil_append] at this
  exact ⟨fun hx => (this.2 _ hx).2 rfl, fun e he => (this.2 e he).1⟩

/-- It happens. -/
example : ∃ s es s₁ es₁, run step init [.call (.client 0) .submit, .go (.client 0), .go (.client 0)] = some (s, es) ∧
    run step s [.giveInline (.client 0), .call (.closure 0) .closed] = some (s₁, es₁) ∧ .started 0 ∈ es₁ := ⟨_, _, _, _, rfl, rfl, by decide⟩

end Verif.SerialCont
