import Verif.Async.Join
/-!
# Properties of `async`

C56: what `async` promises about the function, the result, and who waits for whom.
-/

set_option linter.unusedSimpArgs false
set_option linter.unusedVariables false

namespace Verif.Async

/-! ## The contract -/

/-- Whatever the threads of the program do, in every configuration: the history follows the contract. -/
theorem async_contract {m : Mode} {k : Nat} {ls : List Label} {s : State} {es : List Event} (h : run (step m) (init k) ls = some (s, es)) : Accepts next start es :=
  simulation (R := Inv) (fun s l s' es σ hi hs => step_ok hi hs) (Inv.init k) h

/-- A run: `async` in thread 0, the function returns 7, `get`. -/
def sample : List Label := [.op 0 (.async .thread), .go 0, .go 0, .op 0 (.get 0), .go 1, .finish 1 (.val 7), .go 1, .go 0, .op 0 (.drop 0), .go 0, .go 1, .go 1, .go 1]

/-- What is observed. -/
def sampleHist : List Event :=
  [.asyncs 0 0 .thread, .asyncRet 0 0, .gets 0 0, .began 1 0, .ended 0 (.val 7), .got 0 0 (.val 7), .drops 0 0, .dropped 0 0, .destroyed 0, .exited 0]

theorem sample_run (m : Mode) : ∃ s, run (step m) (init 1) sample = some (s, sampleHist) := by
  cases m <;> exact ⟨_, rfl⟩

example : ¬ Accepts next start [.asyncs 0 0 .thread, .asyncRet 0 0, .began 1 0, .gets 0 0, .got 0 0 (.val 7)] := by decide
example : ¬ Accepts next start [.asyncs 0 0 .thread, .asyncRet 0 0, .began 1 0, .ended 0 (.val 7), .began 2 0] := by decide
example : ¬ Accepts next start [.asyncs 0 0 .thread, .asyncRet 0 0, .destroyed 0] := by decide
example : ¬ Accepts next start [.asyncs 0 0 .thread, .threw 0 0, .began 1 0] := by decide

/-! ## The same in terms of the history -/

theorem next_phase {σ σ' : Nat → Call} {e : Event} (h : next σ e = .ok σ') (i : Nat) :
    (σ' i).phase = (σ i).phase ∨ ((σ i).phase = .none ∧ (σ' i).phase = .called ∧ ∃ t k, e = .asyncs t i k) ∨
      ((σ i).phase = .called ∧ (σ' i).phase = .failed ∧ ((∃ t, e = .threw t i) ∨ e = .discarded i)) ∨ ((σ i).phase = .called ∧ (σ' i).phase = .running ∧ ∃ t, e = .began t i) ∨
      ((σ i).phase = .running ∧ ∃ o, (σ' i).phase = .ended o ∧ e = .ended i o) := by
  cases e <;> simp only [next] at h <;> (try split at h) <;> cases h <;> simp only [set] <;> (try split) <;> (try subst_vars) <;> simp_all

theorem phase_ended {σ₀ σ : Nat → Call} {es : List Event} {i : Nat} {o : Out} (h : specState next σ₀ es = some σ) (hp : (σ i).phase = .ended o) : (σ₀ i).phase = .ended o ∨ .ended i o ∈ es := by
  induction es generalizing σ₀ with
  | nil => simp only [specState, Option.some.injEq] at h; subst h; exact .inl hp
  | cons e es ih =>
    simp only [specState] at h
    cases hn : next σ₀ e with
    | ok σ' =>
      simp only [hn] at h
      have := next_phase hn i
      rcases ih h with h1 | h1
      · grind
      · exact .inr (List.mem_cons_of_mem _ h1)
    | undefined => simp [hn] at h
    | illegal => simp [hn] at h

theorem phase_known {σ₀ σ : Nat → Call} {es : List Event} {i : Nat} (h : specState next σ₀ es = some σ) (hp : (σ i).phase ≠ .none) : (σ₀ i).phase ≠ .none ∨ ∃ t k, .asyncs t i k ∈ es := by
  induction es generalizing σ₀ with
  | nil => simp only [specState, Option.some.injEq] at h; subst h; exact .inl hp
  | cons e es ih =>
    simp only [specState] at h
    cases hn : next σ₀ e with
    | ok σ' =>
      simp only [hn] at h
      have := next_phase hn i
      rcases ih h with h1 | ⟨t, k, h1⟩
      · grind
      · exact .inr ⟨t, k, List.mem_cons_of_mem _ h1⟩
    | undefined => simp [hn] at h
    | illegal => simp [hn] at h

/-- How far a call is, as a number. -/
def Phase.rank : Phase → Nat
  | .none => 0
  | .called => 1
  | .failed => 4
  | .running => 2
  | .ended _ => 3

theorem phase_stable {σ₀ σ : Nat → Call} {es : List Event} {i : Nat} (h : specState next σ₀ es = some σ) :
    ((σ₀ i).phase = .failed → (σ i).phase = .failed) ∧ (∀ o, (σ₀ i).phase = .ended o → (σ i).phase = .ended o) ∧ ((σ₀ i).phase = .running → (σ i).phase = .running ∨ ∃ o, (σ i).phase = .ended o) := by
  induction es generalizing σ₀ with
  | nil => simp only [specState, Option.some.injEq] at h; subst h; exact ⟨id, fun _ => id, .inl⟩
  | cons e es ih =>
    simp only [specState] at h
    cases hn : next σ₀ e with
    | ok σ' =>
      simp only [hn] at h
      have := next_phase hn i
      obtain ⟨h1, h2, h3⟩ := ih h
      refine ⟨fun hp => h1 (by grind), fun o hp => h2 o (by grind), fun hp => ?_⟩
      rcases this with h | h | h | h | h
      · exact h3 (by rw [h, hp])
      · rw [hp] at h; cases h.1
      · rw [hp] at h; cases h.1
      · rw [hp] at h; cases h.1
      · obtain ⟨-, o, ho, -⟩ := h; exact .inr ⟨o, h2 o ho⟩
    | undefined => simp [hn] at h
    | illegal => simp [hn] at h

/-- Where an event of an accepted history stands. -/
theorem split_at {σ₀ σ : Nat → Call} {es₁ es₂ : List Event} {e : Event} (h : specState next σ₀ (es₁ ++ e :: es₂) = some σ) :
    ∃ σ₁ σ₂, specState next σ₀ es₁ = some σ₁ ∧ next σ₁ e = .ok σ₂ ∧ specState next σ₂ es₂ = some σ := by
  rw [specState_append] at h
  cases h1 : specState next σ₀ es₁ with
  | none => simp [h1] at h
  | some σ₁ =>
    simp only [h1, Option.bind_some, specState] at h
    cases hn : next σ₁ e with
    | ok σ₂ => simp only [hn] at h; exact ⟨σ₁, σ₂, rfl, hn, h⟩
    | undefined => simp [hn] at h
    | illegal => simp [hn] at h

theorem mem_at {σ₀ σ : Nat → Call} {es : List Event} {e : Event} (h : specState next σ₀ es = some σ) (he : e ∈ es) :
    ∃ σ₁ σ₂ es₂, next σ₁ e = .ok σ₂ ∧ specState next σ₂ es₂ = some σ := by
  obtain ⟨es₁, es₂, rfl⟩ := List.append_of_mem he
  obtain ⟨σ₁, σ₂, -, h2, h3⟩ := split_at h
  exact ⟨σ₁, σ₂, es₂, h2, h3⟩

theorem final_running {σ₀ σ : Nat → Call} {es : List Event} {t i : Nat} (h : specState next σ₀ es = some σ) (he : .began t i ∈ es) : (σ i).phase = .running ∨ ∃ o, (σ i).phase = .ended o := by
  obtain ⟨σ₁, σ₂, es₂, h1, h2⟩ := mem_at h he
  refine (phase_stable h2).2.2 ?_
  simp only [next] at h1; split at h1 <;> cases h1; simp [set]

theorem final_failed {σ₀ σ : Nat → Call} {es : List Event} {i : Nat} (h : specState next σ₀ es = some σ) (he : (∃ t, .threw t i ∈ es) ∨ .discarded i ∈ es) : (σ i).phase = .failed := by
  rcases he with ⟨t, he⟩ | he
  · obtain ⟨σ₁, σ₂, es₂, h1, h2⟩ := mem_at h he
    refine (phase_stable h2).1 ?_
    simp only [next] at h1; split at h1 <;> cases h1; simp [set]
  · obtain ⟨σ₁, σ₂, es₂, h1, h2⟩ := mem_at h he
    refine (phase_stable h2).1 ?_
    simp only [next] at h1; split at h1 <;> cases h1; simp [set]

theorem isEnded_iff {p : Phase} (h : p.isEnded = true) : ∃ o, p = .ended o := by
  cases p <;> simp [Phase.isEnded] at h
  exact ⟨_, rfl⟩

/-- What `get` returns is what the function has ended with; `wait` returns, and `is_ready` says yes, only after the function has ended. -/
theorem get_returns_result {m : Mode} {k : Nat} {ls : List Label} {s : State} {es : List Event} (h : run (step m) (init k) ls = some (s, es)) :
    (∀ es₁ es₂ t i o, es = es₁ ++ .got t i o :: es₂ → .ended i o ∈ es₁) ∧ (∀ es₁ es₂ t i, es = es₁ ++ .waited t i :: es₂ → ∃ o, .ended i o ∈ es₁) ∧
      (∀ es₁ es₂ t i, es = es₁ ++ .polled t i true :: es₂ → ∃ o, .ended i o ∈ es₁) := by
  obtain ⟨σ, hσ, -⟩ := reach_inv h
  have hst : ∀ i o, (start i).phase ≠ .ended o := by intro i o; simp [start]
  refine ⟨?_, ?_, ?_⟩
  · rintro es₁ es₂ t i o rfl
    obtain ⟨σ₁, σ₂, h1, h2, -⟩ := split_at hσ
    simp only [next] at h2; split at h2 <;> cases h2
    rename_i hc
    exact (phase_ended h1 hc.1).resolve_left (hst i o)
  · rintro es₁ es₂ t i rfl
    obtain ⟨σ₁, σ₂, h1, h2, -⟩ := split_at hσ
    simp only [next] at h2; split at h2 <;> cases h2
    rename_i hc
    obtain ⟨o, ho⟩ := isEnded_iff hc.1
    exact ⟨o, (phase_ended h1 ho).resolve_left (hst i o)⟩
  · rintro es₁ es₂ t i rfl
    obtain ⟨σ₁, σ₂, h1, h2, -⟩ := split_at hσ
    simp only [next] at h2; split at h2 <;> cases h2
    rename_i hc
    obtain ⟨o, ho⟩ := isEnded_iff (hc.2 trivial)
    exact ⟨o, (phase_ended h1 ho).resolve_left (hst i o)⟩

/-- The function is called once at most, after the call of `async`, and never if `async` throws or the executor gives up the task. -/
theorem function_called_once {m : Mode} {k : Nat} {ls : List Label} {s : State} {es : List Event} (h : run (step m) (init k) ls = some (s, es)) {es₁ es₂ : List Event} {t i : Nat}
    (he : es = es₁ ++ .began t i :: es₂) : (∃ u k, .asyncs u i k ∈ es₁) ∧ (∀ u, .began u i ∉ es₁ ∧ .began u i ∉ es₂) ∧ (∀ u, .threw u i ∉ es) ∧ .discarded i ∉ es := by
  obtain ⟨σ, hσ, -⟩ := reach_inv h
  have hfin := final_running hσ (he ▸ (by simp) : .began t i ∈ es)
  have hnf : (σ i).phase ≠ .failed := by grind
  subst he
  obtain ⟨σ₁, σ₂, h1, h2, h3⟩ := split_at hσ
  simp only [next] at h2
  split at h2 <;> cases h2
  rename_i hc
  refine ⟨(phase_known h1 (i := i) (by rw [hc]; simp)).resolve_left (by simp [start]), fun u => ⟨fun hu => ?_, fun hu => ?_⟩, fun u hu => hnf (final_failed hσ (.inl ⟨u, hu⟩)), fun hu => hnf (final_failed hσ (.inr hu))⟩
  · rcases final_running h1 hu with hr | ⟨o, hr⟩ <;> rw [hc] at hr <;> cases hr
  · obtain ⟨es₃, es₄, rfl⟩ := List.append_of_mem hu
    obtain ⟨σ₃, σ₄, h4, h5, -⟩ := split_at h3
    simp only [next] at h5
    split at h5 <;> cases h5
    rename_i hc'
    rcases (phase_stable (i := i) h4).2.2 (by simp [set]) with hr | ⟨o, hr⟩ <;> rw [hc'] at hr <;> cases hr

/-- A future whose task the executor has destroyed never becomes ready: `wait` and `get` do not return (they do not throw `broken_promise` either). -/
theorem discarded_task_never_ready {m : Mode} {k : Nat} {ls : List Label} {s : State} {es : List Event} (h : run (step m) (init k) ls = some (s, es)) {i : Nat} (hd : .discarded i ∈ es) :
    ∀ t, (∀ o, .got t i o ∉ es) ∧ .waited t i ∉ es ∧ .polled t i true ∉ es := by
  obtain ⟨σ, hσ, -⟩ := reach_inv h
  have hf := final_failed hσ (.inr hd)
  have hno : ∀ o, .ended i o ∉ es := by
    intro o ho
    obtain ⟨σ₁, σ₂, es₂, h1, h2⟩ := mem_at hσ ho
    simp only [next] at h1; split at h1 <;> cases h1
    have := (phase_stable (i := i) h2).2.1 o (by simp [set])
    rw [hf] at this; cases this
  obtain ⟨g1, g2, g3⟩ := get_returns_result h
  refine fun t => ⟨fun o ho => ?_, fun hw => ?_, fun hw => ?_⟩
  · obtain ⟨es₁, es₂, heq⟩ := List.append_of_mem ho
    have := g1 es₁ es₂ t i o heq
    exact hno o (by rw [heq]; exact List.mem_append_left _ this)
  · obtain ⟨es₁, es₂, heq⟩ := List.append_of_mem hw
    obtain ⟨o, this⟩ := g2 es₁ es₂ t i heq
    exact hno o (by rw [heq]; exact List.mem_append_left _ this)
  · obtain ⟨es₁, es₂, heq⟩ := List.append_of_mem hw
    obtain ⟨o, this⟩ := g3 es₁ es₂ t i heq
    exact hno o (by rw [heq]; exact List.mem_append_left _ this)

example (m : Mode) : ∃ ls s es, run (step m) (init 1) ls = some (s, es) ∧ .discarded 0 ∈ es ∧ .gets 0 0 ∈ es := by
  refine ⟨[.op 0 (.async .executor), .go 0, .go 0, .op 0 (.get 0), .discard 1], ?_⟩
  cases m <;> exact ⟨_, _, rfl, by decide, by decide⟩

/-! ## The destructor of the last future -/

/-- Without `BOOST_THREAD_FUTURE_BLOCKING`: a thread that is in the destructor of a future returns, whatever the other threads have done and without any of them doing anything more. -/
theorem release_returns_alone {m : Mode} (hm : m ≠ .blocking) {k : Nat} {ls : List Label} {s : State} {es : List Event} (h : run (step m) (init k) ls = some (s, es)) {t i : Nat}
    (hu : underWay t es = some (.drops t i)) : ∃ n s' es', run (step m) s (List.replicate n (.go t)) = some (s', es') ∧ .dropped t i ∈ es' := by
  obtain ⟨σ, -, hi⟩ := reach_inv h
  have hU := reach_under h
  cases ht : s.th[t]? with
  | none =>
    have := hU.out t (by rcases Nat.lt_or_ge t s.th.length with h' | h'; · rw [List.getElem?_eq_getElem h'] at ht; cases ht
                         · exact h')
    rw [hu] at this; cases this
  | some th =>
    have := hU.under t th ht
    rw [hu] at this
    refine release_alone hm hi ht ?_
    revert this
    cases hpc : th.pc with
    | idle | mark _ _ | ready _ | bye _ | gone _ | join _ => simp [Under]
    | start _ | ret _ => simp [Under]
    | rel j w => cases w <;> simp [Under]; rintro rfl; rfl
    | dtor j w => cases w <;> simp [Under]; rintro rfl; rfl
    | wait j g => cases g <;> simp [Under]

example : ∃ s es, run (step .waits) (init 1) [.op 0 (.async .thread), .go 0, .go 0, .op 0 (.drop 0)] = some (s, es) ∧ underWay 0 es = some (.drops 0 0) := ⟨_, _, rfl, by decide⟩

/-- In every configuration: the destructor of the last future of a call of `async(launch::async, f)` can return before `f` has ended, and before it has begun. -/
theorem last_release_does_not_wait (m : Mode) : ∃ ls s es, run (step m) (init 1) ls = some (s, es) ∧ ¬ LastReleaseWaits es := by
  refine ⟨[.op 0 (.async .thread), .go 0, .go 0, .op 0 (.drop 0), .go 0], ?_⟩
  have hn : ¬ LastReleaseWaits [.asyncs 0 0 .thread, .asyncRet 0 0, .drops 0 0, .dropped 0 0] := by
    intro h
    obtain ⟨o, ho⟩ := h [.asyncs 0 0 .thread, .asyncRet 0 0, .drops 0 0] [] 0 0 rfl rfl
    simp at ho
  cases m <;> exact ⟨_, _, rfl, hn⟩

/-! ## Joining -/

/-- In every configuration: `get` can return before the thread of the call has ended. -/
theorem get_does_not_join (m : Mode) : ∃ ls s es, run (step m) (init 1) ls = some (s, es) ∧ ¬ GetJoins es := by
  refine ⟨[.op 0 (.async .thread), .go 0, .go 0, .op 0 (.get 0), .go 1, .finish 1 (.val 7), .go 1, .go 0], ?_⟩
  have hn : ¬ GetJoins [.asyncs 0 0 .thread, .asyncRet 0 0, .gets 0 0, .began 1 0, .ended 0 (.val 7), .got 0 0 (.val 7)] := by
    intro h
    have := h [.asyncs 0 0 .thread, .asyncRet 0 0, .gets 0 0, .began 1 0, .ended 0 (.val 7)] [] 0 0 0 (.val 7) rfl (by simp)
    simp at this
  cases m <;> exact ⟨_, _, rfl, hn⟩

/-- Without `BOOST_THREAD_FUTURE_BLOCKING` the same is true of `wait`. -/
theorem wait_does_not_join {m : Mode} (hm : m ≠ .blocking) : ∃ ls s es, run (step m) (init 1) ls = some (s, es) ∧ ¬ WaitJoins es := by
  refine ⟨[.op 0 (.async .thread), .go 0, .go 0, .op 0 (.wait 0), .go 1, .finish 1 (.val 7), .go 1, .go 0], ?_⟩
  have hn : ¬ WaitJoins [.asyncs 0 0 .thread, .asyncRet 0 0, .waits 0 0, .began 1 0, .ended 0 (.val 7), .waited 0 0] := by
    intro h
    have := h [.asyncs 0 0 .thread, .asyncRet 0 0, .waits 0 0, .began 1 0, .ended 0 (.val 7)] [] 0 0 0 rfl (by simp)
    simp at this
  cases m with
  | blocking => exact absurd rfl hm
  | plain => exact ⟨_, _, rfl, hn⟩
  | waits => exact ⟨_, _, rfl, hn⟩

/-- With `BOOST_THREAD_FUTURE_BLOCKING`, `wait` joins the thread. (A function that waits for its own future never ends, so that no `wait` for it returns.) -/
theorem wait_joins_blocking {k : Nat} {ls : List Label} {s : State} {es : List Event} (h : run (step .blocking) (init k) ls = some (s, es)) : WaitJoins es :=
  (reach_join h).joins

example : ∃ s, run (step .blocking) (init 1) [.op 0 (.async .thread), .go 0, .go 0, .op 0 (.wait 0), .go 1, .finish 1 (.val 7), .go 1, .go 1, .go 1, .go 0, .go 0] =
    some (s, [.asyncs 0 0 .thread, .asyncRet 0 0, .waits 0 0, .began 1 0, .ended 0 (.val 7), .exited 0, .waited 0 0]) := ⟨_, rfl⟩

/-! ## Races -/

theorem raced_access {s : State} {i j : Nat} : .raced j ∉ access s i := by
  simp only [access]; split <;> simp

theorem raced_finished {s : State} {t i j : Nat} {th : Thread} {w : Why} : .raced j ∉ (finished s t th i w).2 ∧ ∀ u k, .asyncs u j k ∉ (finished s t th i w).2 := by
  cases w <;> simp only [finished] <;> (try split) <;> simp

theorem stepGo_events {m : Mode} {s s' : State} {t : Nat} {th : Thread} {es : List Event} (hs : stepGo m s t th = some (s', es)) (j : Nat) : .raced j ∉ es ∧ ∀ u k, .asyncs u j k ∉ es := by
  simp only [stepGo] at hs
  split at hs
  · cases hs
  · cases hs; exact ⟨raced_access, fun u k => no_asyncs_access _ _ _ _ _⟩
  · cases hs; simp
  · split at hs <;> cases hs
    · exact ⟨raced_access, fun u k => no_asyncs_access _ _ _ _ _⟩
    · simp [raced_access, raced_finished, no_asyncs_access]
  · have := stepDtor_destroy hs
    simp only [destroy, Prod.mk.injEq] at this
    rw [this.2]
    simp [raced_access, raced_finished, no_asyncs_access]
  · split at hs <;> cases hs
    exact ⟨raced_access, fun u k => no_asyncs_access _ _ _ _ _⟩
  · split at hs <;> cases hs
    simp only [List.mem_append, List.mem_singleton, not_or]
    refine ⟨⟨raced_access, ?_⟩, fun u k => ⟨no_asyncs_access _ _ _ _ _, ?_⟩⟩ <;> split <;> simp
  · cases hs; simp
  · cases hs; exact ⟨raced_access, fun u k => no_asyncs_access _ _ _ _ _⟩
  · cases hs; simp
  · cases hs

theorem step_events {m : Mode} {s s' : State} {l : Label} {es : List Event} (hs : step m s l = some (s', es)) (j : Nat) :
    (m ≠ .blocking → .raced j ∉ es) ∧ ∀ u k, .asyncs u j k ∈ es → j < s'.n ∧ (s'.node j).kind = k := by
  cases l with
  | op t o =>
    simp only [step] at hs
    split at hs
    · cases hs
    split at hs
    · cases o with
      | async k =>
        simp only [stepOp, Option.some.injEq, Prod.mk.injEq] at hs
        obtain ⟨rfl, rfl⟩ := hs
        refine ⟨by simp, fun u k' hm => ?_⟩
        simp only [List.mem_singleton, Event.asyncs.injEq] at hm
        obtain ⟨-, rfl, rfl⟩ := hm
        simp [State.setTh, upd]
      | copy i => simp only [stepOp] at hs; split at hs <;> cases hs; simp [raced_access, no_asyncs_access]
      | give i u =>
        simp only [stepOp] at hs
        split at hs
        · cases hs
        · split at hs <;> cases hs; simp
      | drop i => simp only [stepOp] at hs; split at hs <;> cases hs; simp
      | wait i =>
        simp only [stepOp] at hs
        split at hs
        · split at hs
          · rename_i hc
            refine ⟨fun hm => absurd hc.1 hm, fun u k hm => ?_⟩
            exfalso
            revert hm
            split at hs
            · cases hs; simp [no_asyncs_access, no_asyncs_accessThr]
            · split at hs <;> cases hs <;> simp [no_asyncs_access, no_asyncs_accessThr]
          · cases hs; simp [raced_access, no_asyncs_access]
        · cases hs
      | get i => simp only [stepOp] at hs; split at hs <;> cases hs; simp [raced_access, no_asyncs_access]
      | poll i => simp only [stepOp] at hs; split at hs <;> cases hs; simp [raced_access, no_asyncs_access]
    · cases hs
  | go t =>
    simp only [step] at hs
    split at hs
    · cases hs
    have := stepGo_events hs j
    exact ⟨fun _ => this.1, fun u k hm => absurd hm (this.2 u k)⟩
  | fail t =>
    simp only [step, stepFail] at hs
    split at hs
    · cases hs
    split at hs <;> cases hs
    simp
  | discard t =>
    simp only [step, stepDiscard] at hs
    split at hs
    · cases hs
    split at hs
    · split at hs <;> cases hs; simp
    · cases hs
  | finish t o =>
    simp only [step, stepFinish] at hs
    split at hs
    · cases hs
    split at hs <;> cases hs
    simp

/-- Without `BOOST_THREAD_FUTURE_BLOCKING`: no unsynchronised access, whatever the threads do with their copies of the futures. -/
theorem no_race {m : Mode} (hm : m ≠ .blocking) {k : Nat} {ls : List Label} {s : State} {es : List Event} (h : run (step m) (init k) ls = some (s, es)) (i : Nat) : .raced i ∉ es := by
  have := run_inv_hist (step := step m) (fun _ hist => .raced i ∉ hist) (fun s l s' hist es h hs => by
    simp only [List.mem_append, not_or]; exact ⟨h, (step_events hs i).1 hm⟩) (hist := []) (by simp) h
  simpa using this

/-- With `BOOST_THREAD_FUTURE_BLOCKING`: two threads that `wait` on their own copies of a `shared_future` from `async` race, although neither touches the object of the other. -/
theorem concurrent_waits_race : ∃ ls s es, run (step .blocking) (init 2) ls = some (s, es) ∧ .raced 0 ∈ es ∧ es.countP (fun e => decide (e = .waits 0 0 ∨ e = .waits 1 0)) = 2 :=
  ⟨[.op 0 (.async .thread), .go 0, .go 0, .op 0 (.copy 0), .op 0 (.give 0 1), .op 0 (.wait 0), .op 1 (.wait 0)], _, _, rfl, by decide, by decide⟩

/-! ## A thread that cannot be started -/

theorem reach_kind {m : Mode} {k : Nat} {ls : List Label} {s : State} {es : List Event} (h : run (step m) (init k) ls = some (s, es)) :
    ∀ u i k, .asyncs u i k ∈ es → i < s.n ∧ (s.node i).kind = k := by
  have := run_inv_hist (step := step m) (fun s hist => ∀ u i k, .asyncs u i k ∈ hist → i < s.n ∧ (s.node i).kind = k) (fun s l s' hist es h hs u i k hm => by
    simp only [List.mem_append] at hm
    rcases hm with hm | hm
    · obtain ⟨h1, h2⟩ := h u i k hm
      have := kind_step h1 hs
      exact ⟨this.2, this.1.trans h2⟩
    · exact (step_events hs i).2 u k hm) (hist := []) (by simp) h
  simpa using this

theorem mem_of_underWay {t : Nat} {es : List Event} {e : Event} (h : underWay t es = some e) : e ∈ es := by
  have hgen : ∀ (es : List Event) (c : Option Event), es.foldl (uw t) c = some e → c = some e ∨ e ∈ es := by
    intro es
    induction es with
    | nil => intro c h; exact .inl h
    | cons a es ih =>
      intro c h
      rcases ih _ h with h1 | h1
      · by_cases hc : c = some e
        · exact .inl hc
        · refine .inr ?_
          simp only [uw] at h1
          split at h1
          · split at h1 <;> cases h1 <;> simp
          · exact absurd h1 hc
      · exact .inr (List.mem_cons_of_mem _ h1)
  exact (hgen es none h).resolve_left (by simp)

/-- The state of a call in which the thread cannot be started. -/
theorem at_fail {m : Mode} {k : Nat} {ls : List Label} {s s₁ : State} {es es₁ : List Event} {t i : Nat} {kd : Kind} (h : run (step m) (init k) ls = some (s, es))
    (hu : underWay t es = some (.asyncs t i kd)) (hf : step m s (.fail t) = some (s₁, es₁)) :
    es₁ = [] ∧ i < s₁.n ∧ (s₁.node i).kind = kd ∧ ∃ th, s₁.th[t]? = some th ∧ th.pc = .rel i .unwind := by
  have hk := reach_kind h t i kd (mem_of_underWay hu)
  have hU := reach_under h
  simp only [step, stepFail] at hf
  split at hf
  · cases hf
  rename_i th ht
  split at hf <;> cases hf
  rename_i j hpc
  have := hU.under t th ht
  rw [hu] at this
  simp only [Under, hpc, Option.some.injEq, Event.asyncs.injEq] at this
  obtain ⟨-, -, rfl, -⟩ := this
  exact ⟨rfl, hk.1, hk.2, _, setTh_self ht, rfl⟩

/-- If the thread cannot be started, or the executor refuses the task, `async` throws, by itself, unless `BOOST_THREAD_ASYNC_FUTURE_WAITS` is in force for a thread. -/
theorem failed_start_throws {m : Mode} {k : Nat} {ls : List Label} {s s₁ : State} {es es₁ : List Event} {t i : Nat} {kd : Kind} (hm : m ≠ .waits ∨ kd = .executor)
    (h : run (step m) (init k) ls = some (s, es)) (hu : underWay t es = some (.asyncs t i kd)) (hf : step m s (.fail t) = some (s₁, es₁)) :
    ∃ n s' es', run (step m) s₁ (List.replicate n (.go t)) = some (s', es') ∧ .threw t i ∈ es' := by
  obtain ⟨-, -, hk, th, ht, hpc⟩ := at_fail h hu hf
  obtain ⟨σ, -, hi⟩ := reach_inv (run_append h (run1 hf))
  exact fail_throws hi ht hpc (hm.imp id fun he => hk.trans he)

/-- With `BOOST_THREAD_ASYNC_FUTURE_WAITS`, the default up to version 4: if the thread cannot be started, `async` never returns and never throws, whatever happens afterwards (the destructor waits
for the thread that does not exist). -/
theorem failed_start_hangs {k : Nat} {ls ls' : List Label} {s s₁ s' : State} {es es₁ es' : List Event} {t i : Nat} (h : run (step .waits) (init k) ls = some (s, es))
    (hu : underWay t es = some (.asyncs t i .thread)) (hf : step .waits s (.fail t) = some (s₁, es₁)) (h' : run (step .waits) s₁ ls' = some (s', es')) : ∀ e ∈ es', e.thread ≠ some t := by
  obtain ⟨-, hn, hk, th, ht, hpc⟩ := at_fail h hu hf
  obtain ⟨σ, -, hi⟩ := reach_inv (run_append h (run1 hf))
  exact stuck_run hi ⟨th, ht, .inl hpc, hk, hn⟩ h'

example (m : Mode) : ∃ s es s₁ es₁, run (step m) (init 2) [.op 0 (.async .thread)] = some (s, es) ∧ underWay 0 es = some (.asyncs 0 0 .thread) ∧ step m s (.fail 0) = some (s₁, es₁) :=
  ⟨_, _, _, _, rfl, by decide, rfl⟩

/-! ## Progress -/

theorem pc_of_wait {s : State} {es : List Event} {t i : Nat} (hU : UInv s es) (hu : underWay t es = some (.gets t i)) : ∃ th, s.th[t]? = some th ∧ th.pc = .wait i true := by
  cases ht : s.th[t]? with
  | none =>
    have := hU.out t (by rcases Nat.lt_or_ge t s.th.length with h' | h'; · rw [List.getElem?_eq_getElem h'] at ht; cases ht
                         · exact h')
    rw [hu] at this; cases this
  | some th =>
    have := hU.under t th ht
    rw [hu] at this
    refine ⟨th, rfl, ?_⟩
    revert this
    cases hpc : th.pc with
    | idle | mark _ _ | ready _ | bye _ | gone _ | join _ => simp [Under]
    | start _ | ret _ => simp [Under]
    | rel j w => cases w <;> simp [Under]
    | dtor j w => cases w <;> simp [Under]
    | wait j g => cases g <;> simp [Under]; rintro rfl; rfl

/-- Once the function has ended, `get` returns: after at most one step of the thread that has run it, and one of its own. -/
theorem get_returns {m : Mode} {k : Nat} {ls : List Label} {s : State} {es : List Event} (h : run (step m) (init k) ls = some (s, es)) {t i : Nat} {o : Out}
    (hu : underWay t es = some (.gets t i)) (he : .ended i o ∈ es) :
    ∃ ls' s' es', run (step m) s ls' = some (s', es') ∧ .got t i o ∈ es' ∧ ls'.length ≤ 2 ∧ ∀ l ∈ ls', ∃ u, l = .go u := by
  obtain ⟨σ, hσ, hi⟩ := reach_inv h
  obtain ⟨th, ht, hpc⟩ := pc_of_wait (reach_under h) hu
  have hp : (σ i).phase = .ended o := by
    obtain ⟨σ₁, σ₂, es₂, h1, h2⟩ := mem_at hσ he
    simp only [next] at h1; split at h1 <;> cases h1
    exact (phase_stable (i := i) h2).2.1 o (by simp [set])
  have key : ∀ s : State, s.th[t]? = some th → (s.node i).out = some o → ∃ s' es', step m s (.go t) = some (s', es') ∧ .got t i o ∈ es' := by
    intro s ht ho
    refine ⟨_, _, by simp only [step, ht, stepGo, hpc, ho]; rfl, ?_⟩
    simp
  by_cases hmk : tot (wt .mark i) s.th = 0
  · obtain ⟨s', es', h1, h2⟩ := key s ht ((hi.ok i).isSet o hp hmk)
    exact ⟨[.go t], s', es', run1 h1, h2, by simp, by simp⟩
  · obtain ⟨u, x, hx, hw⟩ := exists_of_tot (wt .mark i) (by omega : 0 < tot (wt .mark i) s.th)
    have hxm : ∃ o', x.pc = .mark i o' := by
      simp only [wt] at hw
      cases hpx : x.pc with
      | rel j w => cases w <;> simp [PC.wt, hpx] at hw
      | dtor j w => cases w <;> simp [PC.wt, hpx] at hw
      | mark j o' =>
        simp [PC.wt, hpx] at hw
        split at hw
        · rename_i hij; exact ⟨o', by rw [hij]⟩
        · simp at hw
      | _ => simp [PC.wt, hpx] at hw
    obtain ⟨o', hpx⟩ := hxm
    have ho' : o' = o := by
      have h1 := le_tot (wt (.markO o') i) hx
      have h2 := (hi.ok i).mark o' (by simp [wt, PC.wt, hpx] at h1; omega)
      rw [hp] at h2
      cases h2; rfl
    subst ho'
    have hne : u ≠ t := by rintro rfl; rw [ht] at hx; cases hx; rw [hpc] at hpx; cases hpx
    have hs1 : step m s (.go u) = some ((s.setNode i { s.node i with out := some o' }).setTh u { x with pc := .rel i .worker }, access s i) := by
      simp only [step, hx, stepGo, hpx]
    obtain ⟨s', es', h1, h2⟩ := key ((s.setNode i { s.node i with out := some o' }).setTh u { x with pc := .rel i .worker })
      (by simp only [State.setTh, State.setNode]; rw [getElem?_set_eq hx, if_neg hne]; exact ht) (by simp [State.setTh, State.setNode, upd])
    exact ⟨[.go u, .go t], s', _, run2 hs1 h1, List.mem_append_right _ h2, by simp, by simp⟩

example (m : Mode) : ∃ s es, run (step m) (init 1) [.op 0 (.async .thread), .go 0, .go 0, .op 0 (.get 0), .go 1, .finish 1 (.val 7)] = some (s, es) ∧
    underWay 0 es = some (.gets 0 0) ∧ .ended 0 (.val 7) ∈ es := by
  cases m <;> exact ⟨_, _, rfl, by decide, by decide⟩

/-! ## Nothing leaks -/

theorem futures_spec {σ₀ σ : Nat → Call} {es : List Event} {i : Nat} (h : specState next σ₀ es = some σ) : ((σ i).futs : Int) = (σ₀ i).futs + futures i es := by
  induction es generalizing σ₀ with
  | nil => simp only [specState, Option.some.injEq] at h; subst h; simp [futures]
  | cons e es ih =>
    simp only [specState] at h
    cases hn : next σ₀ e with
    | ok σ' =>
      simp only [hn] at h
      rw [ih h]
      cases e <;> simp only [next] at hn <;> (try split at hn) <;> cases hn <;> simp only [futures, set] <;> grind
    | undefined => simp [hn] at h
    | illegal => simp [hn] at h

theorem flags_stable {σ₀ σ : Nat → Call} {es : List Event} {i : Nat} (h : specState next σ₀ es = some σ) :
    ((σ₀ i).returned = true → (σ i).returned = true) ∧ ((σ₀ i).exited = true → (σ i).exited = true) ∧ ((σ i).destroyed = true → (σ₀ i).destroyed = true ∨ .destroyed i ∈ es) := by
  induction es generalizing σ₀ with
  | nil => simp only [specState, Option.some.injEq] at h; subst h; exact ⟨id, id, .inl⟩
  | cons e es ih =>
    simp only [specState] at h
    cases hn : next σ₀ e with
    | ok σ' =>
      simp only [hn] at h
      obtain ⟨h1, h2, h3⟩ := ih h
      have : ((σ₀ i).returned = true → (σ' i).returned = true) ∧ ((σ₀ i).exited = true → (σ' i).exited = true) ∧ ((σ' i).destroyed = true → (σ₀ i).destroyed = true ∨ e = .destroyed i) := by
        cases e <;> simp only [next] at hn <;> (try split at hn) <;> cases hn <;> grind [set]
      refine ⟨fun a => h1 (this.1 a), fun a => h2 (this.2.1 a), fun a => ?_⟩
      rcases h3 a with h4 | h4
      · rcases this.2.2 h4 with h5 | h5
        · exact .inl h5
        · exact .inr (by simp [h5])
      · exact .inr (List.mem_cons_of_mem _ h4)
    | undefined => simp [hn] at h
    | illegal => simp [hn] at h

/-- When `async` has returned, its thread has ended, and all futures have been destroyed, the result has been destroyed. -/
theorem state_destroyed {m : Mode} {k : Nat} {ls : List Label} {s : State} {es : List Event} (h : run (step m) (init k) ls = some (s, es)) {t i : Nat} (hr : .asyncRet t i ∈ es)
    (hx : .exited i ∈ es) (hf : futures i es = 0) (hu : ∀ u, underWay u es ≠ some (.drops u i)) : .destroyed i ∈ es := by
  obtain ⟨σ, hσ, hi⟩ := reach_inv h
  have hU := reach_under h
  have h1 : (σ i).returned = true := by
    obtain ⟨σ₁, σ₂, es₂, h1, h2⟩ := mem_at hσ hr
    simp only [next] at h1; split at h1 <;> cases h1
    exact (flags_stable (i := i) h2).1 (by simp [set])
  have h2 : (σ i).exited = true := by
    obtain ⟨σ₁, σ₂, es₂, h1, h2⟩ := mem_at hσ hx
    simp only [next] at h1; split at h1 <;> cases h1
    exact (flags_stable (i := i) h2).2.1 (by simp [set])
  have h3 : (σ i).futs = 0 := by have := futures_spec (i := i) hσ; simp only [start] at this; omega
  have hz : ∀ k, k = K.relD ∨ k = K.dtorD → tot (wt k i) s.th = 0 := by
    intro k hk
    rcases Nat.eq_zero_or_pos (tot (wt k i) s.th) with h0 | h0
    · exact h0
    · obtain ⟨u, x, hxu, hw⟩ := exists_of_tot _ h0
      have := hU.under u x hxu
      exfalso
      refine hu u ?_
      revert hw this
      cases hpc : x.pc with
      | rel j w => rcases hk with rfl | rfl <;> cases w <;> simp [wt, PC.wt, hpc, Under] <;> (intro hw; split at hw <;> grind)
      | dtor j w => rcases hk with rfl | rfl <;> cases w <;> simp [wt, PC.wt, hpc, Under] <;> (intro hw; split at hw <;> grind)
      | _ => rcases hk with rfl | rfl <;> simp [wt, PC.wt, hpc]
  have ok := hi.ok i
  have hd : (s.node i).dead = true := by
    have a := ok.refs; have b := ok.futs; have c := ok.once; have d := ok.gone (ok.exit ▸ h2); have e := hz .relD (.inl rfl); have f := hz .dtorD (.inr rfl)
    rw [h1] at c
    simp only [b2n] at c
    have hused : i < s.n := by
      rcases Nat.lt_or_ge i s.n with h' | h'
      · exact h'
      · have := (ok.unused (by omega)).1; rw [this] at h1; cases h1
    have g := ok.dtor hused (by simp at c; omega)
    cases hdd : (s.node i).dead with
    | true => rfl
    | false => rw [hdd] at g; simp only [b2n] at g; simp at g; omega
  exact ((flags_stable (i := i) hσ).2.2 (by rw [ok.dead, hd])).resolve_left (by simp [start])

example : .asyncRet 0 0 ∈ sampleHist ∧ .exited 0 ∈ sampleHist ∧ futures 0 sampleHist = 0 ∧ ∀ u, underWay u sampleHist ≠ some (.drops u 0) := by
  refine ⟨by decide, by decide, by decide, fun u => ?_⟩
  simp only [sampleHist, underWay, List.foldl, Event.thread]
  grind

end Verif.Async
