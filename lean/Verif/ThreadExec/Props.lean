import Verif.ThreadExec.Live
/-!
# thread_executor: the properties
-/
set_option linter.unusedVariables false

namespace Verif.ThreadExec

/-- C61. Every history of `submit`, `close`, `closed` and the destructor, by any number of threads and by the closures themselves, is one that the
specification allows: a closure for which `submit` returns is called once, one for which it throws is not; `submit` throws `sync_queue_is_closed` if `close`
has returned before and only if `close` has been called; the destructor returns when all closures have. Missing: closures that use the executor when the
destructor has come to its members (`submit_during_destruction`, `destroyed_while_locked`). -/
theorem conforms_partial {ls : List Label} {s : St} {es : List Event} (h : run stepPlain init ls = some (s, es)) : Accepts next {} es :=
  simulation (R := Rd) (fun s l s' es σ hi hs => step_ok hi (of_plain hs).1 (of_plain hs).2) (Or.inr R_init) h

def ends : Event → Bool
  | .threw _ | .broken _ => true
  | _ => false

theorem returned_ends (w : Who) (op : Op) (r : Res) : ∀ e ∈ returned w op r, ends e = false := by
  intro e he
  cases op <;> cases r <;> simp [returned] at he <;> (subst he; rfl)

/-- A step that ends the program shows it. -/
theorem dead_step {s s' : St} {l : Label} {es : List Event} (hs : step s l = some (s', es)) :
    s.dead = false ∧ ((s'.dead = false ∧ ∀ e ∈ es, ends e = false) ∨ (s'.dead = true ∧ ∃ e, es = [e] ∧ ends e = true)) := by
  unfold step at hs
  split at hs
  · cases hs
  rename_i hd
  have hd : s.dead = false := by simpa using hd
  refine ⟨hd, ?_⟩
  cases l with
  | call w r =>
    simp only at hs
    split at hs
    · cases r <;> cases hs <;> exact Or.inl ⟨hd, by simp [ends]⟩
    · cases hs
  | act w fails =>
    simp only at hs
    split at hs <;> cases hs
    rename_i op hp
    refine Or.inl ⟨?_, by simp⟩
    unfold stepAct
    split
    · split
      · exact hd
      · split
        · exact hd
        · exact hd
    · exact hd
    · exact hd
    · exact hd
  | unlock w =>
    simp only at hs
    split at hs <;> cases hs
    exact Or.inl ⟨hd, returned_ends _ _ _⟩
  | _ =>
    simp only at hs
    repeat' split at hs
    all_goals first
      | (cases hs; done)
      | (cases hs; exact Or.inl ⟨hd, by simp [ends]⟩)
      | (cases hs; exact Or.inr ⟨rfl, _, rfl, rfl⟩)

theorem dead_run {ls : List Label} {s s' : St} {es : List Event} (h : run step s ls = some (s', es)) (hd : s.dead = false) :
    (s'.dead = false ∧ ∀ e ∈ es, ends e = false) ∨ (s'.dead = true ∧ ∃ pre e, es = pre ++ [e] ∧ ends e = true ∧ ∀ x ∈ pre, ends x = false) := by
  induction ls generalizing s es with
  | nil => rw [run_nil] at h; cases h; exact Or.inl ⟨hd, by simp⟩
  | cons l ls ih =>
    obtain ⟨m, e1, e2, h1, h2, rfl⟩ := run_cons h
    obtain ⟨-, h3⟩ := dead_step h1
    rcases h3 with ⟨h3, h4⟩ | ⟨h3, e, rfl, h4⟩
    · rcases ih h2 h3 with ⟨h5, h6⟩ | ⟨h5, pre, e, rfl, h6, h7⟩
      · refine Or.inl ⟨h5, ?_⟩
        intro x hx
        rcases List.mem_append.1 hx with hx | hx
        · exact h4 x hx
        · exact h6 x hx
      · refine Or.inr ⟨h5, e1 ++ pre, e, by simp, h6, ?_⟩
        intro x hx
        rcases List.mem_append.1 hx with hx | hx
        · exact h4 x hx
        · exact h7 x hx
    · cases ls with
      | nil => rw [run_nil] at h2; cases h2; exact Or.inr ⟨h3, [], e, by simp, h4, by simp⟩
      | cons l' ls' =>
        obtain ⟨m', e1', e2', h1', -, -⟩ := run_cons h2
        have := (dead_step h1').1
        rw [h3] at this; cases this

theorem run_plain {ls : List Label} {s s' : St} {es : List Event} (h : run stepPlain s ls = some (s', es)) : run step s ls = some (s', es) := by
  induction ls generalizing s es with
  | nil => rw [run_nil] at h ⊢; exact h
  | cons l ls ih =>
    obtain ⟨m, e1, e2, h1, h2, rfl⟩ := run_cons h
    exact run_step (of_plain h1).2 (ih h2)

/-- C61. When a closure throws, the program ends: nothing happens afterwards. -/
theorem throwing_is_the_end {ls : List Label} {s : St} {es : List Event} {c : Nat} (h : run step init ls = some (s, es)) (hc : .threw c ∈ es) :
    ∃ pre, es = pre ++ [.threw c] := by
  rcases dead_run h rfl with ⟨-, h1⟩ | ⟨-, pre, e, rfl, h2, h3⟩
  · cases h1 _ hc
  · rcases List.mem_append.1 hc with hc | hc
    · cases h3 _ hc
    · rw [List.mem_singleton] at hc; subst hc; exact ⟨pre, rfl⟩

theorem specState_legal {es : List Event} {σ σ' : Sys} (h : specState next σ es = some σ') : ∀ w, .broken w ∉ es := by
  induction es generalizing σ with
  | nil => simp
  | cons e es ih =>
    intro w hw
    simp only [specState] at h
    cases hn : next σ e with
    | ok σ1 =>
      rw [hn] at h
      rcases List.mem_cons.1 hw with he | he
      · subst he; cases hn
      · exact ih h w he
    | undefined => rw [hn] at h; cases h
    | illegal => rw [hn] at h; cases h

theorem reached {ls : List Label} {s : St} {es : List Event} {σ : Sys} (h : run stepPlain init ls = some (s, es)) (hσ : specState next {} es = some σ)
    (ht : ∀ c, .threw c ∉ es) : s.dead = false ∧ R s σ ∧ LInv s := by
  have hd : s.dead = false := by
    rcases dead_run (run_plain h) rfl with ⟨h1, -⟩ | ⟨-, pre, e, rfl, h2, -⟩
    · exact h1
    · cases e with
      | threw c => exact absurd (by simp) (ht c)
      | broken w => exact absurd (by simp) (specState_legal hσ w)
      | _ => cases h2
  have hr := simulation_state Rd (fun s l s' es σ hi hs => step_ok hi (of_plain hs).1 (of_plain hs).2) (Or.inr R_init) h hσ
  refine ⟨hd, ?_, run_inv (step := stepPlain) LInv (fun _ _ _ _ hi hs => linv_step hi (of_plain hs).2) linv_init h⟩
  rcases hr with hr | hr
  · rw [hd] at hr; cases hr
  · exact hr

/-- C61. Whatever has happened before, the destructor returns when the closures do: there is a continuation in which no further call is made, that ends with
its return. -/
theorem destructor_ends {ls : List Label} {s : St} {es : List Event} {σ : Sys} {i : Nat} (h : run stepPlain init ls = some (s, es))
    (hσ : specState next {} es = some σ) (ht : ∀ c, .threw c ∉ es) (hi : σ.dying = some i) (hg : σ.gone = false) :
    ∃ ls' s' es', (∀ l ∈ ls', wind l = true) ∧ run stepPlain s ls' = some (s', es' ++ [.destroyed i]) := by
  obtain ⟨hd, hr, hl⟩ := reached h hσ ht
  refine Good.ends ⟨hd, ⟨σ, hr⟩, hl⟩ ?_
  have hph := hr.phase
  unfold PhaseR at hph
  cases hp : s.phase with
  | alive => rw [hp] at hph; rw [hph.1] at hi; cases hi
  | gone => rw [hp] at hph; rw [hph.2.1] at hg; cases hg
  | closing j => rw [hp] at hph; rw [hph.1] at hi; cases hi; rfl
  | members j => rw [hp] at hph; rw [hph.1] at hi; cases hi; rfl
  | joining j l => rw [hp] at hph; rw [hph.1] at hi; cases hi; rfl

/-- C61. A closure that has been accepted can begin at once, whatever the other closures and threads do: there is a thread for each. -/
theorem begins_at_once {ls : List Label} {s : St} {es : List Event} {σ : Sys} {c : Nat} (h : run stepPlain init ls = some (s, es))
    (hσ : specState next {} es = some σ) (ht : ∀ c, .threw c ∉ es) (hc : c < σ.nc) (ha : σ.sub c = .accepted) (hf : σ.exec c = .fresh) :
    ∃ s', stepPlain s (.begin c) = some (s', [.began c]) := by
  obtain ⟨hd, hr, hl⟩ := reached h hσ ht
  have hcr : s.cst c = .created := by
    rw [hr.exec] at hf
    cases hx : s.cst c with
    | created => rfl
    | running => rw [hx] at hf; cases hf
    | over => rw [hx] at hf; cases hf
    | absent =>
      exfalso
      rw [hr.nc] at hc
      rcases hr.pending c hc hx with h1 | ⟨w, h1⟩
      · rw [ha] at h1; cases h1
      · have hok := hr.ok w
        cases hp : s.pc w with
        | idle => rw [hp] at h1; cases h1
        | lock op => cases op <;> rw [hp] at h1 hok <;> cases h1; have := hok.1.2.2; simp only [view] at this; rw [ha] at this; cases this
        | act op => cases op <;> rw [hp] at h1 hok <;> cases h1; have := hok.1.2.2; simp only [view] at this; rw [ha] at this; cases this
        | unlock op r => cases op <;> rw [hp] at h1 hok <;> cases h1; have := hok.1.2.2; simp only [view] at this; rw [ha] at this; cases this
  refine ⟨{ s with cst := upd s.cst c .running }, ?_⟩
  unfold stepPlain step
  rw [if_pos (show plain s (.begin c) = true from rfl), if_neg (by rw [hd]; simp)]
  simp only
  rw [if_pos hcr]

/-! ## Histories -/

theorem of_events {st : St → Label → Option (St × List Event)} {i : St} {ls : List Label} {es : List Event} (h : (run st i ls).map Prod.snd = some es) :
    ∃ s, run st i ls = some (s, es) := by
  cases hr : run st i ls with
  | none => rw [hr] at h; cases h
  | some x => rw [hr] at h; cases h; exact ⟨x.1, rfl⟩

/-- Finding: a closure that calls `submit` or `closed` while the destructor waits for it uses a mutex that is gone, although the documentation says that
`submit` throws `sync_queue_is_closed`: `mtx_` is declared after `threads_` and so destroyed first. -/
theorem submit_during_destruction : ∃ ls s, run step init ls = some (s,
    [.submits (.client 0) 0, .accepted (.client 0) 0, .began 0, .destroys 0, .submits (.closure 0) 1, .broken (.closure 0)]) :=
  ⟨[.call (.client 0) .submit, .lock (.client 0), .act (.client 0) false, .unlock (.client 0), .begin 0, .destroy 0, .lock (.client 0), .act (.client 0) false,
    .unlock (.client 0), .destroyMutex, .call (.closure 0) .submit, .lock (.closure 0)], of_events (by decide +kernel)⟩

/-- Finding: the same race, with the mutex destroyed while the closure holds it. -/
theorem destroyed_while_locked : ∃ ls s, run step init ls = some (s,
    [.submits (.client 0) 0, .accepted (.client 0) 0, .began 0, .destroys 0, .asks (.closure 0), .broken (.client 0)]) :=
  ⟨[.call (.client 0) .submit, .lock (.client 0), .act (.client 0) false, .unlock (.client 0), .begin 0, .destroy 0, .lock (.client 0), .act (.client 0) false,
    .unlock (.client 0), .call (.closure 0) .ask, .lock (.closure 0), .destroyMutex], of_events (by decide +kernel)⟩

/-- The specification allows neither. -/
example : ¬ Accepts next {} [.submits (.client 0) 0, .accepted (.client 0) 0, .began 0, .destroys 0, .submits (.closure 0) 1, .broken (.closure 0)] := by
  decide +kernel
example : ¬ Accepts next {} [.submits (.client 0) 0, .accepted (.client 0) 0, .began 0, .destroys 0, .asks (.closure 0), .broken (.client 0)] := by decide +kernel

/-- Two clients, a closure that submits another one, one refused, one that begins while its `submit` has not returned, the destructor. -/
example : ∃ ls s, run stepPlain init ls = some (s,
    [.submits (.client 0) 0, .submits (.client 1) 1, .began 1, .accepted (.client 1) 1, .accepted (.client 0) 0, .submits (.closure 1) 2,
      .accepted (.closure 1) 2, .ended 1, .closes (.client 1), .hasClosed (.client 1), .submits (.client 0) 3, .refused (.client 0) 3, .asks (.client 0),
      .says (.client 0) true, .destroys 0, .began 2, .began 0, .ended 0, .ended 2, .destroyed 0]) :=
  ⟨[.call (.client 0) .submit, .call (.client 1) .submit, .lock (.client 1), .act (.client 1) false, .begin 1, .unlock (.client 1), .lock (.client 0),
    .act (.client 0) false, .unlock (.client 0), .call (.closure 1) .submit, .lock (.closure 1), .act (.closure 1) false, .unlock (.closure 1), .finish 1,
    .call (.client 1) .close, .lock (.client 1), .act (.client 1) false, .unlock (.client 1), .call (.client 0) .submit, .lock (.client 0),
    .act (.client 0) false, .unlock (.client 0), .call (.client 0) .ask, .lock (.client 0), .act (.client 0) false, .unlock (.client 0), .destroy 0,
    .lock (.client 0), .act (.client 0) false, .unlock (.client 0), .begin 2, .destroyMutex, .join, .begin 0, .finish 0, .finish 2, .join, .join, .join],
    of_events (by decide +kernel)⟩

/-- A destructor that waits for two closures, one of which has not begun: to which `destructor_ends` and `begins_at_once` apply. -/
example : ∃ ls s σ, run stepPlain init ls = some (s, [.submits (.client 0) 0, .accepted (.client 0) 0, .began 0, .submits (.client 0) 1, .accepted (.client 0) 1, .destroys 3]) ∧
    specState next {} [.submits (.client 0) 0, .accepted (.client 0) 0, .began 0, .submits (.client 0) 1, .accepted (.client 0) 1, .destroys 3] = some σ ∧ σ.dying = some 3 ∧ σ.gone = false ∧
    1 < σ.nc ∧ σ.sub 1 = .accepted ∧ σ.exec 1 = .fresh ∧ σ.exec 0 = .running :=
  ⟨[.call (.client 0) .submit, .lock (.client 0), .act (.client 0) false, .unlock (.client 0), .begin 0, .call (.client 0) .submit, .lock (.client 0),
    .act (.client 0) false, .unlock (.client 0), .destroy 3], _, _, rfl, rfl, rfl, rfl, by decide, rfl, rfl, rfl⟩

/-- A closure that throws. -/
example : ∃ ls s, run step init ls = some (s, [.submits (.client 0) 0, .began 0, .threw 0]) :=
  ⟨[.call (.client 0) .submit, .lock (.client 0), .act (.client 0) false, .begin 0, .throw 0], of_events (by decide +kernel)⟩

/-- What the specification forbids: a closure accepted after `close`; one refused although nobody has called `close`; one called twice; one called although
`submit` has thrown; a destructor that does not wait. -/
example : ¬ Accepts next {} [.closes (.client 0), .hasClosed (.client 0), .submits (.client 0) 0, .accepted (.client 0) 0] := by decide +kernel
example : ¬ Accepts next {} [.submits (.client 0) 0, .refused (.client 0) 0] := by decide +kernel
example : ¬ Accepts next {} [.submits (.client 0) 0, .accepted (.client 0) 0, .began 0, .ended 0, .began 0] := by decide +kernel
example : ¬ Accepts next {} [.submits (.client 0) 0, .failed (.client 0) 0, .began 0] := by decide +kernel
example : ¬ Accepts next {} [.submits (.client 0) 0, .accepted (.client 0) 0, .destroys 0, .destroyed 0] := by decide +kernel
example : ¬ Accepts next {} [.submits (.client 0) 0, .accepted (.client 0) 0, .began 0, .destroys 1, .destroyed 1] := by decide +kernel
example : ¬ Accepts next {} [.closes (.client 0), .hasClosed (.client 0), .asks (.client 1), .says (.client 1) false] := by decide +kernel
example : ¬ Accepts next {} [.asks (.client 1), .says (.client 1) true] := by decide +kernel

end Verif.ThreadExec
