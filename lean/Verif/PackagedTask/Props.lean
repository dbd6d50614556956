import Verif.PackagedTask.Sim
/-! # Properties of `packaged_task` -/

set_option linter.unusedSimpArgs false

namespace Verif.PackagedTask

/-- **C34.** In every history of any number of threads, tasks and futures: a function is invoked only by a task that owns it and only if it has not been begun before; a second call throws
(`task_already_started`, or `promise_already_satisfied` from `make_ready_at_thread_exit` when there is a value); a future is ready exactly when the run of its function is over (at the
end of the thread, for `make_ready_at_thread_exit`) or its task has gone away without having been called; it then delivers the outcome of that very run, or `broken_promise`.

Partial: nothing is said about a function after a `reset` of a task that was called or whose future was taken; see the end of this file. -/
theorem history_conforms_partial (lib : Nat → Bool) (ls : List Label) (s : State) (es : List Event) (h : run (step lib) init ls = some (s, es)) : Accepts (next lib) Spec.init es :=
  simulation R (fun _ _ _ _ _ hR hs => sim hR hs) (s := init) rel_init h

/-- A history with a nested task, a move and a result published at the end of a thread. -/
example : ∃ ls s es, run (step fun t => t == 1) init ls = some (s, es) ∧ .invoked 1 2 .atExit 0 ∈ es ∧ .ret 0 (.get 0) (.out (.value 5)) ∈ es ∧ .ret 0 (.get 1) (.out (.exc (.user 7))) ∈ es ∧
    .ret 0 (.get 2) (.out (.exc .broken)) ∈ es ∧ .ret 1 (.call 1 .now) .started ∈ es := by
  refine ⟨[.op 0 .new, .op 0 .new, .op 0 (.getFuture 0), .op 0 (.move 0), .op 0 (.getFuture 1), .op 1 (.call 2 .atExit), .op 1 (.call 1 .now), .op 1 (.call 1 .now), .finish 1 (.exc (.user 7)),
    .op 0 .new, .op 0 (.getFuture 3), .op 0 (.assign 3 1), .finish 1 (.value 5), .exit 1, .publish 1, .op 0 (.get 0), .op 0 (.get 1), .op 0 (.get 2)], _, _, rfl, ?_, ?_, ?_, ?_, ?_⟩ <;> decide

/-! ## At most once -/

/-- How often function `i` has been invoked. -/
def invocations (i : Nat) : List Event → Nat
  | [] => 0
  | .invoked _ _ _ j :: es => (if j = i then 1 else 0) + invocations i es
  | _ :: es => invocations i es

/-- No task has been reset. -/
def NoReset (es : List Event) : Prop := ∀ t k, .ret t (.reset k) .ok ∉ es

/-- What the specification knows about function `i` without reset. -/
structure Clean (σ : Spec) (I : Nat → Nat) : Prop where
  clean : ∀ i, (σ.fn i).spoiled = false
  le : ∀ i, I i ≤ 1
  fresh : ∀ i, (σ.fn i).run = .fresh → I i = 0
  broken : ∀ i, (σ.fn i).run = .ready (.exc .broken) ∨ (σ.fn i).run = .over (.exc .broken) → I i = 0
  new : ∀ i, σ.n ≤ i → I i = 0

theorem Clean.abandon {σ : Spec} {I : Nat → Nat} (h : Clean σ I) (o : Option Nat) (task : Nat → Option Task) : Clean { σ with fn := giveUp σ.fn o, task := task } I := by
  cases o with
  | none => exact { h with }
  | some i =>
    have h1 := h.clean
    have h2 := h.fresh
    have h3 := h.broken
    refine { h with clean := ?_, fresh := ?_, broken := ?_ } <;> simp only [giveUp, upd_apply, Fn.abandon] <;> grind

theorem clean_ret {σ σ' : Spec} {op : Op} {r : Res} {I : Nat → Nat} (hn : nextRet σ op r = .ok σ') (h : Clean σ I) (hr : ∀ k, ¬ (op = .reset k ∧ r = .ok)) : Clean σ' I := by
  cases op <;> simp only [nextRet] at hn
  case new =>
    split at hn <;> cases hn
    have h1 := h.clean
    have h2 := h.fresh
    have h3 := h.broken
    have h4 := h.new
    refine { h with clean := ?_, fresh := ?_, broken := ?_, new := ?_ } <;> simp only [upd_apply]
    · grind
    · grind
    · grind
    · intro i hi; exact h4 i (by omega)
  case empty => split at hn <;> cases hn; exact { h with }
  case move k => split at hn <;> (try split at hn) <;> cases hn; exact { h with }
  case assign k j =>
    (repeat' split at hn) <;> cases hn
    · exact h
    · exact h.abandon _ _
  case swap k j => (repeat' split at hn) <;> cases hn; exact { h with }
  case destroy k => (repeat' split at hn) <;> cases hn; exact h.abandon _ _
  case reset k =>
    (repeat' split at hn) <;> cases hn
    · exact h
    · rename_i e
      exact absurd ⟨rfl, e⟩ (hr k)
  case getFuture k => (repeat' split at hn) <;> cases hn <;> exact { h with }
  case valid k => (repeat' split at hn) <;> cases hn <;> exact h
  case call k m => (repeat' split at hn) <;> cases hn <;> exact h
  case isReady f => (repeat' split at hn) <;> cases hn <;> exact h
  case get f => (repeat' split at hn) <;> cases hn <;> exact h

theorem clean_step {lib : Nat → Bool} {σ σ' : Spec} {e : Event} {I : Nat → Nat} (hn : next lib σ e = .ok σ') (h : Clean σ I) (hr : ∀ t k, e ≠ .ret t (.reset k) .ok)
    (hown : ∀ k x i, σ.task k = some x → x.st = some i → i < σ.n) : Clean σ' fun i => I i + invocations i [e] := by
  have h1 := h.clean
  have h2 := h.fresh
  have h3 := h.broken
  have h4 := h.new
  have h5 := h.le
  cases e with
  | ret t op r =>
    simp only [next] at hn
    split at hn
    · cases hn
    · exact clean_ret hn h (fun k e => hr t k (by rw [e.1, e.2]))
  | invoked t k m i =>
    simp only [next] at hn
    split at hn
    · cases hn
    · split at hn
      · rename_i x hx
        split at hn <;> cases hn
        rename_i hc
        have hf := hc.2.resolve_right (by simp [h1 i])
        have hi := hown k x i hx hc.1
        refine { clean := ?_, le := ?_, fresh := ?_, broken := ?_, new := ?_ } <;> simp only [upd_apply, invocations] <;> grind
      · cases hn
  | ended t o r =>
    simp only [next] at hn
    split at hn
    · rename_i i m rest hx
      simp only [h1 i, Bool.false_eq_true, ↓reduceIte] at hn
      split at hn
      · rename_i hc
        split at hn <;> cases hn <;> refine { clean := ?_, le := ?_, fresh := ?_, broken := ?_, new := ?_ } <;> simp only [upd_apply, invocations] <;> grind
      · cases hn
    · cases hn
  | exited t =>
    simp only [next] at hn
    split at hn <;> cases hn
    exact { h with }
  | published t =>
    simp only [next] at hn
    split at hn
    · split at hn
      · rename_i i rest hx
        split at hn
        · cases hn
          refine { clean := ?_, le := ?_, fresh := ?_, broken := ?_, new := ?_ } <;> simp only [upd_apply, invocations] <;> grind
        · simp only [h1 i, Bool.false_eq_true, ↓reduceIte] at hn
          cases hn
      · cases hn
    · cases hn

theorem invocations_append (i : Nat) (a b : List Event) : invocations i (a ++ b) = invocations i a + invocations i b := by
  induction a with
  | nil => simp [invocations]
  | cons e a ih => cases e <;> simp [invocations, ih] <;> omega

/-- The specification never says "undefined", so that its state is always known. -/
theorem always_known {lib : Nat → Bool} {σ : Spec} {es : List Event} (h : Accepts (next lib) σ es) : ∃ σ', specState (next lib) σ es = some σ' := by
  induction es generalizing σ with
  | nil => exact ⟨σ, rfl⟩
  | cons e es ih =>
    simp only [Accepts] at h
    cases hn : next lib σ e with
    | ok σ' =>
      simp only [hn] at h
      obtain ⟨σ'', hσ⟩ := ih h
      exact ⟨σ'', by simp [specState, hn, hσ]⟩
    | illegal => simp [hn] at h
    | undefined =>
      exfalso
      cases e with
      | ret t op r => cases op <;> simp only [next, nextRet] at hn <;> (repeat' split at hn) <;> cases hn
      | _ => simp only [next] at hn <;> (repeat' split at hn) <;> cases hn

theorem follows_inv {lib : Nat → Bool} {σ σ' : Spec} {es : List Event} {Q : Spec → List Event → Prop} {hist : List Event} (h0 : Q σ hist) (hs : specState (next lib) σ es = some σ')
    (hq : ∀ σ σ' e hist, Q σ hist → next lib σ e = .ok σ' → Q σ' (hist ++ [e])) : Q σ' (hist ++ es) := by
  induction es generalizing σ hist with
  | nil => simp only [specState, Option.some.injEq] at hs; subst hs; simpa using h0
  | cons e es ih =>
    simp only [specState] at hs
    cases hn : next lib σ e <;> simp only [hn] at hs
    · have := ih (hq _ _ _ _ h0 hn) hs
      simpa using this
    · cases hs
    · cases hs

/-- Where the specification's references point. -/
structure Refs (σ : Spec) : Prop where
  own : ∀ k x i, σ.task k = some x → x.st = some i → i < σ.n
  run : ∀ t f, f ∈ σ.runs t → f.1 < σ.n

theorem refs_step {lib : Nat → Bool} {σ σ' : Spec} {e : Event} (hn : next lib σ e = .ok σ') (h : Refs σ) : Refs σ' := by
  have h1 := h.own
  have h2 := h.run
  cases e with
  | ret t op r =>
    cases op <;> simp only [next, nextRet] at hn <;> (repeat' split at hn) <;> cases hn <;> (try exact h) <;> refine ⟨?_, ?_⟩ <;> simp only [upd_apply] <;> grind
  | invoked t k m i =>
    simp only [next] at hn
    (repeat' split at hn) <;> cases hn
    rename_i x hx hc
    have := h1 k x i hx hc.1
    refine ⟨h1, ?_⟩
    simp only [upd_apply]
    intro u f hf
    split at hf
    · rcases List.mem_cons.mp hf with rfl | hf
      · exact this
      · exact h2 t f hf
    · exact h2 u f hf
  | ended t o r =>
    simp only [next] at hn
    split at hn
    · rename_i i m rest hx
      have hsub : ∀ u f, f ∈ upd σ.runs t rest u → f ∈ σ.runs u := by
        intro u f hf
        simp only [upd_apply] at hf
        split at hf
        · rename_i e; subst e; rw [hx]; exact List.mem_cons_of_mem _ hf
        · exact hf
      (repeat' split at hn) <;> cases hn <;> (try split) <;> exact ⟨h1, fun u f hf => h2 u f (hsub u f hf)⟩
    · cases hn
  | exited t => simp only [next] at hn; split at hn <;> cases hn; exact ⟨h1, h2⟩
  | published t => simp only [next] at hn; (repeat' split at hn) <;> cases hn <;> exact ⟨h1, h2⟩

/-- What is known about a history without reset. -/
theorem clean_history {lib : Nat → Bool} {ls : List Label} {s : State} {es : List Event} (h : run (step lib) init ls = some (s, es)) (hr : NoReset es) :
    ∃ σ, specState (next lib) Spec.init es = some σ ∧ R s σ ∧ Clean σ fun i => invocations i es := by
  have hacc := history_conforms_partial lib ls s es h
  obtain ⟨σ, hσ⟩ := always_known hacc
  refine ⟨σ, hσ, simulation_state R (fun _ _ _ _ _ hR hs => sim hR hs) (s := init) rel_init h hσ, ?_⟩
  have := follows_inv (lib := lib) (Q := fun σ es => NoReset es → (Clean σ fun i => invocations i es) ∧ Refs σ) (hist := []) (σ := Spec.init) (by
    intro _
    refine ⟨?_, ?_⟩ <;> constructor <;> simp [Spec.init, invocations]) hσ (by
    intro σ σ' e hist ih hn hr
    have hr1 : NoReset hist := fun t k hm => hr t k (List.mem_append_left _ hm)
    obtain ⟨hc, hrf⟩ := ih hr1
    refine ⟨?_, refs_step hn hrf⟩
    have := clean_step hn hc (fun t k he => hr t k (by rw [he]; exact List.mem_append_right _ (List.mem_singleton.mpr rfl))) hrf.own
    simpa [invocations_append] using this) (by simpa using hr)
  simpa using this.1

/-- **C34 (at most once).** Without reset, each function is invoked at most once, by whatever tasks it has been moved through and however many threads call. -/
theorem invoked_at_most_once (lib : Nat → Bool) (ls : List Label) (s : State) (es : List Event) (h : run (step lib) init ls = some (s, es)) (hr : NoReset es) (i : Nat) : invocations i es ≤ 1 := by
  obtain ⟨σ, _, _, hc⟩ := clean_history h hr
  exact hc.le i

/-! ## The outcome of that very run -/

/-- The record of the runs in a history: the functions each thread is in, and how each function ended. -/
structure Record where
  inside : Nat → List Nat
  outcome : Nat → Option Out

def Record.add (ρ : Record) : Event → Record
  | .invoked t _ _ i => { ρ with inside := upd ρ.inside t (i :: ρ.inside t) }
  | .ended t o _ =>
    match ρ.inside t with
    | i :: rest => { inside := upd ρ.inside t rest, outcome := upd ρ.outcome i (some o) }
    | [] => ρ
  | _ => ρ

/-- How function `i` ended in a history. -/
def outcomeOf (i : Nat) (es : List Event) : Option Out := (es.foldl Record.add { inside := fun _ => [], outcome := fun _ => none }).outcome i

structure Rec (σ : Spec) (ρ : Record) : Prop where
  inside : ∀ t, ρ.inside t = (σ.runs t).map (·.1)
  over : ∀ i o, (σ.fn i).run = .over o → ρ.outcome i = some o
  ready : ∀ i o, (σ.fn i).run = .ready o → o = .exc .broken ∨ ρ.outcome i = some o

theorem Rec.abandon {σ : Spec} {ρ : Record} (h : Rec σ ρ) (o : Option Nat) (task : Nat → Option Task) : Rec { σ with fn := giveUp σ.fn o, task := task } ρ := by
  cases o with
  | none => exact ⟨h.inside, h.over, h.ready⟩
  | some i =>
    refine ⟨h.inside, ?_, ?_⟩ <;> simp only [giveUp, upd_apply, Fn.abandon]
    · have := h.over; grind
    · have := h.ready; grind

theorem rec_step {lib : Nat → Bool} {σ σ' : Spec} {ρ : Record} {e : Event} (hn : next lib σ e = .ok σ') (hc : ∀ i, (σ.fn i).spoiled = false) (h : Rec σ ρ) : Rec σ' (ρ.add e) := by
  have h1 := h.inside
  have h2 := h.over
  have h3 := h.ready
  cases e with
  | ret t op r =>
    simp only [Record.add]
    cases op <;> simp only [next, nextRet] at hn <;> (repeat' split at hn) <;> cases hn <;> (try exact h) <;> (try exact ⟨h1, h2, h3⟩) <;> (try exact h.abandon _ _)
    · refine ⟨h1, ?_, ?_⟩ <;> simp only [upd_apply] <;> grind
    · refine ⟨h1, ?_, ?_⟩ <;> simp only [upd_apply] <;> grind
  | invoked t k m i =>
    simp only [next] at hn
    (repeat' split at hn) <;> cases hn
    refine ⟨?_, ?_, ?_⟩ <;> simp only [Record.add, upd_apply]
    · intro u; split <;> simp [h1]
    · grind
    · grind
  | ended t o r =>
    simp only [next] at hn
    split at hn
    · rename_i i m rest hx
      have hin : ρ.inside t = i :: rest.map (·.1) := by rw [h1, hx]; rfl
      have hins : ∀ u, upd ρ.inside t (rest.map (·.1)) u = (upd σ.runs t rest u).map (·.1) := by
        intro u; simp only [upd_apply]; split
        · rfl
        · exact h1 u
      simp only [hc i, Bool.false_eq_true, ↓reduceIte] at hn
      split at hn
      · split at hn <;> cases hn <;> simp only [Record.add, hin] <;> refine ⟨hins, ?_, ?_⟩ <;> simp only [upd_apply] <;> grind
      · cases hn
    · cases hn
  | exited t => simp only [next] at hn; split at hn <;> cases hn; exact ⟨h1, h2, h3⟩
  | published t =>
    simp only [next] at hn
    split at hn
    · split at hn
      · rename_i i rest hx
        split at hn
        · rename_i o hr
          cases hn
          refine ⟨h1, ?_, ?_⟩ <;> simp only [Record.add, upd_apply]
          · grind
          · have := h2 i o hr; grind
        · simp only [hc i, Bool.false_eq_true, ↓reduceIte] at hn
          cases hn
      · cases hn
    · cases hn

/-- **C34 (the outcome).** Without reset: if `get` delivers `o` on a future of function `i`, then `o` is how the only run of function `i` ended, or it is `broken_promise` and function `i` was
never invoked. -/
theorem get_delivers_the_outcome_of_the_run (lib : Nat → Bool) (ls : List Label) (s : State) (es : List Event) (t f : Nat) (o : Out) (σ : Spec) (h : run (step lib) init ls = some (s, es ++ [.ret t (.get f) (.out o)]))
    (hr : NoReset es) (hσ : specState (next lib) Spec.init es = some σ) :
    (outcomeOf (σ.fut f) es = some o ∧ invocations (σ.fut f) es = 1) ∨ (o = .exc .broken ∧ invocations (σ.fut f) es = 0) := by
  have hacc := history_conforms_partial lib ls s _ h
  have hnx := hacc.next_of_specState hσ
  have hpair := follows_inv (lib := lib) (Q := fun σ es => NoReset es → ((Clean σ fun i => invocations i es) ∧ Refs σ) ∧
      Rec σ (es.foldl Record.add { inside := fun _ => [], outcome := fun _ => none }) ∧ ∀ i, invocations i es = 0 → (σ.fn i).run = .fresh ∨ (σ.fn i).run = .ready (.exc .broken)) (hist := [])
      (σ := Spec.init) (by
    intro _
    refine ⟨⟨?_, ?_⟩, ?_, ?_⟩
    · constructor <;> simp [Spec.init, invocations]
    · constructor <;> simp [Spec.init, invocations]
    · constructor <;> simp [Spec.init]
    · simp [Spec.init]) hσ (by
    intro σ σ' e hist ih hn hr
    have hr1 : NoReset hist := fun t k hm => hr t k (List.mem_append_left _ hm)
    obtain ⟨⟨hc, hrf⟩, hrec, hnev⟩ := ih hr1
    refine ⟨⟨?_, refs_step hn hrf⟩, ?_, ?_⟩
    · have := clean_step hn hc (fun t k he => hr t k (by rw [he]; exact List.mem_append_right _ (List.mem_singleton.mpr rfl))) hrf.own
      simpa [invocations_append] using this
    · have := rec_step hn hc.clean hrec
      simpa using this
    · intro i hi
      simp only [invocations_append] at hi
      have h1 := hnev i (by omega)
      have hcl := hc.clean
      cases e with
      | ret t op r =>
        have habs : ∀ (o : Option Nat), (giveUp σ.fn o i).run = .fresh ∨ (giveUp σ.fn o i).run = .ready (.exc .broken) := by
          intro o
          cases o <;> simp only [giveUp, upd_apply, Fn.abandon] <;> grind
        cases op <;> simp only [next, nextRet] at hn <;> (repeat' split at hn) <;> cases hn <;> (try exact h1) <;> (try exact habs _) <;> simp only [upd_apply] <;> grind
      | invoked t k m j =>
        simp only [next] at hn
        (repeat' split at hn) <;> cases hn
        simp only [invocations, upd_apply] at hi ⊢
        grind
      | ended t o r =>
        simp only [next] at hn
        split at hn
        · rename_i j m rest hx
          simp only [hcl j, Bool.false_eq_true, ↓reduceIte] at hn
          split at hn
          · split at hn <;> cases hn <;> simp only [upd_apply] <;> grind
          · cases hn
        · cases hn
      | exited t => simp only [next] at hn; split at hn <;> cases hn; exact h1
      | published t =>
        simp only [next] at hn
        split at hn
        · split at hn
          · rename_i j rest hx
            split at hn
            · rename_i o hro
              cases hn
              simp only [upd_apply]
              grind
            · simp only [hcl j, Bool.false_eq_true, ↓reduceIte] at hn
              cases hn
          · cases hn
        · cases hn) (by simpa using hr)
  simp only [List.nil_append] at hpair
  obtain ⟨⟨hc, _⟩, hrec, hnev⟩ := hpair
  simp only [next, nextRet] at hnx
  have hready : (σ.fn (σ.fut f)).run = .ready o := by
    split at hnx
    · exact absurd rfl hnx
    · split at hnx
      · simp only [hc.clean, Bool.false_eq_true, ↓reduceIte] at hnx
        split at hnx
        · rename_i o' ho
          split at hnx
          · rename_i e
            cases e
            exact ho
          · exact absurd rfl hnx
        · exact absurd rfl hnx
      · exact absurd rfl hnx
  by_cases hz : invocations (σ.fut f) es = 0
  · rcases hnev _ hz with h1 | h1
    · rw [hready] at h1; cases h1
    · rw [hready] at h1
      cases h1
      exact .inr ⟨rfl, hz⟩
  · have hle : invocations (σ.fut f) es ≤ 1 := hc.le _
    left
    refine ⟨?_, by omega⟩
    rcases hrec.ready _ _ hready with h1 | h1
    · subst h1
      exact absurd (hc.broken _ (.inl hready)) hz
    · exact h1

/-! ## Futures become ready -/

/-- **C34 (availability).** Once the specification says that the run is over, `get` returns at once in every thread. -/
theorem get_returns (lib : Nat → Bool) (ls : List Label) (s : State) (es : List Event) (σ : Spec) (f t : Nat) (o : Out) (h : run (step lib) init ls = some (s, es))
    (hσ : specState (next lib) Spec.init es = some σ) (hf : f < σ.nf) (hs : (σ.fn (σ.fut f)).spoiled = false) (hr : (σ.fn (σ.fut f)).run = .ready o) (hg : σ.gone t = false) :
    step lib s (.op t (.get f)) = some (s, [.ret t (.get f) (.out o)]) := by
  have hR := simulation_state R (fun _ _ _ _ _ hR hs => sim hR hs) (s := init) rel_init h hσ
  have hss := hR.ss _ hs
  rw [hr, hR.fut] at hss
  have h1 := hss.done
  have h2 := hss.out
  simp only [Run.isReady, Run.out] at h1 h2
  rw [hR.nf] at hf
  rw [hR.gone] at hg
  simp [step, hg, doOp, hf, h1, h2]

/-- **C34 (broken promise).** Destroying a task that has not been called, or assigning to it, breaks the promise: `get` on its future then throws `broken_promise`. -/
theorem destroyed_task_breaks_the_promise (lib : Nat → Bool) (ls : List Label) (s s' : State) (es es' : List Event) (σ : Spec) (t u k f i : Nat) (g : Bool) (op : Op)
    (hop : op = .destroy k ∨ ∃ j, j ≠ k ∧ op = .assign k j) (h : run (step lib) init ls = some (s, es)) (hσ : specState (next lib) Spec.init es = some σ) (hk : σ.task k = some ⟨some i, g⟩)
    (hfr : (σ.fn i).run = .fresh) (hs : (σ.fn i).spoiled = false) (hf : f < σ.nf) (hfi : σ.fut f = i) (hg : σ.gone u = false) (hst : step lib s (.op t op) = some (s', es')) :
    step lib s' (.op u (.get f)) = some (s', [.ret u (.get f) (.out (.exc .broken))]) := by
  have hR := simulation_state R (fun _ _ _ _ _ hR hs => sim hR hs) (s := init) rel_init h hσ
  have hss := hR.ss _ hs
  rw [hfr] at hss
  have h1 : (s.ss i).started = false := by simpa using hss.started
  rw [hR.task] at hk
  rw [hR.nf] at hf
  rw [hR.gone] at hg
  rw [hR.fut] at hfi
  rcases hop with rfl | ⟨j, hj, rfl⟩
  · simp only [step] at hst
    split at hst
    · cases hst
    · simp only [doOp, hk, Option.map_some, Option.some.injEq] at hst
      cases hst
      simp [step, hg, doOp, hf, hfi, abandon, upd_apply, SS.abandon, h1, SS.outcome]
  · simp only [step] at hst
    split at hst
    · cases hst
    · simp only [doOp, hk, Option.bind_some, Option.map_eq_some_iff] at hst
      obtain ⟨y, hy, hst⟩ := hst
      rw [if_neg (Ne.symm hj)] at hst
      cases hst
      simp [step, hg, doOp, hf, hfi, abandon, upd_apply, SS.abandon, h1, SS.outcome]

/-- Such a state. -/
example : ∃ ls s es σ, run (step fun _ => true) init ls = some (s, es) ∧ specState (next fun _ => true) Spec.init es = some σ ∧ σ.task 1 = some ⟨some 0, true⟩ ∧ (σ.fn 0).run = .fresh ∧
    (σ.fn 0).spoiled = false ∧ 0 < σ.nf ∧ σ.fut 0 = 0 := by
  refine ⟨[.op 0 .new, .op 0 (.getFuture 0), .op 0 (.move 0)], _, _, _, rfl, rfl, rfl, rfl, rfl, ?_, rfl⟩
  decide

/-- **C34 (`make_ready_at_thread_exit`).** After the end of its thread, every outcome kept back by `make_ready_at_thread_exit` gets published by steps of the library alone. -/
theorem outcomes_are_published_after_the_end_of_the_thread (lib : Nat → Bool) (ls : List Label) (s : State) (es : List Event) (σ : Spec) (t : Nat) (h : run (step lib) init ls = some (s, es))
    (hσ : specState (next lib) Spec.init es = some σ) (hg : σ.gone t = true) :
    ∃ n s' es', run (step lib) s (List.replicate n (.publish t)) = some (s', es') ∧ s'.exit t = [] ∧ ∀ i ∈ σ.exit t, (s'.ss i).done = true := by
  have hR := simulation_state R (fun _ _ _ _ _ hR hs => sim hR hs) (s := init) rel_init h hσ
  rw [hR.exit]
  rw [hR.gone] at hg
  clear hσ h hR
  suffices hmain : ∀ (l : List Nat) (s : State), s.exit t = l → s.gone t = true →
      ∃ n s' es', run (step lib) s (List.replicate n (.publish t)) = some (s', es') ∧ s'.exit t = [] ∧ (∀ i ∈ l, (s'.ss i).done = true) ∧ ∀ i, (s.ss i).done = true → (s'.ss i).done = true by
    obtain ⟨n, s', es', h1, h2, h3, _⟩ := hmain _ s rfl hg
    exact ⟨n, s', es', h1, h2, h3⟩
  intro l
  induction l with
  | nil => intro s hl _; exact ⟨0, s, [], rfl, hl, by simp, fun _ h => h⟩
  | cons i l ih =>
    intro s hl hg
    have hst : step lib s (.publish t) = some ({ s with ss := upd s.ss i { s.ss i with done := true }, exit := upd s.exit t l }, [.published t]) := by simp [step, hg, hl]
    obtain ⟨n, s', es', h1, h2, h3, h4⟩ := ih { s with ss := upd s.ss i { s.ss i with done := true }, exit := upd s.exit t l } (by simp [upd_apply]) hg
    refine ⟨n + 1, s', [.published t] ++ es', ?_, h2, ?_, ?_⟩
    · rw [List.replicate_succ]
      exact run_step hst h1
    · intro j hj
      rcases List.mem_cons.mp hj with rfl | hj
      · exact h4 j (by simp [upd_apply])
      · exact h3 j hj
    · intro j hj
      refine h4 j ?_
      simp only [upd_apply]
      split <;> simp [*]

example : ∃ ls s es σ, run (step fun _ => true) init ls = some (s, es) ∧ specState (next fun _ => true) Spec.init es = some σ ∧ σ.gone 1 = true ∧ σ.exit 1 = [0, 1] := by
  refine ⟨[.op 0 .new, .op 0 .new, .op 1 (.call 0 .atExit), .finish 1 (.value 2), .op 1 (.call 1 .atExit), .finish 1 (.exc (.user 4)), .exit 1], _, _, _, rfl, rfl, rfl, rfl⟩

/-! ## Where the code does not do what it says -/

/-- `reset` is documented to start afresh; the new future is ready at once and delivers the value of the run before the reset. -/
theorem reset_leaves_the_state_ready : ∃ ls s es, run (step fun _ => true) init ls = some (s, es) ∧
    es = [.ret 0 .new .ok, .ret 0 (.getFuture 0) .ok, .invoked 0 0 .now 0, .ended 0 (.value 3) .ok, .ret 0 (.reset 0) .ok, .ret 0 (.getFuture 0) .ok, .ret 0 (.isReady 1) (.bool true),
      .ret 0 (.get 1) (.out (.value 3))] :=
  ⟨[.op 0 .new, .op 0 (.getFuture 0), .op 0 (.call 0 .now), .finish 0 (.value 3), .op 0 (.reset 0), .op 0 (.getFuture 0), .op 0 (.isReady 1), .op 0 (.get 1)], _, _, rfl, rfl⟩

/-- If the run before the reset threw, the future of the next run throws that exception although that run returned a value. -/
theorem reset_keeps_the_exception : ∃ ls s es, run (step fun _ => true) init ls = some (s, es) ∧
    es = [.ret 0 .new .ok, .invoked 0 0 .now 0, .ended 0 (.exc (.user 1)) .ok, .ret 0 (.reset 0) .ok, .ret 0 (.getFuture 0) .ok, .invoked 0 0 .now 0, .ended 0 (.value 5) .ok,
      .ret 0 (.get 0) (.out (.exc (.user 1)))] :=
  ⟨[.op 0 .new, .op 0 (.call 0 .now), .finish 0 (.exc (.user 1)), .op 0 (.reset 0), .op 0 (.getFuture 0), .op 0 (.call 0 .now), .finish 0 (.value 5), .op 0 (.get 0)], _, _, rfl, rfl⟩

/-- The future taken before a reset shares the state of the next run: it sees that run's value, and not `broken_promise`. -/
theorem reset_does_not_separate_futures : ∃ ls s es, run (step fun _ => true) init ls = some (s, es) ∧
    es = [.ret 0 .new .ok, .ret 0 (.getFuture 0) .ok, .ret 0 (.reset 0) .ok, .ret 0 (.getFuture 0) .ok, .invoked 0 0 .now 0, .ended 0 (.value 5) .ok, .ret 0 (.get 0) (.out (.value 5)),
      .ret 0 (.get 1) (.out (.value 5))] :=
  ⟨[.op 0 .new, .op 0 (.getFuture 0), .op 0 (.reset 0), .op 0 (.getFuture 0), .op 0 (.call 0 .now), .finish 0 (.value 5), .op 0 (.get 0), .op 0 (.get 1)], _, _, rfl, rfl⟩

/-- Destroying a task after a reset takes away the value that its first future had. -/
theorem destruction_after_reset_breaks_a_kept_promise : ∃ ls s es, run (step fun _ => true) init ls = some (s, es) ∧
    es = [.ret 0 .new .ok, .ret 0 (.getFuture 0) .ok, .invoked 0 0 .now 0, .ended 0 (.value 3) .ok, .ret 0 (.get 0) (.out (.value 3)), .ret 0 (.reset 0) .ok, .ret 0 (.destroy 0) .ok,
      .ret 0 (.get 0) (.out (.exc .broken))] :=
  ⟨[.op 0 .new, .op 0 (.getFuture 0), .op 0 (.call 0 .now), .finish 0 (.value 3), .op 0 (.get 0), .op 0 (.reset 0), .op 0 (.destroy 0), .op 0 (.get 0)], _, _, rfl, rfl⟩

/-- After a run that returned a value, `make_ready_at_thread_exit` throws `promise_already_satisfied` also after a reset. -/
theorem reset_does_not_allow_at_thread_exit : ∃ ls s es, run (step fun _ => true) init ls = some (s, es) ∧
    es = [.ret 0 .new .ok, .invoked 0 0 .now 0, .ended 0 (.value 3) .ok, .ret 0 (.reset 0) .ok, .ret 0 (.call 0 .atExit) .satisfied] :=
  ⟨[.op 0 .new, .op 0 (.call 0 .now), .finish 0 (.value 3), .op 0 (.reset 0), .op 0 (.call 0 .atExit)], _, _, rfl, rfl⟩

/-- In a thread that was not started by the library, the outcome given to `make_ready_at_thread_exit` is never published: the thread has ended, nothing is left to publish, and the future is
not ready. -/
theorem foreign_thread_never_publishes : ∃ ls s es, run (step fun _ => false) init ls = some (s, es) ∧ .invoked 1 0 .atExit 0 ∈ es ∧ .ended 1 (.value 3) .ok ∈ es ∧ .exited 1 ∈ es ∧ (∀ t, s.exit t = []) ∧
    (∀ t, s.stk t = []) ∧ .ret 0 (.isReady 0) (.bool false) ∈ es := by
  refine ⟨[.op 0 .new, .op 0 (.getFuture 0), .op 1 (.call 0 .atExit), .finish 1 (.value 3), .exit 1, .op 0 (.isReady 0)], _, _, rfl, ?_, ?_, ?_, fun _ => rfl, ?_, ?_⟩
  · decide
  · decide
  · decide
  · intro t
    by_cases h : t = 1 <;> simp [upd, init, h]
  · decide

end Verif.PackagedTask
