import Verif.LoopExecutor.Sim
/-! # Properties of `loop_executor` and `user_scheduler` -/

set_option linter.unusedSimpArgs false

namespace Verif.LoopExecutor

/-- **C43.** In every history of a `loop_executor` (`us = false`) with any number of threads: `submit` accepts exactly while the executor is open; closures are taken in the order in which
they were accepted; `try_executing_one` takes the oldest, and returns false only if nothing is queued; `run_queued_closures` takes everything that is queued at the time of the call and
returns after having carried all of it out in order; `loop` takes closures one by one and returns only when the executor is closed and nothing is queued; a call invokes exactly what it has
taken, in order.

Partial: the destructor does not carry out what is queued; nothing is said about the queue after a call of `run_queued_closures` while a closure had been taken since the queue was last
empty, because that breaks it (`run_queued_closures_breaks_the_executor`). For `user_scheduler` (`us = true`) the statement leaves out `run_queued_closures`, and its functions behave differently when a
closure throws; see the end of this file. -/
theorem history_conforms_partial (us : Bool) (ls : List Label) (s : State) (es : List Event) (h : run (step us) init ls = some (s, es)) :
    Accepts (next us false) Spec.init es :=
  simulation (Rel us) (fun _ _ _ _ _ hR hs => sim hR hs) (s := init) (rel_init us) h

/-- The closures invoked, in order. -/
def invoked : List Event → List Nat
  | [] => []
  | .started _ c :: es => c :: invoked es
  | _ :: es => invoked es

/-- The closures invoked by thread `t`, in order. -/
def invokedBy (t : Nat) : List Event → List Nat
  | [] => []
  | .started u c :: es => if u = t then c :: invokedBy t es else invokedBy t es
  | _ :: es => invokedBy t es

/-- How many closures have been accepted. -/
def accepted : List Event → Nat
  | [] => 0
  | .submitted _ _ :: es => accepted es + 1
  | _ :: es => accepted es

/-- Two threads: one loops, a closure submits another one and helps with `try_executing_one`, the other thread runs the queued closures, and closes the executor. -/
example : ∃ ls s es, run (step false) init ls = some (s, es) ∧ invoked es = [0, 1, 2, 3] ∧ .runReturned 1 ∈ es ∧ .loopReturned 0 ∈ es ∧ .tryReturned 0 true ∈ es := by
  refine ⟨[.loop 0, .submit 1, .go 0, .start 0, .submit 0, .tryExec 0, .start 0, .finish 0, .submit 0, .run 1, .go 1, .start 1, .submit 1, .finish 0, .go 0, .start 0, .finish 1, .go 1,
    .close 1, .finish 0, .go 0, .go 0], _, _, rfl, ?_, ?_, ?_, ?_⟩ <;> decide

/-! ## Each closure at most once -/

/-- What the calls of thread `t` have taken and not invoked. -/
def Spec.pending (σ : Spec) (t : Nat) : List Nat := (σ.calls t).flatMap Open.todo

structure Once (σ : Spec) (I : List Nat) : Prop where
  nodup : I.Nodup
  lt : ∀ c ∈ I, c < σ.taken
  le : σ.taken ≤ σ.acc
  each : ∀ t, (σ.pending t).Nodup
  apart : ∀ t u c, t ≠ u → c ∈ σ.pending t → c ∉ σ.pending u
  fresh : ∀ t c, c ∈ σ.pending t → c < σ.taken ∧ c ∉ I

theorem pending_upd {σ : Spec} {t : Nat} {os : List Open} (u : Nat) : ({ σ with calls := upd σ.calls t os } : Spec).pending u = if u = t then os.flatMap Open.todo else σ.pending u := by
  simp only [Spec.pending, upd_apply]
  split <;> rfl

/-- A thread's calls change; what it has pending shrinks. -/
theorem Once.shrink {σ : Spec} {I : List Nat} (h : Once σ I) {t : Nat} {os : List Open} (hs : (os.flatMap Open.todo).Sublist (σ.pending t)) {d : Option Event} :
    Once { σ with calls := upd σ.calls t os, due := d } I := by
  have hp : ∀ u, ({ σ with calls := upd σ.calls t os, due := d } : Spec).pending u = if u = t then os.flatMap Open.todo else σ.pending u := fun u => pending_upd (σ := σ) u
  have hsub : ∀ u c, c ∈ ({ σ with calls := upd σ.calls t os, due := d } : Spec).pending u → c ∈ σ.pending u := by
    intro u c hc
    rw [hp] at hc
    split at hc
    · subst u; exact hs.subset hc
    · exact hc
  refine ⟨h.nodup, h.lt, h.le, fun u => ?_, fun u v c hne hc hc' => h.apart u v c hne (hsub u c hc) (hsub v c hc'), fun u c hc => h.fresh u c (hsub u c hc)⟩
  rw [hp]
  split
  · exact (h.each t).sublist hs
  · exact h.each u

theorem Once.congr {σ σ' : Spec} {I : List Nat} (h : Once σ I) (h1 : σ'.taken = σ.taken) (h2 : σ'.acc = σ.acc) (h3 : σ'.calls = σ.calls) : Once σ' I := by
  have hp : ∀ t, σ'.pending t = σ.pending t := fun t => by simp [Spec.pending, h3]
  exact ⟨h.nodup, by rw [h1]; exact h.lt, by rw [h1, h2]; exact h.le, fun t => by rw [hp]; exact h.each t, fun t u => by rw [hp, hp]; exact h.apart t u, fun t => by rw [hp, h1]; exact h.fresh t⟩

/-- A thread takes closures from the queue. -/
theorem Once.take {σ : Spec} {I : List Nat} (h : Once σ I) {t k : Nat} {os : List Open} {cs : List Nat} (hs : os.flatMap Open.todo = cs ++ σ.pending t) (hcs : cs.Nodup)
    (hlo : ∀ c ∈ cs, σ.taken ≤ c ∧ c < k) (hk : σ.taken ≤ k) (hka : k ≤ σ.acc) : Once { σ with taken := k, calls := upd σ.calls t os } I := by
  have hp : ∀ u, ({ σ with taken := k, calls := upd σ.calls t os } : Spec).pending u = if u = t then cs ++ σ.pending t else σ.pending u := by
    intro u
    rw [← hs]
    exact pending_upd (σ := { σ with taken := k }) u
  have hm : ∀ u c, c ∈ ({ σ with taken := k, calls := upd σ.calls t os } : Spec).pending u ↔ (u = t ∧ c ∈ cs) ∨ c ∈ σ.pending u := by
    intro u c
    rw [hp]
    split
    · subst u; simp
    · simp [*]
  refine ⟨h.nodup, fun c hc => Nat.lt_of_lt_of_le (h.lt c hc) hk, hka, fun u => ?_, fun u v c hne hc hc' => ?_, fun u c hc => ?_⟩
  · rw [hp]
    split
    · refine List.nodup_append.mpr ⟨hcs, h.each t, fun a ha b hb => ?_⟩
      have := hlo a ha
      have := (h.fresh t b hb).1
      omega
    · exact h.each u
  · have h1 := (hm u c).mp hc
    have h2 := (hm v c).mp hc'
    have h3 := h.apart u v c hne
    have h4 := h.fresh u c
    have h5 := h.fresh v c
    have h6 := hlo c
    grind
  · have h1 := (hm u c).mp hc
    have h4 := h.fresh u c
    have h6 := hlo c
    have h7 := h.lt c
    grind

theorem once_step {us : Bool} {σ σ' : Spec} {e : Event} {I : List Nat} (hn : next us false σ e = .ok σ') (h : Once σ I) (hI : ∀ t c, e ≠ .started t c) : Once σ' I := by
  unfold next at hn
  split at hn
  · split at hn
    · cases hn
    rename_i hx
    clear hx
    cases e <;> simp only [live] at hn
    case started t c => exact absurd rfl (hI t c)
    case submitted t c =>
      split at hn <;> cases hn
      exact ⟨h.nodup, h.lt, by simp only; have := h.le; omega, h.each, h.apart, h.fresh⟩
    case refused t => split at hn <;> cases hn; exact h
    case closeReturned t => cases hn; exact ⟨h.nodup, h.lt, h.le, h.each, h.apart, h.fresh⟩
    case closedIs t b => split at hn <;> cases hn; exact h
    case tryTook t c =>
      split at hn <;> cases hn
      rename_i hc
      exact (h.take (t := t) (k := c + 1) (cs := [c]) (os := ⟨.one, [c], none, false⟩ :: σ.calls t) (by simp [Spec.pending]) (by simp) (by simp; omega) (by omega) (by omega)).congr rfl rfl rfl
    case tryReturned t b => split at hn <;> cases hn; exact h
    case loopCalled t =>
      split at hn <;> cases hn
      exact h.shrink (d := σ.due) (by simp [Spec.pending])
    case loopTook t c =>
      split at hn
      · rename_i hc
        split at hn <;> cases hn
        rename_i hcond
        exact (h.take (t := t) (k := c + 1) (cs := [c]) (os := ⟨.loop, [c], none, false⟩ :: _) (by simp [Spec.pending, hc]) (by simp) (by simp; omega) (by omega) (by omega)).congr rfl rfl rfl
      · cases hn
    case loopReturned t =>
      split at hn
      · rename_i hc
        split at hn <;> cases hn
        exact h.shrink (d := σ.due) (by simp [Spec.pending, hc])
      · cases hn
    case runCalled t =>
      (repeat' split at hn) <;> cases hn
      have := h.le
      refine (h.take (t := t) (k := σ.acc) (cs := σ.queue) (os := ⟨.run, σ.queue, none, false⟩ :: σ.calls t) (by simp [Spec.pending]) (List.nodup_range' ..) (fun c hc => ?_) h.le (Nat.le_refl _)).congr rfl rfl rfl
      simp only [Spec.queue, List.mem_range'_1] at hc
      omega
    case runReturned t =>
      split at hn
      · rename_i hc
        cases hn
        exact h.shrink (d := σ.due) (by simp [Spec.pending, hc])
      · cases hn
    case runThrew t => cases hn
    case ended t c =>
      split at hn
      · rename_i hc
        (repeat' split at hn) <;> cases hn
        · exact h.shrink (by simp [Spec.pending, hc])
        · exact h.shrink (d := σ.due) (by simp [Spec.pending, hc])
      · cases hn
    case threw t c =>
      split at hn
      · rename_i hc
        (repeat' split at hn) <;> cases hn
        · exact h.shrink (by simp [Spec.pending, hc])
        · exact h.shrink (by simp [Spec.pending, hc])
        · exact h.shrink (d := σ.due) (by simp [Spec.pending, hc])
        · exact ⟨h.nodup, h.lt, h.le, h.each, h.apart, h.fresh⟩
      · cases hn
    case terminated => cases hn
    case destroyed t =>
      split at hn <;> cases hn
      refine ⟨h.nodup, fun c hc => Nat.lt_of_lt_of_le (h.lt c hc) h.le, Nat.le_refl _, h.each, h.apart, fun t c hc => ?_⟩
      have := h.fresh t c hc
      exact ⟨Nat.lt_of_lt_of_le this.1 h.le, this.2⟩
    case undefinedBehaviour => cases hn
  · split at hn <;> cases hn
    exact ⟨h.nodup, h.lt, h.le, h.each, h.apart, h.fresh⟩

theorem once_start {us : Bool} {σ σ' : Spec} {t c : Nat} {I : List Nat} (hn : live us false σ (.started t c) = .ok σ') (h : Once σ I) : Once σ' (I ++ [c]) := by
  simp only [live] at hn
  split at hn
  · rename_i k d todo hurt rest hc
    split at hn <;> cases hn
    rename_i hcd
    subst hcd
    have hpt : σ.pending t = c :: (todo ++ rest.flatMap Open.todo) := by simp [Spec.pending, hc]
    have hct : c ∈ σ.pending t := by rw [hpt]; exact List.mem_cons_self ..
    have hs := h.shrink (t := t) (d := σ.due) (os := ⟨k, todo, some c, false⟩ :: rest) (by rw [hpt]; simp)
    obtain ⟨h1, h2, h3, h4, h5, h6⟩ := hs
    have hp : ∀ u, ({ σ with calls := upd σ.calls t (⟨k, todo, some c, false⟩ :: rest) } : Spec).pending u = if u = t then todo ++ rest.flatMap Open.todo else σ.pending u := by
      intro u
      rw [pending_upd]
      simp
    have hnd := h.each t
    rw [hpt] at hnd
    have hnot := (List.nodup_cons.mp hnd).1
    have hf := h.fresh t c hct
    refine ⟨?_, ?_, h3, h4, h5, fun u d hd => ⟨(h6 u d hd).1, ?_⟩⟩
    · refine List.nodup_append.mpr ⟨h.nodup, by simp, fun a ha b hb => ?_⟩
      simp only [List.mem_singleton] at hb
      subst hb
      intro e
      exact hf.2 (e ▸ ha)
    · intro d hd
      simp only [List.mem_append, List.mem_singleton] at hd
      rcases hd with hd | rfl
      · exact h.lt d hd
      · exact hf.1
    · simp only [List.mem_append, List.mem_singleton, not_or]
      refine ⟨(h6 u d hd).2, fun e => ?_⟩
      subst e
      have hd' := hp u ▸ hd
      split at hd'
      · exact hnot hd'
      · exact h.apart u t d (by assumption) hd' hct
  · cases hn

/-- What a thread may owe. -/
def DueOk (σ : Spec) : Prop := ∀ e, σ.due = some e → (∃ t b, e = .tryReturned t b) ∨ (∃ t, e = .runThrew t) ∨ e = .terminated

theorem next_due {us : Bool} {σ σ' : Spec} {e : Event} (hn : next us false σ e = .ok σ') (h : DueOk σ) : DueOk σ' ∧ σ'.acc = σ.acc + accepted [e] := by
  unfold next at hn
  split at hn
  · rename_i hd
    split at hn
    · cases hn
    rename_i hx
    clear hx
    cases e <;> simp only [live] at hn <;> (repeat' split at hn) <;> (try cases hn) <;> simp_all [DueOk, accepted]
  · rename_i d hd
    split at hn <;> cases hn
    rename_i he
    subst he
    refine ⟨nofun, ?_⟩
    rcases h _ hd with ⟨t, b, rfl⟩ | ⟨t, rfl⟩ | rfl <;> rfl

theorem next_live {us : Bool} {σ σ' : Spec} {e : Event} (hn : next us false σ e = .ok σ') (h : DueOk σ) (h1 : ∀ t b, e ≠ .tryReturned t b) (h2 : ∀ t, e ≠ .runThrew t)
    (h3 : e ≠ .terminated) : σ.due = none ∧ live us false σ e = .ok σ' := by
  unfold next at hn
  split at hn
  · split at hn
    · cases hn
    · exact ⟨by assumption, hn⟩
  · rename_i d hd
    split at hn <;> cases hn
    rename_i he
    subst he
    rcases h _ hd with ⟨t, b, rfl⟩ | ⟨t, rfl⟩ | rfl
    · exact absurd rfl (h1 t b)
    · exact absurd rfl (h2 t)
    · exact absurd rfl h3

theorem accepted_cons (e : Event) (es : List Event) : accepted (e :: es) = accepted [e] + accepted es := by cases e <;> simp [accepted, Nat.add_comm]

theorem once_aux {us : Bool} {σ : Spec} {es : List Event} {I : List Nat} (h : Accepts (next us false) σ es) (hc : ClientOk (next us false) σ es) (hI : Once σ I) (hd : DueOk σ) :
    (I ++ invoked es).Nodup ∧ ∀ c ∈ I ++ invoked es, c < σ.acc + accepted es := by
  induction es generalizing σ I with
  | nil => simpa [invoked, accepted] using ⟨hI.nodup, fun c hc => Nat.lt_of_lt_of_le (hI.lt c hc) hI.le⟩
  | cons e es ih =>
    simp only [Accepts] at h
    simp only [ClientOk] at hc
    cases hn : next us false σ e with
    | illegal => simp [hn] at h
    | undefined => simp [hn] at hc
    | ok σ' =>
      simp only [hn] at h hc
      obtain ⟨hd', ha⟩ := next_due hn hd
      rw [accepted_cons, ← Nat.add_assoc, ← ha]
      by_cases hs : ∃ t c, e = .started t c
      · obtain ⟨t, c, rfl⟩ := hs
        have hl := (next_live hn hd nofun nofun nofun).2
        have := ih h hc (once_start hl hI) hd'
        simpa [invoked] using this
      · have hi : invoked (e :: es) = invoked es := by cases e <;> first | rfl | exact absurd ⟨_, _, rfl⟩ hs
        rw [hi]
        exact ih h hc (once_step hn hI fun t c e => hs ⟨t, c, e⟩) hd'

/-- **C43 (once).** No closure is invoked twice, and only accepted closures are invoked. -/
theorem each_closure_at_most_once (us : Bool) (ls : List Label) (s : State) (es : List Event) (h : run (step us) init ls = some (s, es)) (hc : ClientOk (next us false) Spec.init es) :
    (invoked es).Nodup ∧ ∀ c ∈ invoked es, c < accepted es := by
  have := once_aux (I := []) (history_conforms_partial us ls s es h) hc ⟨by simp, by simp, Nat.le_refl _, by simp [Spec.init, Spec.pending], by simp [Spec.init, Spec.pending],
    by simp [Spec.init, Spec.pending]⟩ (by simp [DueOk, Spec.init])
  simpa [Spec.init] using this

/-! ## `run_queued_closures` runs exactly what is queued -/

theorem run_aux {σ : Spec} {es : List Event} {t : Nat} {todo : List Nat} {cur : Option Nat} {rest : List Open} (h : Accepts (next false false) σ es)
    (hc : ClientOk (next false false) σ es) (hd : DueOk σ) (hk : σ.calls t = ⟨.run, todo, cur, false⟩ :: rest) (hx : σ.due ≠ some (.runThrew t))
    (hn1 : ∀ c, .tryTook t c ∉ es) (hn2 : .loopCalled t ∉ es) (hn3 : .runCalled t ∉ es) (hn4 : ∀ c, .threw t c ∉ es) (hr : .runReturned t ∈ es) :
    ∃ es1 es2, es = es1 ++ .runReturned t :: es2 ∧ .runReturned t ∉ es1 ∧ invokedBy t es1 = todo := by
  induction es generalizing σ todo cur with
  | nil => cases hr
  | cons e es ih =>
    simp only [Accepts] at h
    simp only [ClientOk] at hc
    simp only [List.mem_cons, not_or, ne_eq] at hn1 hn2 hn3 hn4 hr
    cases hn : next false false σ e with
    | illegal => simp [hn] at h
    | undefined => simp [hn] at hc
    | ok σ' =>
      simp only [hn] at h hc
      have hd' := (next_due hn hd).1
      have go : ∀ {todo' : List Nat} {cur' : Option Nat}, σ'.calls t = ⟨.run, todo', cur', false⟩ :: rest → e ≠ .runReturned t → σ'.due ≠ some (.runThrew t) →
          ∃ es1 es2, e :: es = (e :: es1) ++ .runReturned t :: es2 ∧ .runReturned t ∉ e :: es1 ∧ invokedBy t es1 = todo' := by
        intro todo' cur' hk' he hx'
        obtain ⟨es1, es2, h1, h2, h3⟩ := ih h hc hd' hk' hx' (fun c => (hn1 c).2) hn2.2 hn3.2 (fun c => (hn4 c).2) (hr.resolve_left (fun e' => he e'.symm))
        refine ⟨es1, es2, by simp [h1], ?_, h3⟩
        simp only [List.mem_cons, not_or]
        exact ⟨fun e' => he e'.symm, h2⟩
      by_cases hdue : σ.due = none
      · have hl : live false false σ e = .ok σ' := by
          simp only [next, hdue] at hn
          split at hn
          · cases hn
          · exact hn
        have skip : e ≠ .runReturned t → invokedBy t (e :: []) = [] → σ'.calls t = σ.calls t → σ'.due ≠ some (.runThrew t) →
            ∃ es1 es2, e :: es = es1 ++ .runReturned t :: es2 ∧ .runReturned t ∉ es1 ∧ invokedBy t es1 = todo := by
          intro h1 h2 h3 h4
          obtain ⟨es1, es2, g1, g2, g3⟩ := go (h3.trans hk) h1 h4
          refine ⟨e :: es1, es2, g1, g2, ?_⟩
          rw [← g3]
          cases e <;> simp_all [invokedBy]
        cases e with
        | started u c =>
          by_cases hu : u = t
          · subst hu
            simp only [live, hk] at hl
            split at hl
            · rename_i heq
              simp only [List.cons.injEq, Open.mk.injEq] at heq
              obtain ⟨⟨rfl, rfl, rfl, _⟩, rfl⟩ := heq
              split at hl <;> cases hl
              rename_i hcd
              subst hcd
              obtain ⟨es1, es2, g1, g2, g3⟩ := go (cur' := some c) (by exact if_pos rfl) nofun (by simp [hdue])
              exact ⟨_, es2, g1, g2, by simp [invokedBy, g3]⟩
            · cases hl
          · refine skip nofun (by simp [invokedBy, hu]) ?_ ?_ <;> simp only [live] at hl <;> (repeat' split at hl) <;> cases hl <;> simp [upd_apply, hdue, Ne.symm hu]
        | ended u c =>
          by_cases hu : u = t
          · subst hu
            simp only [live, hk] at hl
            split at hl
            · rename_i heq
              simp only [List.cons.injEq, Open.mk.injEq] at heq
              obtain ⟨⟨rfl, rfl, rfl, _⟩, rfl⟩ := heq
              simp only [reduceCtorEq, ↓reduceIte] at hl
              split at hl <;> cases hl
              obtain ⟨es1, es2, g1, g2, g3⟩ := go (todo' := todo) (cur' := none) (by simp [upd_apply]) nofun (by simp [hdue])
              exact ⟨_, es2, g1, g2, by simp [invokedBy, g3]⟩
            · cases hl
          · refine skip nofun (by simp [invokedBy]) ?_ ?_ <;> simp only [live] at hl <;> (repeat' split at hl) <;> cases hl <;> simp [upd_apply, hdue, Ne.symm hu]
        | threw u c =>
          have hu : u ≠ t := fun e => (hn4 c).1 (by rw [e])
          refine skip nofun (by simp [invokedBy]) ?_ ?_ <;> simp only [live] at hl <;> (repeat' split at hl) <;> cases hl <;> simp [upd_apply, hdue, Ne.symm hu, hu]
        | runReturned u =>
          by_cases hu : u = t
          · subst hu
            simp only [live, hk] at hl
            split at hl
            · rename_i heq
              simp only [List.cons.injEq, Open.mk.injEq] at heq
              obtain ⟨⟨_, rfl, rfl, _⟩, rfl⟩ := heq
              exact ⟨[], es, rfl, by simp, rfl⟩
            · cases hl
          · refine skip (by simpa using hu) (by simp [invokedBy]) ?_ ?_ <;> simp only [live] at hl <;> (repeat' split at hl) <;> cases hl <;> simp [upd_apply, hdue, Ne.symm hu]
        | loopTook u c =>
          by_cases hu : u = t
          · subst hu
            simp [live, hk] at hl
          · refine skip nofun (by simp [invokedBy]) ?_ ?_ <;> simp only [live] at hl <;> (repeat' split at hl) <;> cases hl <;> simp [upd_apply, hdue, Ne.symm hu]
        | loopReturned u =>
          by_cases hu : u = t
          · subst hu
            simp [live, hk] at hl
          · refine skip nofun (by simp [invokedBy]) ?_ ?_ <;> simp only [live] at hl <;> (repeat' split at hl) <;> cases hl <;> simp [upd_apply, hdue, Ne.symm hu]
        | tryTook u c =>
          have hu : u ≠ t := fun e => (hn1 c).1 (by rw [e])
          refine skip nofun (by simp [invokedBy]) ?_ ?_ <;> simp only [live] at hl <;> (repeat' split at hl) <;> cases hl <;> simp [upd_apply, hdue, Ne.symm hu]
        | loopCalled u =>
          have hu : u ≠ t := fun e => hn2.1 (by rw [e])
          refine skip nofun (by simp [invokedBy]) ?_ ?_ <;> simp only [live] at hl <;> (repeat' split at hl) <;> cases hl <;> simp [upd_apply, hdue, Ne.symm hu]
        | runCalled u =>
          have hu : u ≠ t := fun e => hn3.1 (by rw [e])
          refine skip nofun (by simp [invokedBy]) ?_ ?_ <;> simp only [live] at hl <;> (repeat' split at hl) <;> cases hl <;> simp [upd_apply, hdue, Ne.symm hu]
        | _ =>
          refine skip nofun (by simp [invokedBy]) ?_ ?_ <;> simp only [live] at hl <;> (repeat' split at hl) <;> cases hl <;> simp [hdue]
      · obtain ⟨d, hdd⟩ := Option.ne_none_iff_exists'.mp hdue
        have hs : e = d ∧ σ' = { σ with due := none } := by
          simp only [next, hdd] at hn
          split at hn <;> cases hn
          exact ⟨by assumption, rfl⟩
        obtain ⟨rfl, rfl⟩ := hs
        have hne : e ≠ .runReturned t ∧ ∀ es, invokedBy t (e :: es) = invokedBy t es := by
          rcases hd _ hdd with ⟨t, b, rfl⟩ | ⟨t, rfl⟩ | rfl <;> exact ⟨nofun, fun _ => rfl⟩
        obtain ⟨es1, es2, g1, g2, g3⟩ := go hk hne.1 nofun
        exact ⟨_, es2, g1, g2, by rw [hne.2, g3]⟩

/-- **C43 (`run_queued_closures`).** Whatever the other threads do meanwhile, a call of `run_queued_closures` on a `loop_executor` that returns has invoked exactly the closures that were
queued when it was called, in their order, each once (as long as these closures do not themselves call functions that execute closures). -/
theorem run_queued_closures_runs_exactly_the_queue (ls ls' : List Label) (s s' : State) (es es' : List Event) (σ : Spec) (t : Nat) (h : run (step false) init ls = some (s, es))
    (hσ : specState (next false false) Spec.init es = some σ) (h' : run (step false) s (.run t :: ls') = some (s', .runCalled t :: es'))
    (hc : ClientOk (next false false) Spec.init (es ++ .runCalled t :: es')) (hn1 : ∀ c, .tryTook t c ∉ es') (hn2 : .loopCalled t ∉ es') (hn3 : .runCalled t ∉ es') (hn4 : ∀ c, .threw t c ∉ es')
    (hr : .runReturned t ∈ es') : ∃ es1 es2, es' = es1 ++ .runReturned t :: es2 ∧ .runReturned t ∉ es1 ∧ invokedBy t es1 = σ.queue := by
  have hacc := history_conforms_partial false _ _ _ (run_append h h')
  have hstate : ∀ {σ₀ σ : Spec} {es es' : List Event}, specState (next false false) σ₀ es = some σ → Accepts (next false false) σ₀ (es ++ es') → ClientOk (next false false) σ₀ (es ++ es') →
      DueOk σ₀ → Accepts (next false false) σ es' ∧ ClientOk (next false false) σ es' ∧ DueOk σ := by
    intro σ₀ σ es
    induction es generalizing σ₀ with
    | nil => intro es' h1 h2 h3 h4; cases h1; exact ⟨h2, h3, h4⟩
    | cons e es ih =>
      intro es' h1 h2 h3 h4
      simp only [specState, List.cons_append, Accepts, ClientOk] at h1 h2 h3
      cases hn : next false false σ₀ e <;> simp only [hn] at h1 h2 h3
      · exact ih h1 h2 h3 (next_due hn h4).1
  obtain ⟨g1, g2, g3⟩ := hstate hσ hacc hc (by simp [DueOk, Spec.init])
  simp only [Accepts, ClientOk] at g1 g2
  have hdue : σ.due = none := by
    cases hn : next false false σ (.runCalled t) with
    | illegal => simp [hn] at g1
    | undefined => simp [hn] at g2
    | ok σ' => exact (next_live hn g3 nofun nofun nofun).1
  cases hbr : σ.broken with
  | true => simp [next, hdue, hbr, touches] at g2
  | false =>
  simp only [next, hdue, hbr, live, Bool.false_eq_true, false_and, ↓reduceIte] at g1 g2
  by_cases ho : σ.outside t = true
  rotate_left
  · simp [ho] at g1
  simp only [ho, ↓reduceIte] at g1 g2
  exact run_aux (todo := σ.queue) (cur := none) (rest := σ.calls t) g1 g2 (by intro e he; simp [hdue] at he) (by simp [upd_apply]) (by simp [hdue]) hn1 hn2 hn3 hn4 hr

/-- A call that meets the hypotheses: two closures are queued, the first one submits a third, another thread takes that one. -/
example : ∃ ls ls' s s' es es' σ, run (step false) init ls = some (s, es) ∧ specState (next false false) Spec.init es = some σ ∧
    run (step false) s (.run 0 :: ls') = some (s', .runCalled 0 :: es') ∧ ClientOk (next false false) Spec.init (es ++ .runCalled 0 :: es') ∧ (∀ c, .tryTook 0 c ∉ es') ∧
    .loopCalled 0 ∉ es' ∧ .runCalled 0 ∉ es' ∧ (∀ c, .threw 0 c ∉ es') ∧ .runReturned 0 ∈ es' ∧ σ.queue = [1, 2] ∧ invoked es' = [1, 3, 2] := by
  refine ⟨[.submit 0, .tryExec 1, .submit 0, .submit 0], [.go 0, .start 0, .submit 0, .tryExec 2, .start 2, .finish 0, .go 0, .start 0, .finish 0, .go 0], _, _, _, _, _, rfl, rfl, rfl, ?_, ?_, ?_, ?_,
    ?_, ?_, ?_, ?_⟩
  · decide
  · simp
  · simp
  · simp
  · simp
  · decide
  · decide
  · decide

/-! ## One thread that loops runs everything in order -/

structure Solo (σ : Spec) (t : Nat) (I : List Nat) : Prop where
  others : ∀ u, u ≠ t → σ.calls u = []
  all : I ++ σ.pending t = List.range σ.taken
  tail : ∀ o ∈ (σ.calls t).tail, o.todo = []
  busy : ∀ o ∈ σ.calls t, o.cur ≠ none → o.todo = []
  kind : ∀ o ∈ σ.calls t, o.call = .loop ∧ o.hurt = false
  one : ∀ o ∈ σ.calls t, o.todo.length ≤ 1
  le : σ.taken ≤ σ.acc
  due : σ.due = none ∨ σ.due = some .terminated
  broken : σ.broken = false

theorem solo_step {us : Bool} {σ σ' : Spec} {e : Event} {t : Nat} {I : List Nat} (hn : next us false σ e = .ok σ') (h : Solo σ t I) (h1 : ∀ u c, e ≠ .tryTook u c) (h2 : ∀ u, e ≠ .runCalled u)
    (h3 : ∀ u, e = .loopCalled u → u = t) (h4 : ∀ u, e ≠ .destroyed u) (h5 : us = true → ∀ u c, e ≠ .threw u c) :
    Solo σ' t (I ++ invoked [e]) ∧ (e = .loopReturned t → I = List.range σ'.acc) := by
  unfold next at hn
  split at hn
  · rename_i hd
    split at hn
    · cases hn
    rename_i hx
    clear hx
    cases e <;> simp only [live] at hn <;> simp only [invoked, List.append_nil]
    case submitted u c =>
      split at hn <;> cases hn
      exact ⟨{ h with le := by have := h.le; simp only; omega }, nofun⟩
    case refused u => split at hn <;> cases hn; exact ⟨h, nofun⟩
    case closeReturned u => cases hn; exact ⟨{ h with }, nofun⟩
    case closedIs u b => split at hn <;> cases hn; exact ⟨h, nofun⟩
    case tryTook u c => exact absurd rfl (h1 u c)
    case tryReturned u b => split at hn <;> cases hn; exact ⟨h, nofun⟩
    case loopCalled u =>
      split at hn <;> cases hn
      rename_i ho
      have := h3 u rfl
      subst this
      refine ⟨{ h with others := ?_, all := ?_, tail := ?_, busy := ?_, kind := ?_, one := ?_ }, nofun⟩ <;> simp only [upd_apply, ↓reduceIte]
      · have := h.others; grind
      · have := h.all
        simpa [Spec.pending, upd_apply] using this
      · intro o ho'
        simp only [List.tail_cons] at ho'
        unfold Spec.outside at ho
        cases hc : σ.calls u with
        | nil => simp [hc] at ho'
        | cons p ps =>
          rw [hc] at ho ho'
          rcases List.mem_cons.mp ho' with rfl | hm
          · exact h.busy _ (by simp [hc]) (by simp only at ho; intro e; simp [e] at ho)
          · exact h.tail _ (by simpa [hc] using hm)
      · have := h.busy; grind
      · have := h.kind; grind
      · have := h.one; grind
    case loopTook u c =>
      by_cases hu : u = t
      · subst hu
        split at hn
        · rename_i hurt rest hc
          split at hn <;> cases hn
          rename_i hcond
          obtain ⟨rfl, hlt⟩ := hcond
          have ht := h.tail
          have hb := h.busy
          have hk := h.kind
          have ho := h.one
          have hp : rest.flatMap Open.todo = [] := by
            simp only [List.flatMap_eq_nil_iff]
            intro o ho
            exact ht o (by simpa [hc] using ho)
          refine ⟨{ h with others := ?_, all := ?_, tail := ?_, busy := ?_, kind := ?_, one := ?_, le := hlt }, nofun⟩ <;> simp only [upd_apply, ↓reduceIte]
          · have := h.others; grind
          · have := h.all
            simp only [Spec.pending, hc, List.flatMap_cons, List.nil_append, hp, List.append_nil] at this
            simp [Spec.pending, upd_apply, hp, this, List.range_succ]
          · simpa [hc] using ht
          · rw [hc] at hb; grind
          · rw [hc] at hk; grind
          · rw [hc] at ho; grind
        · cases hn
      · simp [h.others u hu] at hn
    case loopReturned u =>
      by_cases hu : u = t
      · subst hu
        split at hn
        · rename_i hurt rest hc
          split at hn <;> cases hn
          rename_i hcond
          have ht := h.tail
          have hb := h.busy
          have hk := h.kind
          have ho := h.one
          have hk' := hk _ (by rw [hc]; exact List.mem_cons_self ..)
          have hp : rest.flatMap Open.todo = [] := by
            simp only [List.flatMap_eq_nil_iff]
            intro o ho
            exact ht o (by simpa [hc] using ho)
          have hall := h.all
          simp only [Spec.pending, hc, List.flatMap_cons, List.nil_append, hp, List.append_nil] at hall
          refine ⟨{ h with others := ?_, all := ?_, tail := ?_, busy := ?_, kind := ?_, one := ?_ }, fun _ => ?_⟩ <;> simp only [upd_apply, ↓reduceIte]
          · have := h.others; grind
          · simp [Spec.pending, upd_apply, hp, hall]
          · intro o ho'
            exact ht o (by rw [hc]; exact List.mem_of_mem_tail ho')
          · rw [hc] at hb; grind
          · rw [hc] at hk; grind
          · rw [hc] at ho; grind
          · rw [hall]
            simp only at hk'
            simp only [hk'.2, Bool.false_eq_true, or_false] at hcond
            rw [hcond.2]
        · cases hn
      · simp [h.others u hu] at hn
    case runCalled u => exact absurd rfl (h2 u)
    case runReturned u =>
      by_cases hu : u = t
      · subst hu
        split at hn
        · rename_i hc
          have := (h.kind _ (by rw [hc]; exact List.mem_cons_self ..)).1
          cases this
        · cases hn
      · simp [h.others u hu] at hn
    case runThrew u => cases hn
    case started u c =>
      by_cases hu : u = t
      · subst hu
        split at hn
        · rename_i k d todo hurt rest hc
          split at hn <;> cases hn
          rename_i hcond
          subst hcond
          have ht := h.tail
          have hb := h.busy
          have hk := h.kind
          have ho := h.one
          rw [hc] at ht hb hk ho
          have hone := ho _ (List.mem_cons_self ..)
          have htodo : todo = [] := by
            simp only [List.length_cons] at hone
            exact List.length_eq_zero_iff.mp (by omega)
          subst htodo
          have hall := h.all
          refine ⟨{ h with others := ?_, all := ?_, tail := ?_, busy := ?_, kind := ?_, one := ?_ }, nofun⟩ <;> simp only [upd_apply, ↓reduceIte]
          · have := h.others; grind
          · simp only [Spec.pending, hc, List.flatMap_cons] at hall
            simpa [Spec.pending, upd_apply] using hall
          · exact ht
          · intro o hm
            rcases List.mem_cons.mp hm with rfl | hm
            · exact fun _ => rfl
            · exact hb o (List.mem_cons_of_mem _ hm)
          · intro o hm
            rcases List.mem_cons.mp hm with rfl | hm
            · exact ⟨(hk _ (List.mem_cons_self ..)).1, rfl⟩
            · exact hk o (List.mem_cons_of_mem _ hm)
          · intro o hm
            rcases List.mem_cons.mp hm with rfl | hm
            · exact Nat.zero_le _
            · exact ho o (List.mem_cons_of_mem _ hm)
        · cases hn
      · simp [h.others u hu] at hn
    case ended u c =>
      by_cases hu : u = t
      · subst hu
        split at hn
        · rename_i k todo d hurt rest hc
          have ht := h.tail
          have hb := h.busy
          have hk := h.kind
          have ho := h.one
          rw [hc] at ht hb hk ho
          have hk' : k = .loop := (hk _ (List.mem_cons_self ..)).1
          subst hk'
          simp only [reduceCtorEq, ↓reduceIte] at hn
          split at hn <;> cases hn
          have hall := h.all
          refine ⟨{ h with others := ?_, all := ?_, tail := ?_, busy := ?_, kind := ?_, one := ?_ }, nofun⟩ <;> simp only [upd_apply, ↓reduceIte]
          · have := h.others; grind
          · simp only [Spec.pending, hc, List.flatMap_cons] at hall
            simpa [Spec.pending, upd_apply] using hall
          · exact ht
          · intro o hm
            rcases List.mem_cons.mp hm with rfl | hm
            · exact fun e => absurd rfl e
            · exact hb o (List.mem_cons_of_mem _ hm)
          · intro o hm
            rcases List.mem_cons.mp hm with rfl | hm
            · exact ⟨(hk _ (List.mem_cons_self ..)).1, rfl⟩
            · exact hk o (List.mem_cons_of_mem _ hm)
          · intro o hm
            rcases List.mem_cons.mp hm with rfl | hm
            · exact (ho _ (List.mem_cons_self ..) :)
            · exact ho o (List.mem_cons_of_mem _ hm)
        · cases hn
      · simp [h.others u hu] at hn
    case threw u c =>
      by_cases hu : u = t
      · subst hu
        split at hn
        · rename_i k todo d hurt rest hc
          have hk := h.kind
          rw [hc] at hk
          have hk' : k = .loop := (hk _ (List.mem_cons_self ..)).1
          subst hk'
          have hus : us = false := by
            cases us with
            | false => rfl
            | true => exact absurd rfl (h5 rfl u c)
          subst hus
          simp only [reduceCtorEq, ↓reduceIte, Bool.false_eq_true, false_and] at hn
          split at hn <;> cases hn
          exact ⟨{ h with due := .inr rfl }, nofun⟩
        · cases hn
      · simp [h.others u hu] at hn
    case terminated => cases hn
    case destroyed u => exact absurd rfl (h4 u)
    case undefinedBehaviour => cases hn
  · rename_i d hd
    split at hn <;> cases hn
    rename_i he
    subst he
    have hdue := h.due
    rw [hd] at hdue
    simp only [reduceCtorEq, Option.some.injEq, false_or] at hdue
    subst hdue
    exact ⟨{ h with all := by simpa [invoked, Spec.pending] using h.all, due := .inl rfl }, nofun⟩

theorem invoked_cons (e : Event) (es : List Event) : invoked (e :: es) = invoked [e] ++ invoked es := by cases e <;> rfl

theorem solo_run {us : Bool} {σ : Spec} {es : List Event} {t : Nat} {I : List Nat} (ha : Accepts (next us false) σ es) (h : Solo σ t I) (h1 : ∀ u c, .tryTook u c ∉ es) (h2 : ∀ u, .runCalled u ∉ es)
    (h3 : ∀ u, .loopCalled u ∈ es → u = t) (h4 : ∀ u, .destroyed u ∉ es) (h5 : us = true → ∀ u c, .threw u c ∉ es) :
    (∃ k, I ++ invoked es = List.range k ∧ k ≤ σ.acc + accepted es) ∧ ∀ es', es = es' ++ [.loopReturned t] → I ++ invoked es = List.range (σ.acc + accepted es) := by
  induction es generalizing σ I with
  | nil =>
    refine ⟨?_, fun es' he => by simp at he⟩
    have hall := h.all
    have hle := h.le
    refine ⟨I.length, ?_, ?_⟩
    · have : (I ++ σ.pending t).take I.length = (List.range σ.taken).take I.length := by rw [hall]
      have hlen := congrArg List.length hall
      simp only [List.length_append, List.length_range] at hlen
      rw [List.take_left, List.take_range, Nat.min_eq_left (by omega)] at this
      simpa [invoked] using this
    · have hlen := congrArg List.length hall
      simp only [List.length_append, List.length_range] at hlen
      omega
  | cons e es ih =>
    simp only [List.mem_cons, not_or, ne_eq] at h1 h2 h3 h4 h5
    simp only [Accepts] at ha
    cases hn : next us false σ e with
    | illegal => simp [hn] at ha
    | undefined =>
      exfalso
      unfold next at hn
      split at hn
      · split at hn
        · rename_i hx
          simp [h.broken] at hx
        cases e <;> simp only [live] at hn <;> (repeat' split at hn) <;> (try cases hn)
        exact (h2 _).1 rfl
      · split at hn <;> cases hn
    | ok σ' =>
      simp only [hn] at ha
      have hdue : DueOk σ := by
        intro d hd
        rcases h.due with hx | hx <;> rw [hx] at hd <;> cases hd
        exact .inr (.inr rfl)
      obtain ⟨hs, hret⟩ := solo_step hn h (fun u c => Ne.symm (h1 u c).1) (fun u => Ne.symm (h2 u).1) (fun u he => h3 u (.inl he.symm)) (fun u => Ne.symm (h4 u).1)
        (fun e u c => Ne.symm (h5 e u c).1)
      have hacc := (next_due hn hdue).2
      obtain ⟨i1, i2⟩ := ih ha hs (fun u c => (h1 u c).2) (fun u => (h2 u).2) (fun u hm => h3 u (.inr hm)) (fun u => (h4 u).2) (fun e u c => (h5 e u c).2)
      rw [List.append_assoc, ← invoked_cons, hacc, Nat.add_assoc, ← accepted_cons] at i1
      refine ⟨i1, ?_⟩
      intro es' he
      cases es' with
      | nil =>
        simp only [List.nil_append, List.cons.injEq] at he
        obtain ⟨rfl, rfl⟩ := he
        have := hret rfl
        rw [hacc] at this
        simpa [invoked, accepted] using this
      | cons a es' =>
        simp only [List.cons_append, List.cons.injEq] at he
        have := i2 es' he.2
        rw [List.append_assoc, ← invoked_cons, hacc, Nat.add_assoc, ← accepted_cons] at this
        exact this

/-- **C43 (`loop`).** If one thread executes closures, with `loop` (also from inside closures), then the closures are invoked in the order in which they were accepted, and whenever `loop`
returns, every accepted closure has been invoked. For `user_scheduler` this needs closures that do not throw. -/
theorem loop_runs_everything_in_order (us : Bool) (ls : List Label) (s : State) (es : List Event) (t : Nat) (h : run (step us) init ls = some (s, es)) (h1 : ∀ u c, .tryTook u c ∉ es)
    (h2 : ∀ u, .runCalled u ∉ es) (h3 : ∀ u, .loopCalled u ∈ es → u = t) (h4 : ∀ u, .destroyed u ∉ es) (h5 : us = true → ∀ u c, .threw u c ∉ es) :
    (∃ k, invoked es = List.range k ∧ k ≤ accepted es) ∧ ∀ es', es = es' ++ [.loopReturned t] → invoked es = List.range (accepted es) := by
  have := solo_run (I := []) (t := t) (history_conforms_partial us ls s es h) ⟨by simp [Spec.init], by simp [Spec.init, Spec.pending], by simp [Spec.init], by simp [Spec.init], by simp [Spec.init],
    by simp [Spec.init], by simp [Spec.init], by simp [Spec.init], rfl⟩ h1 h2 h3 h4 h5
  simpa [Spec.init] using this

/-- Such a history: three closures, the last one submitted by the first one; another thread closes the executor. -/
example : ∃ ls s es', run (step false) init ls = some (s, es' ++ [.loopReturned 0]) ∧ invoked es' = [0, 1, 2] ∧ (∀ u c, .tryTook u c ∉ es') ∧ (∀ u, .runCalled u ∉ es') ∧
    (∀ u, .loopCalled u ∈ es' → u = 0) ∧ ∀ u, .destroyed u ∉ es' := by
  refine ⟨[.submit 1, .loop 0, .go 0, .start 0, .submit 1, .submit 0, .close 1, .finish 0, .go 0, .start 0, .finish 0, .go 0, .start 0, .finish 0, .go 0, .go 0], _,
    [.submitted 1 0, .loopCalled 0, .loopTook 0 0, .started 0 0, .submitted 1 1, .submitted 0 2, .closeReturned 1, .ended 0 0, .loopTook 0 1, .started 0 1, .ended 0 1, .loopTook 0 2, .started 0 2,
      .ended 0 2], rfl, rfl, ?_, ?_, ?_, ?_⟩ <;> simp

/-! ## A looping thread gets through the queue -/

def loopKind (k : Kind) : Prop := k = .first ∨ k = .firstTry ∨ k = .second

def ofThread (t : Nat) (l : Label) : Prop := l = .go t ∨ l = .start t ∨ l = .finish t

theorem invokedBy_append (t : Nat) (a b : List Event) : invokedBy t (a ++ b) = invokedBy t a ++ invokedBy t b := by
  induction a with
  | nil => rfl
  | cons e a ih =>
    cases e with
    | started u c =>
      by_cases hu : u = t <;> simp [invokedBy, ih, hu]
    | _ => simp [invokedBy, ih]

theorem run_one {us : Bool} {s s' : State} {l : Label} {es : List Event} (h : step us s l = some (s', es)) : run (step us) s [l] = some (s', es) := by
  simp [run, h]

theorem pull_cons {d : Devector Nat} {c : Nat} {l : List Nat} (hd : d.Ok) (hi : d.items = c :: l) : pull d = .got c d.popFront := by
  simp [pull, hd.empty, hi, Devector.front_eq]

/-- A thread in a loop with an empty hand and a closure in the queue takes it. -/
theorem loop_takes {us : Bool} {s : State} {t : Nat} {k : Kind} {fs : List Frame} {c : Nat} {q : Devector Nat} (hu : s.phase = .up) (hk : loopKind k) (hf : s.stk t = ⟨k, none, []⟩ :: fs)
    (hq : pull s.q = .got c q) (h2 : k = .firstTry → us = true) : ∃ ls k' s', (∀ l ∈ ls, ofThread t l) ∧ run (step us) s ls = some (s', [.loopTook t c]) ∧ s'.phase = .up ∧ loopKind k' ∧ (k' = .firstTry → us = true) ∧
      s'.stk t = ⟨k', some (c, false), []⟩ :: fs ∧ s'.q = q ∧ s'.closed = s.closed := by
  rcases hk with rfl | rfl | rfl
  · cases us with
    | false => exact ⟨[.go t], .first, _, by simp [ofThread], run_one (by simp [step, (by first | exact hu | rfl), go, hf, hq]; rfl), (by first | exact hu | rfl), .inl rfl, nofun, by simp [upd_apply], (by rfl), (by first | rfl | simp [*])⟩
    | true =>
      cases hc : s.closed with
      | true =>
        exact ⟨[.go t, .go t], .second, _, by simp [ofThread], by simp [run, step, (by first | exact hu | rfl), go, hf, hq, hc, upd_apply]; rfl, (by first | exact hu | rfl), .inr (.inr rfl), nofun, by simp [upd_apply], (by rfl), (by first | exact hc | simp [*])⟩
      | false =>
        exact ⟨[.go t, .go t], .first, _, by simp [ofThread], by simp [run, step, (by first | exact hu | rfl), go, hf, hq, hc, upd_apply]; rfl, (by first | exact hu | rfl), .inl rfl, nofun, by simp [upd_apply], (by rfl), (by first | exact hc | simp [*])⟩
  · exact ⟨[.go t], .first, _, by simp [ofThread], run_one (by simp [step, (by first | exact hu | rfl), go, hf, hq]; rfl), (by first | exact hu | rfl), .inl rfl, nofun, by simp [upd_apply], (by rfl), (by first | rfl | simp [*])⟩
  · exact ⟨[.go t], .second, _, by simp [ofThread], run_one (by simp [step, (by first | exact hu | rfl), go, hf, hq]; rfl), (by first | exact hu | rfl), .inr (.inr rfl), nofun, by simp [upd_apply], (by rfl), (by first | rfl | simp [*])⟩

/-- A thread in a loop with an empty hand and an empty queue returns if the executor is closed. -/
theorem loop_returns {us : Bool} {s : State} {t : Nat} {k : Kind} {fs : List Frame} (hu : s.phase = .up) (hk : loopKind k) (hf : s.stk t = ⟨k, none, []⟩ :: fs) (hq : pull s.q = .nothing)
    (h2 : k = .firstTry → us = true) (hc : s.closed = true) : ∃ ls s', (∀ l ∈ ls, ofThread t l) ∧ run (step us) s ls = some (s', [.loopReturned t]) := by
  rcases hk with rfl | rfl | rfl
  · cases us with
    | false => exact ⟨[.go t, .go t], _, by simp [ofThread], by simp [run, step, (by first | exact hu | rfl), go, hf, hq, hc, upd_apply]; rfl⟩
    | true => exact ⟨[.go t, .go t], _, by simp [ofThread], by simp [run, step, (by first | exact hu | rfl), go, hf, hq, hc, upd_apply]; rfl⟩
  · exact ⟨[.go t, .go t, .go t], _, by simp [ofThread], by simp [run, step, (by first | exact hu | rfl), go, hf, hq, hc, upd_apply, h2 rfl]; rfl⟩
  · exact ⟨[.go t], _, by simp [ofThread], run_one (by simp [step, (by first | exact hu | rfl), go, hf, hq]; rfl)⟩

/-- The closure in hand is carried out. -/
theorem loop_finishes {us : Bool} {s : State} {t c : Nat} {b : Bool} {k : Kind} {fs : List Frame} (hu : s.phase = .up) (hk : loopKind k) (hf : s.stk t = ⟨k, some (c, b), []⟩ :: fs) :
    ∃ ls s' es, (∀ l ∈ ls, ofThread t l) ∧ run (step us) s ls = some (s', es) ∧ s'.phase = .up ∧ s'.stk t = ⟨k, none, []⟩ :: fs ∧ s'.q = s.q ∧ s'.closed = s.closed ∧
      invokedBy t es = if b then [] else [c] := by
  rcases hk with rfl | rfl | rfl <;> cases b
  all_goals first
    | exact ⟨[.finish t], _, _, by simp [ofThread], run_one (by simp [step, (by first | exact hu | rfl), finish, hf]; exact ⟨rfl, rfl⟩), (by first | exact hu | rfl), by simp [upd_apply], (by rfl), (by first | rfl | simp [*]), by simp [invokedBy]⟩
    | exact ⟨[.start t, .finish t], _, _, by simp [ofThread], by simp [run, step, (by first | exact hu | rfl), start, finish, hf, upd_apply]; exact ⟨rfl, rfl⟩, (by first | exact hu | rfl), by simp [upd_apply], (by rfl), (by first | rfl | simp [*]), by simp [invokedBy]⟩

theorem loop_drains {us : Bool} {t : Nat} {fs : List Frame} (q : List Nat) {s : State} {k : Kind} (hu : s.phase = .up) (hk : loopKind k) (hf : s.stk t = ⟨k, none, []⟩ :: fs) (hok : s.q.Ok) (hq : s.q.items = q)
    (h2 : k = .firstTry → us = true) : ∃ ls s' es, (∀ l ∈ ls, ofThread t l) ∧ run (step us) s ls = some (s', es) ∧ invokedBy t es = q ∧ (s.closed = true → .loopReturned t ∈ es) := by
  induction q generalizing s k with
  | nil =>
    cases hc : s.closed with
    | false => exact ⟨[], s, [], by simp, rfl, rfl, nofun⟩
    | true =>
      obtain ⟨ls, s', g1, g2⟩ := loop_returns hu hk hf ((pull_nothing hok).mpr hq) h2 hc
      exact ⟨ls, s', _, g1, g2, rfl, by simp⟩
  | cons c q ih =>
    obtain ⟨ls1, k1, s1, a1, a2, a3, a4, a5, a6, a7, a8⟩ := loop_takes hu hk hf (pull_cons hok hq) h2
    obtain ⟨p1, p2⟩ := hok.popFront hq
    obtain ⟨ls2, s2, es2, b1, b2, b3, b4, b5, b6, b7⟩ := loop_finishes (us := us) a3 a4 a6
    obtain ⟨ls3, s3, es3, c1, c2, c3, c4⟩ := ih b3 a4 b4 (by rw [b5, a7]; exact p1) (by rw [b5, a7]; exact p2) a5
    refine ⟨ls1 ++ (ls2 ++ ls3), s3, [.loopTook t c] ++ (es2 ++ es3), ?_, run_append a2 (run_append b2 c2), ?_, ?_⟩
    · intro l hl
      simp only [List.mem_append] at hl
      rcases hl with hl | hl | hl
      · exact a1 l hl
      · exact b1 l hl
      · exact c1 l hl
    · simp [invokedBy_append, invokedBy, b7, c3]
    · intro hc
      have := c4 (by rw [b6, a8]; exact hc)
      simp [this]

/-- The executor exists as long as nobody has destroyed it and the program goes on. -/
theorem up_of {us : Bool} {ls : List Label} {s s' : State} {es : List Event} (h : run (step us) s ls = some (s', es)) (hu : s.phase = .up) (h1 : ∀ u, .destroyed u ∉ es) (h2 : .terminated ∉ es)
    (h3 : .undefinedBehaviour ∉ es) : s'.phase = .up := by
  refine run_inv_hist (step := step us) (fun s es => (∀ u, .destroyed u ∉ es) → .terminated ∉ es → .undefinedBehaviour ∉ es → s.phase = .up) ?_ (hist := []) (fun _ _ _ => hu) h h1 h2 h3
  intro s l s' es₀ es ih hs g1 g2 g3
  simp only [List.mem_append, not_or] at g1 g2 g3
  have hu := ih (fun u => (g1 u).1) g2.1 g3.1
  have g1 := fun u => (g1 u).2
  have g2 := g2.2
  have g3 := g3.2
  clear ih
  simp only [step, hu, ↓reduceIte] at hs
  cases l <;> simp only [submit, tryExec, runQueued, go, start, finish, throw, crash] at hs <;> (repeat' split at hs) <;> (try cases hs) <;> (try exact hu) <;> simp_all

/-- **C43 (`loop` makes progress).** In every reachable state, a thread that is in `loop` and whose closures return can, by its own steps alone, carry out the closure in its hand and everything
queued, in order; if the executor is closed, its `loop` then returns. -/
theorem loop_gets_through_the_queue (us : Bool) (ls : List Label) (s : State) (es : List Event) (σ : Spec) (t : Nat) (todo : List Nat) (cur : Option Nat) (hurt : Bool) (rest : List Open)
    (h : run (step us) init ls = some (s, es)) (hσ : specState (next us false) Spec.init es = some σ) (h1 : ∀ u, .destroyed u ∉ es) (h2 : .terminated ∉ es) (h3 : .undefinedBehaviour ∉ es)
    (hb : σ.broken = false) (ht : σ.calls t = ⟨.loop, todo, cur, hurt⟩ :: rest) :
    ∃ ls' s' es', (∀ l ∈ ls', l = .go t ∨ l = .start t ∨ l = .finish t) ∧ run (step us) s ls' = some (s', es') ∧ invokedBy t es' = todo ++ σ.queue ∧ (σ.closed = true → .loopReturned t ∈ es') := by
  have hu := up_of h rfl h1 h2 h3
  have hR : R us s σ := by
    have := simulation_state (Rel us) (fun _ _ _ _ _ hR hs => sim hR hs) (s := init) (rel_init us) h hσ
    exact this.resolve_left (fun e => e hu)
  have hcall := hR.calls t
  rw [ht] at hcall
  cases hf : s.stk t with
  | nil => rw [hf] at hcall; exact hcall.elim
  | cons f fs =>
    rw [hf] at hcall
    obtain ⟨k, c, fr⟩ := f
    obtain ⟨⟨hk, htodo, hcur, hrest, -, -, -, htry⟩, -⟩ := hcall
    simp only at hk htodo hcur hrest htry
    have hlk : loopKind k := by
      unfold loopKind
      cases k with
      | one => cases hk
      | batch => cases hk
      | first => exact .inl rfl
      | firstTry => exact .inr (.inl rfl)
      | second => exact .inr (.inr rfl)
    have hfr : fr = [] := hrest (by rintro rfl; cases hk)
    subst hfr
    obtain ⟨hok, hit, -⟩ := hR.q hb
    have hqueue : σ.queue = s.q.items := by rw [hit, Spec.queue, hR.acc]
    rw [hqueue, hR.closed]
    clear hcur
    cases c with
    | none =>
      obtain ⟨ls', s', es', g1, g2, g3, g4⟩ := loop_drains (us := us) s.q.items hu hlk hf hok rfl htry
      exact ⟨ls', s', es', g1, g2, by rw [htodo]; exact g3, g4⟩
    | some p =>
      obtain ⟨c, b⟩ := p
      obtain ⟨ls1, s1, es1, b1, b2, b3, b4, b5, b6, b7⟩ := loop_finishes (us := us) hu hlk hf
      obtain ⟨ls2, s2, es2, c1, c2, c3, c4⟩ := loop_drains (us := us) s.q.items b3 hlk b4 (by rw [b5]; exact hok) (by rw [b5]) htry
      refine ⟨ls1 ++ ls2, s2, es1 ++ es2, ?_, run_append b2 c2, ?_, ?_⟩
      · intro l hl
        rcases List.mem_append.mp hl with hl | hl
        · exact b1 l hl
        · exact c1 l hl
      · rw [invokedBy_append, b7, c3, htodo]
        cases b <;> rfl
      · intro hc
        simp [c4 (by rw [b6]; exact hc)]

/-- Such a state: the thread is inside a closure, two more are queued, the executor is closed. -/
example : ∃ ls s es σ rest, run (step true) init ls = some (s, es) ∧ specState (next true false) Spec.init es = some σ ∧ (∀ u, .destroyed u ∉ es) ∧ .terminated ∉ es ∧ .undefinedBehaviour ∉ es ∧
    σ.broken = false ∧ σ.calls 0 = ⟨.loop, [], some 0, false⟩ :: rest ∧ σ.queue = [1, 2] ∧ σ.closed = true := by
  refine ⟨[.loop 0, .submit 1, .go 0, .go 0, .start 0, .submit 0, .submit 1, .close 1], _, _, _, _, rfl, rfl, ?_, ?_, ?_, rfl, rfl, rfl, rfl⟩ <;> simp

/-! ## Where the code does not do what it says -/

/-- The destructor of either executor is documented to wait for the closures; it destroys the queue with the closures in it. -/
theorem destructor_drops_closures (us : Bool) : ∃ ls s es, run (step us) init ls = some (s, es) ∧ ¬ Accepts (next us true) Spec.init es ∧ accepted es = 1 ∧ invoked es = [] ∧ .destroyed 0 ∈ es := by
  refine ⟨[.submit 0, .destroy 0], _, _, rfl, ?_, rfl, rfl, ?_⟩
  · cases us <;> decide
  · decide

/-- **The default container breaks `run_queued_closures`.** In every reachable state of either executor in which a closure has been taken out of the queue since it was last empty, a call of
`run_queued_closures` leaves a queue that claims not to be empty: a call of `try_executing_one` that comes next has undefined behaviour. -/
theorem run_queued_closures_breaks_the_executor (us : Bool) (ls : List Label) (s : State) (es : List Event) (σ : Spec) (t u : Nat) (h : run (step us) init ls = some (s, es))
    (hσ : specState (next us false) Spec.init es = some σ) (h1 : ∀ u, .destroyed u ∉ es) (h2 : .terminated ∉ es) (h3 : .undefinedBehaviour ∉ es) (hb : σ.broken = false) (hbeg : σ.begun = true)
    (ht : σ.outside t = true) (hu : σ.outside u = true) (htu : t ≠ u) : ∃ s' es', run (step us) s [.run t, .tryExec u] = some (s', es') ∧ .runCalled t ∈ es' ∧ .undefinedBehaviour ∈ es' := by
  have hup := up_of h rfl h1 h2 h3
  have hR : R us s σ := by
    have := simulation_state (Rel us) (fun _ _ _ _ _ hR hs => sim hR hs) (s := init) (rel_init us) h hσ
    exact this.resolve_left (fun e => e hup)
  obtain ⟨hok, hit, hfi⟩ := hR.q hb
  have hfi := hfi.mp hbeg
  have mt := hR.may ht
  have mu := hR.may hu
  have hpull : pull s.q.movedFrom = .outOfRange := by
    have : s.q.movedFrom.front = none := by rw [Devector.front_eq, Devector.items_movedFrom]; rfl
    simp only [pull, this]
    rw [if_neg]
    simp only [Devector.empty, Devector.movedFrom, List.length_nil, beq_iff_eq]
    omega
  cases us with
  | true =>
    have he : s.q.moved.empty = false := by
      have : s.q.fi < s.q.vec.length := by rcases hok with ⟨-, e⟩ | e <;> omega
      simp only [Devector.empty, Devector.moved, beq_eq_false_iff_ne]
      omega
    have mu' : LoopExecutor.mayCall { s with phase := .up, q := s.q.movedFrom } u = true := mu
    exact ⟨_, [.runCalled t, .runReturned t, .undefinedBehaviour], by simp [run, step, hup, mt, runQueued, he, mu', tryExec, hpull, crash]; rfl, by simp, by simp⟩
  | false =>
    have hdr : s.q.moved.drain s.q.vec.length = some s.q.items := Devector.drain_items (d := s.q.moved) hok _ (by simp [Devector.moved, Devector.items])
    have mu' : LoopExecutor.mayCall { s with phase := .up, q := s.q.movedFrom, stk := upd s.stk t (⟨.batch, none, s.q.items⟩ :: s.stk t) } u = true := by
      have := mu
      simp only [LoopExecutor.mayCall, upd_apply, if_neg (Ne.symm htu)] at this ⊢
      exact this
    exact ⟨_, [.runCalled t, .undefinedBehaviour], by simp [run, step, hup, mt, runQueued, hdr, mu', tryExec, hpull, crash]; rfl, by simp, by simp⟩

/-- Such a state: two closures, one of which has been executed. -/
example : ∃ ls s es σ, run (step false) init ls = some (s, es) ∧ specState (next false false) Spec.init es = some σ ∧ (∀ u, .destroyed u ∉ es) ∧ .terminated ∉ es ∧ .undefinedBehaviour ∉ es ∧
    σ.broken = false ∧ σ.begun = true ∧ σ.outside 0 = true ∧ σ.outside 1 = true := by
  refine ⟨[.submit 0, .submit 0, .tryExec 0, .start 0, .finish 0], _, _, _, rfl, rfl, ?_, ?_, ?_, rfl, rfl, rfl, rfl⟩ <;> simp

/-- Or closures are lost: after `try_executing_one` and `run_queued_closures`, a closure is accepted that `try_executing_one` does not find. -/
theorem closures_are_lost : ∃ ls s es es', run (step false) init ls = some (s, es) ∧ es = es' ++ [.runReturned 0, .submitted 0 2, .tryReturned 0 false] ∧ invoked es = [0, 1] ∧
    ¬ Accepts (next false true) Spec.init es ∧ Accepts (next false true) Spec.init es' := by
  refine ⟨[.submit 0, .submit 0, .tryExec 0, .start 0, .finish 0, .run 0, .go 0, .start 0, .finish 0, .go 0, .submit 0, .tryExec 0], _, _,
    [.submitted 0 0, .submitted 0 1, .tryTook 0 0, .started 0 0, .ended 0 0, .tryReturned 0 true, .runCalled 0, .started 0 1, .ended 0 1], rfl, rfl, rfl, ?_, ?_⟩ <;> decide +kernel

/-- If a closure throws in `run_queued_closures` of a `loop_executor`, the exception leaves the function (elsewhere it ends the program), and the closures behind it are lost: nothing is queued,
no call has them, and they have not been invoked. -/
theorem throwing_closure_loses_the_rest : ∃ ls s es σ, run (step false) init ls = some (s, es) ∧ specState (next false false) Spec.init es = some σ ∧ .runThrew 0 ∈ es ∧ accepted es = 2 ∧
    invoked es = [0] ∧ σ.queue = [] ∧ (∀ t, s.stk t = []) ∧ s.q.vec = [] := by
  refine ⟨[.submit 0, .submit 0, .run 0, .go 0, .start 0, .throw 0], _, _, _, rfl, rfl, ?_, rfl, rfl, rfl, ?_, rfl⟩
  · decide
  · intro t
    simp only [upd_apply, init]
    split <;> rfl

/-- `run_queued_closures` of `user_scheduler` runs nothing: it drops what is queued. -/
theorem user_scheduler_run_queued_drops_closures : ∃ ls s es, run (step true) init ls = some (s, es) ∧ ¬ Accepts (next true true) Spec.init es ∧ accepted es = 2 ∧ .runReturned 0 ∈ es ∧ invoked es = [] ∧
    (∀ t, s.stk t = []) ∧ s.q.vec = [] := by
  refine ⟨[.submit 0, .submit 0, .run 0], _, _, rfl, ?_, rfl, ?_, rfl, fun _ => rfl, rfl⟩ <;> decide

/-- With nothing queued it reads the front of an empty container. -/
theorem user_scheduler_run_queued_undefined : ∃ ls s es, run (step true) init ls = some (s, es) ∧ .undefinedBehaviour ∈ es ∧ accepted es = 0 := by
  refine ⟨[.run 0], _, _, rfl, ?_, rfl⟩
  decide

/-- `try_executing_one` of `user_scheduler` returns false although it has executed a closure, if that closure throws; the documentation says that the program ends. -/
theorem user_scheduler_hides_exceptions : ∃ ls s es, run (step true) init ls = some (s, es) ∧ ¬ Accepts (next true true) Spec.init es ∧
    es = [.submitted 0 0, .tryTook 0 0, .started 0 0, .threw 0 0, .tryReturned 0 false] := by
  refine ⟨[.submit 0, .tryExec 0, .start 0, .throw 0], _, _, rfl, ?_, rfl⟩
  decide

/-- After a closure that throws, `loop` of `user_scheduler` returns with a closure still queued. -/
theorem user_scheduler_loop_leaves_closures : ∃ ls s es σ, run (step true) init ls = some (s, es) ∧ specState (next true false) Spec.init es = some σ ∧ .loopReturned 0 ∈ es ∧ σ.queue = [1] ∧
    ∀ t, s.stk t = [] := by
  refine ⟨[.submit 0, .submit 0, .close 0, .loop 0, .go 0, .go 0, .start 0, .throw 0], _, _, _, rfl, rfl, ?_, rfl, ?_⟩
  · decide
  · intro t
    simp only [upd_apply, init]
    split <;> rfl

/-- With two threads in `loop` the closures may be invoked in another order than they were accepted in, and overlap. -/
theorem two_loops_change_the_order : ∃ ls s es, run (step false) init ls = some (s, es) ∧ invoked es = [1, 0] := by
  refine ⟨[.submit 0, .submit 0, .loop 1, .loop 2, .go 1, .go 2, .start 2, .start 1], _, _, rfl, ?_⟩
  decide

end Verif.LoopExecutor
