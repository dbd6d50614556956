import Verif.SerialExecutor.Live
/-! # Properties of `serial_executor` -/

set_option linter.unusedSimpArgs false

namespace Verif.SerialExecutor

/-- **C42.** In every history, over an underlying executor of any capacity and any schedule: `submit` accepts exactly while the executor is open; a closure is invoked at most once,
and, up to one exception per caller that is inside `try_executing_one`, only when no other closure runs and every closure accepted before it has ended; closures that throw make no
difference; the destructor returns only after every accepted closure has ended; the program is ended only if the underlying executor is closed or a helping thread is interrupted. -/
theorem history_conforms (cap : Nat) (ls : List Label) (s : State) (es : List Event) (h : run (step cap) init ls = some (s, es)) : Accepts next Spec.init es :=
  simulation Rel (fun _ _ _ _ _ hR hs => sim hR hs) (s := init) rel_init h

/-- What is seen of the closures themselves: which one begins (`true`) or ends (`false`). -/
def closures : List Event → List (Nat × Bool)
  | [] => []
  | .started c :: es => (c, true) :: closures es
  | .ended c _ :: es => (c, false) :: closures es
  | _ :: es => closures es

/-- Three closures, one of them throws, one is submitted by another closure; then the destructor. -/
example : ∃ ls s es, run (step 4) init ls = some (s, es) ∧ closures es = [(0, true), (0, false), (1, true), (1, false), (2, true), (2, false)] ∧ .ended 1 false ∈ es ∧
    .submitted (.closure 0) 2 ∈ es ∧ .destroyed 7 ∈ es ∧ ClientOk next Spec.init es := by
  refine ⟨[.submit (.client 7), .submit (.client 8), .go .worker, .go .worker, .go .worker, .exStart 0, .submit (.closure 0), .exEnd 0 true, .go .worker, .destroy 7, .go .worker,
    .go .worker, .go .worker, .exStart 1, .exEnd 1 false, .go .worker, .go .worker, .go .worker, .go .worker, .exStart 2, .exEnd 2 true, .go .worker, .go .worker, .go .worker,
    .destroyEnd], _, _, rfl, ?_, ?_, ?_, ?_, ?_⟩ <;> decide

/-! ## Without `try_executing_one` -/

/-- One closure after the other, from `k` on, `n` of them. -/
def inTurn (k n : Nat) : List (Nat × Bool) := (List.range' k n).flatMap fun c => [(c, true), (c, false)]

/-- `σ` has carried out the first `k` closures, and is carrying out the next one if `b`. -/
structure Upto (σ : Spec) (k : Nat) (b : Bool) : Prop where
  helpers : σ.helpers = []
  le : k ≤ σ.acc
  done : ∀ c, c < k → σ.st c = .done
  cur : b = true → k < σ.acc ∧ σ.st k = .running
  rest : ∀ c, k ≤ c → (b = true → c ≠ k) → σ.st c = .waiting

theorem before_zero {σ : Spec} {k c : Nat} {b : Bool} (hk : Upto σ k b) (hc : c < σ.acc) (hw : σ.st c = .waiting) (hb : σ.before c ≤ σ.helpers.length) : b = false ∧ c = k := by
  rw [hk.helpers] at hb
  have hz : σ.before c = 0 := by simpa using hb
  unfold Spec.before at hz
  rw [List.length_eq_zero_iff, List.filter_eq_nil_iff] at hz
  have hge : k ≤ c := by
    rcases Nat.lt_or_ge c k with h | h
    · rw [hk.done c h] at hw; cases hw
    · exact h
  cases b with
  | true =>
    obtain ⟨h1, h2⟩ := hk.cur rfl
    have := hz k (List.mem_range.mpr h1)
    simp only [decide_eq_true_eq, not_and, not_or] at this
    have hne : k ≠ c := fun e => by rw [← e, h2] at hw; cases hw
    exact absurd h2 (this hne).1
  | false =>
    refine ⟨rfl, ?_⟩
    rcases Nat.lt_or_eq_of_le hge with h | h
    · have := hz k (List.mem_range.mpr (by omega))
      simp only [decide_eq_true_eq, not_and, not_or] at this
      exact absurd (hk.rest k (Nat.le_refl _) nofun) ((this (by omega)).2 h)
    · exact h.symm

theorem upto_other {σ σ' : Spec} {e : Event} {k : Nat} {b : Bool} (hn : live σ e = .ok σ') (hk : Upto σ k b) (h1 : ∀ c, e ≠ .started c) (h2 : ∀ c x, e ≠ .ended c x)
    (h3 : ∀ k, e ≠ .tryCalled k) : Upto σ' k b := by
  obtain ⟨a1, a2, a3, a4, a5⟩ := hk
  cases e <;> simp only [live] at hn <;> (repeat' split at hn) <;> (try cases hn) <;> (try exact ⟨a1, a2, a3, a4, a5⟩) <;> (try (exact absurd rfl (h1 _))) <;>
    (try (exact absurd rfl (h2 _ _))) <;> (try (exact absurd rfl (h3 _)))
  · refine ⟨a1, ?_, ?_, ?_, ?_⟩ <;> simp only [upd_apply] <;> grind
  all_goals
    refine ⟨?_, a2, a3, a4, a5⟩
    simp [a1]

theorem serial_aux {σ : Spec} {k : Nat} {b : Bool} {es : List Event} (h : Accepts next σ es) (hc : ClientOk next σ es) (hk : Upto σ k b) (ht : ∀ k, .tryCalled k ∉ es) :
    ∃ n, (if b then [(k, true)] else []) ++ closures es = inTurn k n ∨ (if b then [(k, true)] else []) ++ closures es = inTurn k n ++ [(k + n, true)] := by
  induction es generalizing σ k b with
  | nil => cases b <;> refine ⟨0, ?_⟩ <;> simp [closures, inTurn]
  | cons e es ih =>
    simp only [Accepts] at h
    simp only [ClientOk] at hc
    cases hn : next σ e with
    | illegal => simp [hn] at h
    | undefined => simp [hn] at hc
    | ok σ' =>
      simp only [hn] at h hc
      have ht' : ∀ k, .tryCalled k ∉ es := fun t hm => ht t (List.mem_cons_of_mem _ hm)
      have he : ∀ k, e ≠ .tryCalled k := fun t hh => ht t (by simp [hh])
      by_cases hcr : σ.crash = true
      · have : e = .terminated ∧ σ' = σ := by
          simp only [next, hcr, ↓reduceIte] at hn
          split at hn <;> cases hn
          exact ⟨‹_›, rfl⟩
        obtain ⟨rfl, rfl⟩ := this
        exact ih h hc hk ht'
      · have hn' : live σ e = .ok σ' := by simpa [next, hcr] using hn
        cases e with
        | started c =>
          simp only [live] at hn'
          split at hn' <;> cases hn'
          rename_i hcond
          obtain ⟨rfl, rfl⟩ := before_zero hk hcond.1 hcond.2.1 hcond.2.2
          obtain ⟨n, hn⟩ := ih h hc (k := c) (b := true)
            ⟨hk.helpers, hk.le, fun d hd => by have := hk.done d hd; simp only [upd_apply]; grind, fun _ => ⟨hcond.1, by simp [upd_apply]⟩,
              fun d h1 h2 => by have := hk.rest d h1 nofun; have := h2 rfl; simp only [upd_apply]; grind⟩ ht'
          exact ⟨n, by simpa [closures] using hn⟩
        | ended c x =>
          simp only [live] at hn'
          split at hn' <;> cases hn'
          rename_i hcond
          have hck : b = true ∧ c = k := by
            rcases Nat.lt_or_ge c k with h | h
            · have := hk.done c h; rw [hcond.2] at this; cases this
            · by_cases hx : b = true → c ≠ k
              · have := hk.rest c h hx; rw [hcond.2] at this; cases this
              · simp only [ne_eq, Classical.not_imp, Classical.not_not] at hx
                exact hx
          obtain ⟨rfl, rfl⟩ := hck
          obtain ⟨n, hn⟩ := ih h hc (k := c + 1) (b := false)
            ⟨hk.helpers, (hk.cur rfl).1, fun d hd => by have := hk.done d; simp only [upd_apply]; grind, nofun,
              fun d h1 h2 => by have := hk.rest d (by omega) (fun _ => by omega); simp only [upd_apply]; grind⟩ ht'
          refine ⟨n + 1, ?_⟩
          simp only [closures, ↓reduceIte, List.cons_append, List.nil_append, inTurn, List.range'_succ, List.flatMap_cons] at hn ⊢
          rcases hn with e | e
          · left; simpa using e
          · right
            rw [show c + (n + 1) = c + 1 + n by omega]
            simpa using e
        | _ =>
          have := ih h hc (upto_other hn' hk nofun nofun he) ht'
          simpa [closures] using this

/-- **C42 (serial).** As long as nobody uses `try_executing_one`, closures are carried out one after the other in the order of their submission: the first begins, the first ends, the
second begins, and so on, however many threads the underlying executor has, and whether or not closures throw. -/
theorem serial_and_in_order (cap : Nat) (ls : List Label) (s : State) (es : List Event) (h : run (step cap) init ls = some (s, es)) (hc : ClientOk next Spec.init es)
    (ht : ∀ k, .tryCalled k ∉ es) : ∃ n, closures es = inTurn 0 n ∨ closures es = inTurn 0 n ++ [(n, true)] := by
  have := serial_aux (k := 0) (b := false) (history_conforms cap ls s es h) hc ⟨rfl, Nat.le_refl _, nofun, nofun, fun _ _ _ => rfl⟩ ht
  simpa using this

/-- A history that meets the hypotheses. -/
example : ∃ ls s es, run (step 4) init ls = some (s, es) ∧ ClientOk next Spec.init es ∧ (∀ k, .tryCalled k ∉ es) ∧ closures es = inTurn 0 1 ++ [(1, true)] := by
  refine ⟨[.submit (.client 7), .submit (.client 8), .go .worker, .go .worker, .go .worker, .exStart 0, .exEnd 0 false, .go .worker, .go .worker, .go .worker, .go .worker, .exStart 1],
    _, _, rfl, ?_, ?_, ?_⟩
  · decide
  · simp [seen]
  · decide

/-! ## Completion -/

/-- **C42 (completion).** In every reachable state in which the underlying executor is open and no closure is itself inside `try_executing_one`, every accepted closure can be carried out:
some continuation in which only the executors move, and closures return, completes all of them. -/
theorem accepted_closures_complete (cap : Nat) (hcap : 0 < cap) (ls : List Label) (s : State) (es : List Event) (σ : Spec) (h : run (step cap) init ls = some (s, es))
    (hσ : specState next Spec.init es = some σ) (hr : running s = true) (hx : σ.exClosed = false) (hf : ∀ c, .closure c ∉ σ.helpers) :
    ∃ ls' s' es' σ', (∀ l ∈ ls', Helpful l) ∧ run (step cap) s ls' = some (s', es') ∧ specState next Spec.init (es ++ es') = some σ' ∧ σ'.acc = σ.acc ∧
      ∀ c, c < σ.acc → σ'.st c = .done := by
  obtain ⟨lo, dn, rel, hR⟩ := rel_running (simulation_state Rel (fun _ _ _ _ _ hR hs => sim hR hs) (s := init) rel_init h hσ) hr
  have hg : Good s σ := ⟨⟨lo, dn, rel, hR⟩, hR.exClosed ▸ hx, fun c => by
    have := hR.helpers (.closure c)
    have := hf c
    grind⟩
  obtain ⟨ls', s', es', σ', hh, hl⟩ := help_all hg hcap
  refine ⟨ls', s', es', σ', hh.helpful, hh.run, ?_, hh.acc, fun c hc => done_of_left hl (hh.acc.symm ▸ hc)⟩
  rw [specState_append, hσ]
  exact hh.spec

/-- **C42 (destructor).** Under the same conditions a destructor in progress can return. -/
theorem destructor_can_return (cap : Nat) (hcap : 0 < cap) (ls : List Label) (s : State) (es : List Event) (σ : Spec) (t : Nat) (h : run (step cap) init ls = some (s, es))
    (hσ : specState next Spec.init es = some σ) (hr : s.phase = .dying t) (hx : σ.exClosed = false) (hf : ∀ c, .closure c ∉ σ.helpers) :
    ∃ ls' s' es', (∀ l ∈ ls', Helpful l ∨ l = .destroyEnd) ∧ run (step cap) s ls' = some (s', es') ∧ .destroyed t ∈ es' := by
  obtain ⟨lo, dn, rel, hR⟩ := rel_running (simulation_state Rel (fun _ _ _ _ _ hR hs => sim hR hs) (s := init) rel_init h hσ) (by simp [running, hr])
  have hg : Good s σ := ⟨⟨lo, dn, rel, hR⟩, hR.exClosed ▸ hx, fun c => by
    have := hR.helpers (.closure c)
    have := hf c
    grind⟩
  obtain ⟨l1, s1, e1, σ1, h1, hl⟩ := help_all hg hcap
  have hcl : s.closed = true := (hR.alone (hR.dying.mpr ⟨t, hr⟩)).1
  obtain ⟨l2, s2, h2, hp⟩ := help_exit (cap := cap) h1.good (h1.closed.trans hcl) hl
  have hlast : run (step cap) s2 [.destroyEnd] = some ({ s2 with phase := .gone }, [.destroyed t]) := by
    simp [Verif.run, step, h2.phase, h1.phase, hr, hp]
  refine ⟨l1 ++ (l2 ++ [.destroyEnd]), _, e1 ++ ([] ++ [.destroyed t]), ?_, run_append h1.run (run_append h2.run hlast), by simp⟩
  intro l hl
  simp only [List.mem_append, List.mem_singleton] at hl
  rcases hl with e | e | e
  · exact .inl (h1.helpful l e)
  · exact .inl (h2.helpful l e)
  · exact .inr e

/-- A state that meets the hypotheses: one closure running, one in the queue, the destructor waiting. -/
example : ∃ ls s es σ, run (step 1) init ls = some (s, es) ∧ specState next Spec.init es = some σ ∧ s.phase = .dying 7 ∧ σ.exClosed = false ∧ (∀ c, .closure c ∉ σ.helpers) ∧ σ.left = 2 :=
  ⟨[.submit (.client 7), .submit (.client 8), .go .worker, .go .worker, .go .worker, .exStart 0, .destroy 7], _, _, _, rfl, rfl, rfl, rfl, by simp [Spec.init], by decide⟩

/-! ## What helping costs -/

/-- A client that helps with `try_executing_one` breaks the order, and the closures overlap: the second closure begins first, and the first one while it runs. -/
theorem helping_overlaps_and_reorders : ∃ ls s es, run (step 2) init ls = some (s, es) ∧ .submitted (.client 7) 0 ∈ es ∧ .submitted (.client 7) 1 ∈ es ∧
    closures es = [(1, true), (0, true)] :=
  ⟨[.submit (.client 7), .submit (.client 7), .go .worker, .go .worker, .tryExec (.client 7), .go (.client 7), .go (.client 7), .exStart 1, .go .worker, .exStart 0],
    _, _, rfl, by decide, by decide, by decide⟩

/-- The state of a closure that has called `reschedule_until` on an executor with a single thread. -/
structure Stuck (s : State) : Prop where
  outer : s.job 0 = .running
  inner : s.act (.closure 0) = .waiting 1
  handed : s.job 1 = .handed
  next : 1 < s.next
  only : ∀ c, s.job c = .running → c = 0
  pulled : ∀ k c, s.act k = .pulled c → 1 < c
  q : ∀ c ∈ s.q, 1 < c

theorem stuck_try {s s' : State} {k : Caller} {es : List Event} (h : Stuck s) (hs : tryStep s k = some (s', es)) :
    Stuck s' ∧ ∀ e ∈ es, (∀ c, e ≠ .started c) ∧ ∀ c b, e ≠ .ended c b := by
  obtain ⟨h1, h2, h3, h4, h5, h6, h7⟩ := h
  unfold tryStep at hs
  split at hs
  · cases hs
  · have hk : k ≠ .closure 0 := by rintro rfl; simp_all
    split at hs
    · cases hs
      refine ⟨⟨h1, ?_, h3, h4, h5, ?_, ?_⟩, by simp⟩ <;> (try simp only [upd_apply]) <;> grind
    · cases hs
      refine ⟨?_, by simp [seen]⟩
      cases k <;> exact ⟨h1, by simp only [after, upd_apply]; grind, h3, h4, h5, by simp only [after, upd_apply]; grind, h7⟩
  · rename_i c ha
    have hk : k ≠ .closure 0 := by rintro rfl; simp_all
    have := h6 k c ha
    split at hs
    · cases hs
      exact ⟨⟨h1, h2, h3, h4, h5, h6, h7⟩, by simp⟩
    · cases hs
      refine ⟨⟨?_, ?_, ?_, h4, ?_, ?_, h7⟩, by simp⟩ <;> (try simp only [upd_apply]) <;> grind
  · split at hs
    · have hk : k ≠ .closure 0 := by rintro rfl; simp_all
      cases hs
      refine ⟨?_, by simp [seen]⟩
      cases k <;> exact ⟨h1, by simp only [after, upd_apply]; grind, h3, h4, h5, by simp only [after, upd_apply]; grind, h7⟩
    · cases hs

theorem stuck_step {s s' : State} {l : Label} {es : List Event} (h : Stuck s) (hs : step 1 s l = some (s', es)) :
    Stuck s' ∧ ∀ e ∈ es, (∀ c, e ≠ .started c) ∧ ∀ c b, e ≠ .ended c b := by
  obtain ⟨h1, h2, h3, h4, h5, h6, h7⟩ := h
  cases l with
  | submit k =>
    simp only [step] at hs
    split at hs
    · simp only [submit, Option.some.injEq] at hs
      split at hs <;> cases hs
      · exact ⟨⟨h1, h2, h3, h4, h5, h6, h7⟩, by simp⟩
      · refine ⟨⟨h1, h2, h3, by simp only; omega, h5, h6, ?_⟩, by simp⟩
        simp only [List.mem_append, List.mem_singleton]
        grind
    · cases hs
  | close k => simp only [step] at hs; split at hs <;> cases hs; exact ⟨⟨h1, h2, h3, h4, h5, h6, h7⟩, by simp⟩
  | isClosed k => simp only [step] at hs; split at hs <;> cases hs; exact ⟨⟨h1, h2, h3, h4, h5, h6, h7⟩, by simp⟩
  | tryExec k =>
    simp only [step] at hs
    split at hs
    · rename_i hc
      cases hs
      have hk : k ≠ .closure 0 := by rintro rfl; simp [mayCall, h2] at hc
      exact ⟨⟨h1, by simp only [upd_apply]; grind, h3, h4, h5, by simp only [upd_apply]; grind, h7⟩, by simp⟩
    · cases hs
  | go k =>
    simp only [step] at hs
    split at hs
    · split at hs
      · unfold worker at hs
        split at hs
        · split at hs <;> cases hs <;> exact ⟨⟨h1, by simp only [upd_apply]; grind, h3, h4, h5, by simp only [upd_apply]; grind, h7⟩, by simp⟩
        · exact stuck_try ⟨h1, h2, h3, h4, h5, h6, h7⟩ hs
        · split at hs
          · cases hs
            exact ⟨⟨h1, by simp only [upd_apply]; grind, h3, h4, h5, by simp only [upd_apply]; grind, h7⟩, by simp⟩
          · exact stuck_try ⟨h1, h2, h3, h4, h5, h6, h7⟩ hs
        · cases hs
      · exact stuck_try ⟨h1, h2, h3, h4, h5, h6, h7⟩ hs
    · cases hs
  | exStart c =>
    simp only [step, exStart] at hs
    split at hs
    · split at hs
      · rename_i hc
        have hb : busy s ≠ 0 := by
          unfold busy
          intro hz
          rw [List.length_eq_zero_iff, List.filter_eq_nil_iff] at hz
          have := hz 0 (List.mem_range.mpr (by omega))
          simp [h1] at this
        omega
      · cases hs
    · cases hs
  | exEnd c b =>
    simp only [step, exEnd] at hs
    split at hs
    · split at hs
      · rename_i hc
        have := h5 c hc.1
        subst this
        rw [h2] at hc
        cases hc.2
      · cases hs
    · cases hs
  | exClose => simp only [step] at hs; split at hs <;> cases hs; exact ⟨⟨h1, h2, h3, h4, h5, h6, h7⟩, by simp⟩
  | interrupt k =>
    simp only [step] at hs
    split at hs
    · unfold interrupt at hs
      split at hs
      · cases hs
      · split at hs <;> cases hs
        exact ⟨⟨h1, h2, h3, h4, h5, h6, h7⟩, by simp⟩
      · cases hs
    · cases hs
  | destroy t => simp only [step] at hs; split at hs <;> cases hs; exact ⟨⟨h1, h2, h3, h4, h5, h6, h7⟩, by simp⟩
  | destroyEnd =>
    simp only [step] at hs
    split at hs
    · split at hs <;> cases hs
      exact ⟨⟨h1, h2, h3, h4, h5, h6, h7⟩, by simp⟩
    · cases hs

theorem stuck_run {s s' : State} {ls : List Label} {es : List Event} (h : Stuck s) (hr : run (step 1) s ls = some (s', es)) :
    ∀ e ∈ es, (∀ c, e ≠ .started c) ∧ ∀ c b, e ≠ .ended c b := by
  induction ls generalizing s es with
  | nil => cases hr; simp
  | cons l ls ih =>
    obtain ⟨m, e1, e2, h1, h2, rfl⟩ := run_cons hr
    obtain ⟨h3, h4⟩ := stuck_step h h1
    intro e he
    rcases List.mem_append.mp he with he | he
    · exact h4 e he
    · exact ih h3 h2 e he

/-- A closure that calls `reschedule_until` while another one is queued never ends if the underlying executor has a single thread, whatever happens afterwards: two closures have been
accepted, one has begun, and no closure ever begins or ends again. -/
theorem rescheduling_on_one_thread_deadlocks : ∃ ls s es, run (step 1) init ls = some (s, es) ∧ ClientOk next Spec.init es ∧
    .submitted (.client 7) 0 ∈ es ∧ .submitted (.client 7) 1 ∈ es ∧ .tryCalled (.closure 0) ∈ es ∧ closures es = [(0, true)] ∧
    ∀ ls' s' es', run (step 1) s ls' = some (s', es') → ∀ e ∈ es', (∀ c, e ≠ .started c) ∧ ∀ c b, e ≠ .ended c b := by
  refine ⟨[.submit (.client 7), .submit (.client 7), .go .worker, .go .worker, .go .worker, .exStart 0, .tryExec (.closure 0), .go (.closure 0), .go (.closure 0)],
    _, _, rfl, by decide, by decide, by decide, by decide, by decide, fun ls' s' es' hr => stuck_run (s := _) ?_ hr⟩
  refine ⟨by decide, by decide, by decide, by decide, fun c hc => ?_, fun k c hk => ?_, by decide⟩
  · simp only [upd_apply, init] at hc
    grind
  · simp only [upd_apply, init] at hk
    grind

/-- If the underlying executor has been closed, a closure accepted by the serial executor ends the program. -/
theorem closed_underlying_executor_terminates : ∃ ls s es, run (step 1) init ls = some (s, es) ∧ es = [.underlyingClosed, .submitted (.client 7) 0, .terminated] :=
  ⟨[.exClose, .submit (.client 7), .go .worker, .go .worker, .go .worker], _, _, rfl, rfl⟩

end Verif.SerialExecutor
