import Verif.ThreadPool.Live
/-! # Properties of `basic_thread_pool` -/

namespace Verif.ThreadPool

/-- **C41.** In every history of a pool with any number of workers and client threads: `submit` accepts exactly while the pool is open; a closure is invoked at most once, never
before it is accepted, and overtakes only closures that other threads have in hand; `try_executing_one` reports truthfully; after `join` no worker invokes anything, and
everything accepted has been carried out unless workers were interrupted; the program is ended only by an exception that leaves a closure.

Partial: the destructor interrupts the workers (`strict = false`), which can lose closures, and a constructor that fails ends the program; see below. -/
theorem history_conforms_partial (n : Nat) (ls : List Label) (s : State) (es : List Event) (h : run (step n) init ls = some (s, es)) :
    Accepts (next false n) Spec.init es :=
  simulation (Rel n) (fun _ _ _ _ _ hR hs => sim hR hs) (s := init) rel_init h

/-- The closures invoked, in the order of their invocation. -/
def invoked : List Event → List Nat
  | [] => []
  | .started _ c :: es => c :: invoked es
  | _ :: es => invoked es

/-- Two workers, three closures, one of them run by a client's `try_executing_one`, one submitted by another closure; then `close` and `join`. -/
example : ∃ ls s es, run (step 2) init ls = some (s, es) ∧ invoked es = [0, 2, 1, 3] ∧ .joinReturned 2 ∈ es ∧ .tryDone 2 ∈ es ∧ .refused 3 ∈ es := by
  refine ⟨[.spawn, .spawn, .work 0, .spawn, .submit 2, .submit 2, .work 0, .work 0, .start 0, .work 1, .submit 0, .tryExec 2, .start 2, .start 1, .finish 2 .ok,
    .submit 3, .close 2, .submit 3, .finish 0 .ok, .finish 1 .ok, .join 2, .work 0, .start 0, .finish 0 .ok, .work 0, .work 1, .go 2, .go 2, .go 2], _, _, rfl, ?_, ?_, ?_, ?_⟩ <;> decide

/-! ## One worker -/

theorem pend_nil {σ σ' : Spec} {e : Event} (hn : next false 1 σ e = .ok σ') (he : ∀ t, e ≠ .tryFound t) (hp : σ.pend = []) : σ'.pend = [] := by
  cases e <;> simp only [next] at hn <;> (repeat' split at hn) <;> (try cases hn) <;> (try exact hp) <;> simp_all

/-- `σ` has invoked exactly the first `k` closures. -/
def Upto (σ : Spec) (k : Nat) : Prop := ∀ c, c < k ↔ c < σ.acc ∧ σ.st c ≠ .waiting

theorem order_aux {σ : Spec} {k : Nat} {es : List Event} (h : Accepts (next false 1) σ es) (hc : ClientOk (next false 1) σ es) (hk : Upto σ k) (hp : σ.pend = [])
    (ht : ∀ t, .tryFound t ∉ es) : invoked es = List.range' k (invoked es).length := by
  induction es generalizing σ k with
  | nil => rfl
  | cons e es ih =>
    simp only [Accepts] at h
    simp only [ClientOk] at hc
    cases hn : next false 1 σ e with
    | illegal => simp [hn] at h
    | undefined => simp [hn] at hc
    | ok σ' =>
      simp only [hn] at h hc
      have he : ∀ t, e ≠ .tryFound t := fun t hh => ht t (by simp [hh])
      have hp' := pend_nil hn he hp
      have ht' : ∀ t, .tryFound t ∉ es := fun t hm => ht t (List.mem_cons_of_mem _ hm)
      have hsame : ∀ {σ' : Spec}, σ'.acc = σ.acc → σ'.st = σ.st → Upto σ' k := fun h1 h2 => by unfold Upto; rw [h1, h2]; exact hk
      cases e with
      | started t c =>
        simp only [next, reduceCtorEq, ↓reduceIte] at hn
        (repeat' split at hn) <;> cases hn
        rename_i hcond
        obtain ⟨h1, h2, h3, h4, h5⟩ := hcond
        rw [hp] at h5
        simp only [List.not_mem_nil, false_or] at h5
        have ht0 : t = 0 := by omega
        subst ht0
        have hb : σ.behind c = 0 := by
          have : σ.hands 1 0 = 0 := by simp [Spec.hands, hp]
          omega
        have hck : c = k := by
          unfold Spec.behind at hb
          rw [List.length_eq_zero_iff, List.filter_eq_nil_iff] at hb
          have h6 : ¬ c < k := fun h => ((hk c).mp h).2 h2
          have h7 : ¬ k < c := fun h => by
            have h8 := hb k (List.mem_range.mpr h)
            simp only [decide_eq_true_eq] at h8
            have := (hk k).mpr ⟨by omega, h8⟩
            omega
          omega
        subst hck
        have hk' : Upto { σ with st := upd σ.st c (.running 0), pend := σ.pend.filter fun u => u ≠ 0 } (c + 1) := by
          intro d
          have := hk d
          simp only [upd_apply]
          grind
        have := ih h hc hk' hp' ht'
        simp only [invoked, List.length_cons, List.range'_succ]
        rw [← this]
      | submitted t c =>
        simp only [next, reduceCtorEq, ↓reduceIte] at hn
        (repeat' split at hn) <;> cases hn
        rename_i hcond
        refine ih h hc ?_ hp' ht'
        intro d
        have := hk d
        have := hk σ.acc
        simp only [upd_apply]
        grind
      | ended t c how =>
        have hk' : Upto σ' k := by
          simp only [next, reduceCtorEq, ↓reduceIte] at hn
          (repeat' split at hn) <;> cases hn <;> rename_i hst <;> intro d <;> have := hk d <;> simp only [upd_apply] <;> grind
        exact ih h hc hk' hp' ht'
      | _ =>
        refine ih h hc (hsame ?_ ?_) hp' ht' <;> simp only [next] at hn <;> (repeat' split at hn) <;> cases hn <;> rfl

/-- **C41 (order).** With one worker, and as long as nobody uses `try_executing_one`, closures are invoked in the order of their submission. -/
theorem single_worker_keeps_order (ls : List Label) (s : State) (es : List Event) (h : run (step 1) init ls = some (s, es))
    (hc : ClientOk (next false 1) Spec.init es) (ht : ∀ t, .tryFound t ∉ es) : invoked es = List.range (invoked es).length := by
  rw [List.range_eq_range']
  exact order_aux (history_conforms_partial 1 ls s es h) hc (by intro c; simp [Spec.init]) rfl ht

/-- Three closures, one worker. -/
example : ∃ ls s es, run (step 1) init ls = some (s, es) ∧ ClientOk (next false 1) Spec.init es ∧ (∀ t, .tryFound t ∉ es) ∧ invoked es = [0, 1, 2] := by
  refine ⟨[.spawn, .spawn, .submit 1, .submit 2, .work 0, .start 0, .submit 0, .finish 0 .ok, .work 0, .start 0, .finish 0 .ok, .work 0, .start 0], _, _, rfl, ?_, ?_, ?_⟩
  · decide
  · simp
  · decide

/-- **C41 (order) is false with two workers:** a closure may be invoked before one that was submitted earlier. -/
theorem two_workers_change_order : ∃ ls s es, run (step 2) init ls = some (s, es) ∧ .submitted 2 0 ∈ es ∧ .submitted 2 1 ∈ es ∧ invoked es = [1, 0] :=
  ⟨[.spawn, .spawn, .spawn, .submit 2, .submit 2, .work 0, .work 1, .start 1, .start 0], _, _, rfl, by decide, by decide, by decide⟩

/-! ## Every accepted closure can be carried out -/

/-- **C41 (completion).** In every reachable state in which nobody has interrupted the workers, and no closure has thrown, every accepted closure can be carried out: some
continuation in which only the workers move, and closures return, completes all of them. -/
theorem accepted_closures_complete (n : Nat) (hn : 0 < n) (ls : List Label) (s : State) (es : List Event) (σ : Spec) (h : run (step n) init ls = some (s, es))
    (hσ : specState (next false n) Spec.init es = some σ) (hu : s.phase = .up) (hc : σ.clean = true) :
    ∃ ls' s' es' σ', (∀ l ∈ ls', Helpful l) ∧ run (step n) s ls' = some (s', es') ∧ specState (next false n) Spec.init (es ++ es') = some σ' ∧ σ'.acc = σ.acc ∧
      ∀ c, c < σ.acc → σ'.st c = .done := by
  obtain ⟨lo, hR⟩ := rel_up (simulation_state (Rel n) (fun _ _ _ _ _ hR hs => sim hR hs) (s := init) rel_init h hσ) hu
  obtain ⟨ls', s', es', σ', hh, hl⟩ := help_all hR hu hn hc
  refine ⟨ls', s', es', σ', hh.helpful, hh.run, ?_, hh.acc, fun c hc => done_of_left hl (hh.acc.symm ▸ hc)⟩
  rw [specState_append, hσ]
  exact hh.spec

/-- **C41 (`join`).** If moreover the pool is closed, a `join` in progress can return. -/
theorem join_can_return (n : Nat) (hn : 0 < n) (ls : List Label) (s : State) (es : List Event) (σ : Spec) (t i : Nat) (h : run (step n) init ls = some (s, es))
    (hσ : specState (next false n) Spec.init es = some σ) (hu : s.phase = .up) (hc : σ.clean = true) (hcl : σ.closed = true) (hop : s.op t = .join i) (hi : i ≤ n) :
    ∃ ls' s' es', (∀ l ∈ ls', Helpful l ∨ l = .go t) ∧ run (step n) s ls' = some (s', es') ∧ .joinReturned t ∈ es' := by
  obtain ⟨lo, hR⟩ := rel_up (simulation_state (Rel n) (fun _ _ _ _ _ hR hs => sim hR hs) (s := init) rel_init h hσ) hu
  obtain ⟨l1, s1, e1, σ1, h1, hl⟩ := help_all hR hu hn hc
  obtain ⟨lo1, hR1⟩ := h1.rel
  obtain ⟨l2, s2, h2, he⟩ := help_exits hR1 h1.up (h1.clean.trans hc) (h1.closed.trans (hR.closed ▸ hcl)) hl n (Nat.le_refl n)
  obtain ⟨l3, s3, h3, hr⟩ := go_join h2.up he (t := t) (i := i) (by rw [h2.op, h1.op]; exact hop) hi
  refine ⟨l1 ++ (l2 ++ l3), s3, e1 ++ ([] ++ [.joinReturned t]), ?_, run_append h1.run (run_append h2.run hr), by simp⟩
  intro l hl
  rcases List.mem_append.mp hl with e | e
  · exact .inl (h1.helpful l e)
  · rcases List.mem_append.mp e with e | e
    · exact .inl (h2.helpful l e)
    · exact .inr (h3 l e)

/-- A state that meets the hypotheses: a closure in the queue, one running, the pool closed, a `join` in progress. -/
example : ∃ ls s es σ, run (step 1) init ls = some (s, es) ∧ specState (next false 1) Spec.init es = some σ ∧ s.phase = .up ∧ σ.clean = true ∧ σ.closed = true ∧
    s.op 1 = .join 0 ∧ σ.acc = 2 ∧ σ.left = 2 :=
  ⟨[.spawn, .spawn, .submit 1, .submit 2, .work 0, .start 0, .close 1, .join 1], _, _, _, rfl, rfl, rfl, rfl, rfl, rfl, rfl, by decide⟩

/-! ## Calls and their returns -/

/-- The member functions of which the histories show the call and the return. -/
inductive Fn where
  | join | interrupt | interruptJoin | destroy
deriving DecidableEq, Repr

/-- Each thread returns from the function it has called, and is in one of them at a time. -/
def callNext (σ : Nat → Option Fn) : Event → Verdict (Nat → Option Fn)
  | .joinCalled t => if σ t = none then .ok (upd σ t (some .join)) else .illegal
  | .interruptCalled t => if σ t = none then .ok (upd σ t (some .interrupt)) else .illegal
  | .interruptJoinCalled t => if σ t = none then .ok (upd σ t (some .interruptJoin)) else .illegal
  | .destroyCalled t => if σ t = none then .ok (upd σ t (some .destroy)) else .illegal
  | .joinReturned t => if σ t = some .join then .ok (upd σ t none) else .illegal
  | .interruptReturned t => if σ t = some .interrupt then .ok (upd σ t none) else .illegal
  | .interruptJoinReturned t => if σ t = some .interruptJoin then .ok (upd σ t none) else .illegal
  | .destroyed t => if σ t = some .destroy then .ok (upd σ t none) else .illegal
  | _ => .ok σ

def Op.fn : Op → Option Fn
  | .none => .none
  | .join _ => some .join
  | .intr _ => some .interrupt
  | .intrJoin _ _ d => some (if d then .destroy else .interruptJoin)

theorem fn_upd {s : State} {σ : Nat → Option Fn} (h : ∀ t, σ t = (s.op t).fn) (t : Nat) (o : Op) (x : Option Fn) (hx : x = o.fn) : ∀ u, upd σ t x u = (upd s.op t o u).fn := by
  intro u; simp only [upd]; split
  · exact hx
  · exact h u

/-- **C41.** Every return in a history is the return from the last call of that thread; in particular only a destructor destroys the pool. -/
theorem calls_return (n : Nat) {ls : List Label} {s : State} {es : List Event} (h : run (step n) init ls = some (s, es)) : Accepts callNext (fun _ => none) es := by
  refine simulation (fun s σ => ∀ t, σ t = (s.op t).fn) (fun s l s' es σ hR hs => ?_) (fun _ => rfl) h
  cases l <;> simp only [step] at hs
  case go t =>
    split at hs
    · simp only [go] at hs
      (repeat' split at hs) <;> cases hs <;> simp only [Follows, callNext, *, Op.fn, if_true]
      all_goals first | exact fn_upd hR t _ _ rfl | (intro u; simp only [upd]; by_cases hu : u = t <;> simp_all [Op.fn])
    · cases hs
  case destroy t =>
    split at hs
    · simp only [begin] at hs
      split at hs
      · next hb =>
        simp only [Option.map_some] at hs
        cases hs
        simp only [Follows, callNext, hR, hb.2.2, Op.fn, if_true]
        exact fn_upd hR t _ _ rfl
      · cases hs
    · cases hs
  case join t => split at hs; rotate_left; cases hs; simp only [begin] at hs; split at hs <;> cases hs; next hb => simp only [Follows, callNext, hR, hb.2.2, Op.fn, if_true]; exact fn_upd hR t _ _ rfl
  case interrupt t => split at hs; rotate_left; cases hs; simp only [begin] at hs; split at hs <;> cases hs; next hb => simp only [Follows, callNext, hR, hb.2.2, Op.fn, if_true]; exact fn_upd hR t _ _ rfl
  case interruptJoin t => split at hs; rotate_left; cases hs; simp only [begin] at hs; split at hs <;> cases hs; next hb => simp only [Follows, callNext, hR, hb.2.2, Op.fn, if_true]; exact fn_upd hR t _ _ rfl
  all_goals
    try simp only [spawn, spawnFails, unwind, submit, tryExec, work, start, finish] at hs
    (repeat' split at hs) <;> cases hs <;> simp only [Follows, callNext] <;> first | exact hR | (split <;> simp only [Follows, callNext] <;> exact hR)

example : ∃ s es, run (step 1) init [.spawn, .spawn, .interruptJoin 1, .go 1, .work 0, .go 1, .go 1] = some (s, es) ∧ .interruptJoinReturned 1 ∈ es := ⟨_, _, rfl, by decide⟩

/-! ## Where the property is false -/

/-- **C41 (destructor) is false:** the destructor interrupts the workers, and a worker that waits for work, or has been notified of it but is not running yet, obeys although the
queue is not empty. The closure was accepted, the destructor returns, the closure is never invoked. -/
theorem destructor_drops_closures : ∃ ls s es, run (step 1) init ls = some (s, es) ∧ .submitted 1 0 ∈ es ∧ .destroyed 1 ∈ es ∧ invoked es = [] ∧
    ¬ Accepts (next true 1) Spec.init es :=
  ⟨[.spawn, .spawn, .work 0, .submit 1, .destroy 1, .go 1, .work 0, .go 1, .go 1], _, _, rfl, by decide, by decide, by decide, by decide⟩

/-- Nor does a worker that is interrupted inside a closure come back for the closures still in the queue. -/
theorem destructor_drops_closures_behind_an_interrupted_one : ∃ ls s es, run (step 1) init ls = some (s, es) ∧ .submitted 1 1 ∈ es ∧ .destroyed 1 ∈ es ∧ invoked es = [0] :=
  ⟨[.spawn, .spawn, .submit 1, .submit 1, .work 0, .start 0, .destroy 1, .go 1, .finish 0 .interrupted, .go 1, .go 1], _, _, rfl, by decide, by decide, by decide⟩

/-- A constructor that cannot create its second thread does not throw: the program ends. -/
theorem constructor_failure_terminates : ∃ ls s es, run (step 2) init ls = some (s, es) ∧ es = [.spawnFailed, .terminated] ∧ ¬ Accepts (next true 2) Spec.init es :=
  ⟨[.spawn, .spawnFails, .unwind], _, _, rfl, rfl, by decide⟩

end Verif.ThreadPool
