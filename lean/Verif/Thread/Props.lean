import Verif.Thread.Live
/-!
# Properties of `boost::thread` (C39)
-/

namespace Verif.Thread

/-- **C39.** Every history of thread objects — any number of threads and objects, any schedule, any spurious wake-ups, time-outs and interruptions — is one the
specification allows. `strict = false` makes no assumption on the clients; `strict = true` promises more to clients that do not use one object from two threads at once. -/
theorem history_conforms (strict : Bool) (cfg : Cfg) {ls : List Label} {s : State} {es : List Event} (h : run (step cfg) {} ls = some (s, es)) :
    Accepts (next strict cfg) {} es :=
  simulation (s := ({} : State)) (R strict) (fun _ _ _ _ _ hR hs => step_follows hR hs) (R_init strict) h

/-- **C39, join returns after completion.** Whoever is told that thread `t` has been joined is told so after the function of `t` has returned. -/
theorem join_after_completion (cfg : Cfg) {ls : List Label} {s : State} {pre post : List Event} {c o t : Nat}
    (h : run (step cfg) {} ls = some (s, pre ++ .joinOk c o t :: post)) : .fin t ∈ pre := by
  have ha := history_conforms false cfg h
  obtain ⟨σ, hσ⟩ := ha.prefix.specState_isSome (client_false cfg _ _)
  have hn := ha.next_of_specState hσ
  have hf : (σ.thr t).fin = true := by
    simp only [next] at hn
    split at hn
    · rename_i h; exact h.2.1
    · exact absurd rfl hn
  rcases spec_fin hσ hf with h1 | h1
  · cases h1
  · exact h1

/-- **C39, exactly one of join and detach.** No thread is given back to the operating system twice. -/
theorem released_once (cfg : Cfg) {ls : List Label} {s : State} {es : List Event} (h : run (step cfg) {} ls = some (s, es)) (t : Nat) :
    es.countP (·.releases t) ≤ 1 := by
  have := releases_run (t := t) Inv_init h
  split at this <;> split at this <;> omega

/-- **C39, at most one join sees the completion** (partial: of clients that use an object from one thread at a time; `both_see_completion` shows that the others can
see it twice). -/
theorem completion_seen_once_partial (cfg : Cfg) {ls : List Label} {s : State} {es : List Event} (h : run (step cfg) {} ls = some (s, es))
    (hc : ClientOk (next true cfg) {} es) (t : Nat) : es.countP (·.sees t) ≤ 1 := by
  obtain ⟨σ, hσ⟩ := (history_conforms true cfg h).specState_isSome hc
  have := spec_sees (t := t) (fun _ _ => ⟨rfl, rfl⟩) hσ
  omega

/-- **C39, a join ends.** Once thread `t` has ended, every join of it that has begun returns by steps of the joining threads alone; no wake-up is lost. -/
theorem join_ends (cfg : Cfg) {ls : List Label} {s : State} {es : List Event} (h : run (step cfg) {} ls = some (s, es)) (hd : s.dead = false)
    {c o t : Nat} (he : (s.thr t).phase = .exited) (hp : (s.thr c).pc.joins = some (o, t)) :
    ∃ ls' s' es', (∀ l ∈ ls', ∃ i, l = Label.go i) ∧ run (step cfg) s ls' = some (s', es') ∧ .joinOk c o t ∈ es' :=
  goes (run_inv Inv (fun _ _ _ _ hI hs => step_inv hI hs) Inv_init h) hd he hp

/-! ## Concrete executions -/

def cfg0 : Cfg := ⟨false, false⟩

/-- Start, timed join that times out, the function returns, join. -/
example : ∃ s, run (step cfg0) {} [.call 0 (.start 0 .joinable), .call 0 (.join 0 true), .go 0, .go 0, .timeout 0, .call 0 (.joinable 0), .ret 1, .setDone 1, .call 0 (.join 0 false),
      .go 0, .go 0, .exit 1, .go 0, .go 0, .go 0, .call 0 (.joinable 0), .call 0 (.join 0 false), .go 0] =
    some (s, [.started 0 0 1, .joinCall 0 0 true, .joinTimeout 0 0, .joinable 0 0 true, .fin 1, .joinCall 0 0 false, .natJoin 0 1, .joinOk 0 0 1, .joinable 0 0 false,
      .joinCall 0 0 false, .joinNone 0 0]) ∧
    ClientOk (next true cfg0) {} [.started 0 0 1, .joinCall 0 0 true, .joinTimeout 0 0, .joinable 0 0 true, .fin 1, .joinCall 0 0 false, .natJoin 0 1, .joinOk 0 0 1,
      .joinable 0 0 false, .joinCall 0 0 false, .joinNone 0 0] :=
  ⟨_, rfl, by decide⟩

/-- Self-join is refused; a detached thread is released at once; a moved-from object holds nothing. -/
example : ∃ s, run (step cfg0) {} [.call 0 (.start 0 .joinable), .call 1 (.join 0 false), .call 0 (.moveCtor 1 0), .call 0 (.joinable 0), .call 0 (.joinable 1),
      .call 0 (.detach 1), .go 0, .call 0 (.joinable 1)] =
    some (s, [.started 0 0 1, .joinSelf 1 0, .moved 0 1 0, .joinable 0 0 false, .joinable 0 1 true, .detachCall 0 1, .natDetach 0 1, .detachRet 0, .joinable 0 1 false]) :=
  ⟨_, rfl⟩

/-- The specification rejects a join that returns early, a self-join that is let through, and a second release. -/
example : ¬ Accepts (next false cfg0) {} [.started 0 0 1, .joinCall 0 0 false, .joinOk 0 0 1] := by decide
example : ¬ Accepts (next false cfg0) {} [.started 0 0 1, .joinCall 1 0 false] := by decide
example : ¬ Accepts (next false cfg0) {} [.started 0 0 1, .detachCall 0 0, .natDetach 0 1, .detachRet 0, .natDetach 0 1] := by decide
example : ¬ Accepts (next true cfg0) {} [.started 0 0 1, .detachCall 0 0, .detachRet 0] := by decide
example : ¬ Accepts (next false cfg0) {} [.started 0 0 1, .moved 0 1 0, .joinable 0 0 true] := by decide

/-- The hypotheses of `join_ends`: thread 2 waits for thread 0, which is joining, and the joined thread 1 has ended. -/
example : ∃ s es, run (step cfg0) {} [.call 0 (.start 0 .joinable), .call 0 (.start 1 .joinable), .ret 1, .setDone 1, .exit 1, .call 0 (.join 0 false), .call 2 (.join 0 true), .go 0, .go 2, .go 0,
      .go 2] = some (s, es) ∧ s.dead = false ∧ (s.thr 1).phase = .exited ∧ (s.thr 2).pc = .wJoined 0 1 false := ⟨_, _, rfl, rfl, rfl, rfl⟩

/-- **C39 is false for two threads that join the same object at once:** both see the completion of thread 1. -/
theorem both_see_completion : ∃ s es, run (step cfg0) {} [.call 0 (.start 0 .joinable), .call 0 (.start 1 .joinable), .ret 1, .setDone 1, .exit 1, .call 0 (.join 0 false), .call 2 (.join 0 true),
      .go 0, .go 2, .go 0, .go 2, .go 0, .go 0, .go 2, .go 2, .go 0] = some (s, es) ∧ .joinOk 0 0 1 ∈ es ∧ .joinOk 2 0 1 ∈ es :=
  ⟨_, _, rfl, by decide, by decide⟩

/-- **Moving an object onto itself loses the thread:** `t = boost::move(t)` detaches the running thread 1 and leaves the object empty. -/
theorem self_move_detaches : ∃ s, run (step cfg0) {} [.call 0 (.start 0 .joinable), .call 0 (.moveAsg 0 0), .go 0, .go 0, .call 0 (.joinable 0)] =
    some (s, [.started 0 0 1, .asgCall 0 0 0, .natDetach 0 1, .asgRet 0 0 0, .joinable 0 0 false]) := ⟨_, rfl⟩

/-- With the terminating destructor, destroying a joinable object ends the program, and nothing else happens after. -/
example : ∃ s, run (step ⟨true, false⟩) {} [.call 0 (.start 0 .joinable), .call 0 (.destroy 0)] = some (s, [.started 0 0 1, .terminated 0 0]) ∧ step ⟨true, false⟩ s (.ret 1) = none :=
  ⟨_, rfl, rfl⟩

/-- **C39.** `std::terminate` is called exactly if the configuration asks for it and the object, destroyed or assigned to, holds a thread. -/
theorem terminates_exactly (cfg : Cfg) {s s' : State} {c o src : Nat} {es : List Event} :
    (step cfg s (.call c (.destroy o)) = some (s', es) → (.terminated c o ∈ es ↔ cfg.dtor = true ∧ (s.objs o).isSome)) ∧
      (step cfg s (.call c (.moveAsg o src)) = some (s', es) → (.terminated c o ∈ es ↔ cfg.assign = true ∧ (s.objs o).isSome)) := by
  constructor <;> intro h <;> simp only [step, call] at h <;> (repeat' split at h) <;> cases h <;> simp_all

example : ∃ s, run (step ⟨false, true⟩) {} [.call 0 (.start 0 .joinable), .call 0 (.start 1 .joinable), .call 0 (.moveAsg 0 1)] = some (s, [.started 0 0 1, .started 0 1 2, .terminated 0 0]) :=
  ⟨_, rfl⟩

theorem step_terminated {cfg : Cfg} {s s' : State} {l : Label} {es : List Event} (h : step cfg s l = some (s', es)) {c o : Nat} (ht : .terminated c o ∈ es) :
    es = [.terminated c o] ∧ s'.dead = true := by
  cases l with
  | call d op =>
    cases op <;> simp only [step, call] at h <;> (repeat' split at h) <;> cases h <;> simp at ht
    all_goals (obtain ⟨rfl, rfl⟩ := ht; exact ⟨rfl, rfl⟩)
  | go d =>
    simp only [step, go, detachBody] at h
    (repeat' split at h) <;> cases h <;> first | (split at ht <;> simp at ht) | simp at ht
  | _ =>
    simp only [step] at h
    (repeat' split at h) <;> cases h <;> simp at ht

/-- **C39.** Nothing happens after `std::terminate` has been called. -/
theorem terminate_is_last (cfg : Cfg) {ls : List Label} {s s' : State} {es : List Event} (h : run (step cfg) s ls = some (s', es)) {c o : Nat} {pre post : List Event}
    (he : es = pre ++ .terminated c o :: post) : post = [] := by
  induction ls generalizing s es pre with
  | nil => simp only [run_nil, Option.some.injEq, Prod.mk.injEq] at h; rw [← h.2] at he; simp at he
  | cons l ls ih =>
    obtain ⟨m, es₁, es₂, h1, h2, h3⟩ := run_cons h
    rw [he] at h3
    rcases List.append_eq_append_iff.1 h3 with ⟨as, ha, hb⟩ | ⟨bs, ha, hb⟩
    · cases as with
      | nil => simp only [List.nil_append] at hb; exact ih h2 (pre := []) (by simpa using hb.symm)
      | cons a as =>
        simp only [List.cons_append, List.cons.injEq] at hb
        obtain ⟨rfl, hb⟩ := hb
        have ht := step_terminated h1 (c := c) (o := o) (by rw [ha]; simp)
        have hes : es₂ = [] := by
          cases ls with
          | nil => simp only [run_nil, Option.some.injEq, Prod.mk.injEq] at h2; exact h2.2.symm
          | cons l' ls => obtain ⟨m', e1, e2, g1, -, -⟩ := run_cons h2; simp [step, ht.2] at g1
        have : as = [] := by
          have e := ha.symm.trans ht.1
          have := congrArg List.length e
          simp at this
          exact List.eq_nil_of_length_eq_zero (by omega)
        rw [hb, hes, this]; rfl
    · exact ih h2 (pre := bs) hb

end Verif.Thread
