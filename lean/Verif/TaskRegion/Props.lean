import Verif.TaskRegion.Live
/-!
# Task regions: the properties
-/

set_option linter.unusedVariables false

namespace Verif.TaskRegion

/-- C60. Every history of `task_region`, `run` and `wait`, on any executor and with any nesting, is one that the specification allows: `task_region` and
`wait` return after the functions of all tasks; what these and the function have thrown is what is reported; a task is called once, while its region is
there; `run` and `wait` throw `task_canceled_exception` only when a task has failed. Missing: interruption of the wait at the end of a region and lack of
memory in `run` (`left_behind`, `left_behind_memory`); when `wait` has thrown, the exceptions may be reported repeatedly (`reported_thrice`). -/
theorem conforms_partial {limit : Option Nat} {ls : List Label} {s : St} {es : List Event} (h : run stepPlain (init limit) ls = some (s, es)) :
    Accepts next {} es :=
  simulation (R := R) (fun s l s' es σ hi hs => step_ok hi (of_plain hs).1 (of_plain hs).2) (R_init limit) h

theorem reached_born {limit : Option Nat} {ls : List Label} {s : St} {es : List Event} (h : run stepPlain (init limit) ls = some (s, es)) :
    LInv s ∧ ∀ r, s.nr ≤ r → (s.reg r).phase = .gone :=
  run_inv (step := stepPlain) (fun s => LInv s ∧ ∀ r, s.nr ≤ r → (s.reg r).phase = .gone)
    (fun _ _ _ _ hi hs => ⟨linv_step hi.1 (of_plain hs).1 (of_plain hs).2, born_step hi.1 hi.2 (of_plain hs).1 (of_plain hs).2⟩) ⟨linv_init limit, fun _ _ => rfl⟩ h

/-- The regions that are there in the specification. -/
theorem still_there {limit : Option Nat} {ls : List Label} {s : St} {es : List Event} {σ : Sys} (h : run stepPlain (init limit) ls = some (s, es))
    (hR : R s σ) {r : Nat} (hr : (σ.reg r).phase ≠ .gone) : r < s.nr ∧ (s.reg r).phase ≠ .gone := by
  have hp : (s.reg r).phase ≠ .gone := by
    intro he
    apply hr
    rw [(hR.reg r).phase, he]; rfl
  refine ⟨?_, hp⟩
  rcases Nat.lt_or_ge r s.nr with h1 | h1
  · exact h1
  · exact absurd ((reached_born h).2 r h1) hp

theorem reached {limit : Option Nat} {ls : List Label} {s : St} {es : List Event} (h : run stepPlain (init limit) ls = some (s, es)) : LInv s :=
  (reached_born h).1

/-- C60. With a thread for every task: whatever has happened, all calls of `task_region` that are in progress return once the functions do, however deeply
they are nested. -/
theorem regions_end {ls : List Label} {s : St} {es : List Event} {σ : Sys} (h : run stepPlain (init none) ls = some (s, es))
    (hσ : specState next {} es = some σ) :
    ∃ ls' s' es', (∀ l ∈ ls', Winds l) ∧ run step s ls' = some (s', es') ∧ ∀ r, (σ.reg r).phase ≠ .gone → ∃ w x, .closed w r x ∈ es' := by
  have hR := simulation_state R (fun s l s' es σ hi hs => step_ok hi (of_plain hs).1 (of_plain hs).2) (R_init none) h hσ
  have hu : Unlimited s := run_inv (step := stepPlain) Unlimited (fun _ _ _ _ hi hs => unlimited_step hi (of_plain hs).2) ⟨rfl, 0, fun _ _ => rfl⟩ h
  obtain ⟨ls', s', es', h1, h2, h3⟩ := winds_down (I := Unlimited) (fun _ _ _ _ hi _ _ hs => unlimited_step hi hs) (fun _ hi _ => unlimited_free hi) _ s rfl
    (reached h) hu
  refine ⟨ls', s', es', h1, h2, fun r hr => ?_⟩
  obtain ⟨hlt, hp⟩ := still_there h hR hr
  exact run_closed hlt h1 h2 hp h3

/-- C60. With a thread pool, when no task calls `task_region`. -/
theorem regions_end_pool {k : Nat} (hk : 0 < k) {ls : List Label} {s : St} {es : List Event} {σ : Sys} (h : run stepPlain (init (some k)) ls = some (s, es))
    (hl : ∀ l ∈ ls, opensInWorker l = false) (hσ : specState next {} es = some σ) :
    ∃ ls' s' es', (∀ l ∈ ls', Winds l) ∧ run step s ls' = some (s', es') ∧ ∀ r, (σ.reg r).phase ≠ .gone → ∃ w x, .closed w r x ∈ es' := by
  have hR := simulation_state R (fun s l s' es σ hi hs => step_ok hi (of_plain hs).1 (of_plain hs).2) (R_init (some k)) h hσ
  have hu : Flat s := run_inv_on (step := stepPlain) (fun l => opensInWorker l = false) Flat (fun _ _ _ _ ho hi hs => flat_step hi ho (of_plain hs).2)
    hl ⟨⟨k, rfl, hk⟩, fun _ => Or.inl rfl⟩ h
  have noopen : ∀ {l}, Winds l → opensInWorker l = false := by
    intro l hw
    cases l with
    | «open» w => exact hw.elim
    | _ => rfl
  obtain ⟨ls', s', es', h1, h2, h3⟩ := winds_down (I := Flat) (fun _ _ _ _ hi _ hw hs => flat_step hi (noopen hw) hs) (fun _ hi _ => flat_free hi) _ s rfl
    (reached h) hu
  refine ⟨ls', s', es', h1, h2, fun r hr => ?_⟩
  obtain ⟨hlt, hp⟩ := still_there h hR hr
  exact run_closed hlt h1 h2 hp h3

/-- Finding: with a thread pool of any size, tasks that call `task_region` on the same pool can bring it to a standstill: there is a history after which,
whatever happens, no call of `task_region` in progress returns, unless it is interrupted. The documentation's example is of this kind. -/
theorem nested_starvation {k : Nat} (hk : 0 < k) : ∃ ls s es, (∀ l ∈ ls, interrupts l = false) ∧ run stepPlain (init (some k)) ls = some (s, es) ∧
    (s.reg 0).phase ≠ .gone ∧ s.queue ≠ [] ∧
    ∀ ls' s' es', (∀ l ∈ ls', interrupts l = false) → run stepPlain s ls' = some (s', es') → ∀ w x, .closed w 0 x ∉ es' := by
  obtain ⟨ls, s, es, h1, h2, h3⟩ := nested hk k (Nat.le_refl _)
  obtain ⟨u, hu, hd⟩ := h3.waits
  obtain ⟨r, rest, v, a, b, c, d⟩ := h3.stuck 0 hk
  obtain ⟨h0, -, hnr⟩ := h3.inv.frames (.client 0) 0 (by rw [h3.client]; exact List.mem_cons_self ..)
  refine ⟨ls, s, es, h1, h2, h0, ?_, fun ls' s' es' h4 h5 => stuck_run h3.starved h3.inv h4 h5 hnr hu hd⟩
  intro hq
  have := h3.inv.queue v (h3.inv.known r v c) d
  rw [hq] at this; cases this

/-- What has happened in a run. -/
theorem of_events {st : St → Label → Option (St × List Event)} {i : St} {ls : List Label} {es : List Event} (h : (run st i ls).map Prod.snd = some es) :
    ∃ s, run st i ls = some (s, es) := by
  cases hr : run st i ls with
  | none => rw [hr] at h; cases h
  | some x => rw [hr] at h; cases h; exact ⟨x.1, rfl⟩

/-- The function waits, is told of exception 7, and lets it through: `task_region` reports it three times. -/
theorem reported_thrice : ∃ ls s, run stepPlain (init (some 1)) ls = some (s,
    [.opened (.client 0) 0, .ran (.client 0) 0 0, .waiting (.client 0) 0, .began 0, .ended 0 (some (.user 7)), .waitThrew (.client 0) 0 [7],
      .left (.client 0) 0 (some (.list [.user 7])), .closed (.client 0) 0 [7, 7, 7]]) :=
  ⟨[.open (.client 0), .run (.client 0) false, .wait (.client 0), .start 0, .body (.worker 0) (some (.user 7)), .cancel (.worker 0), .ready (.worker 0),
    .go (.client 0), .leave (.client 0) (some (.list [.user 7])), .go (.client 0)], of_events (by decide +kernel)⟩

/-- Finding: when the wait at the end of `task_region` is interrupted, `task_region` throws while its task is still to come; the task is called, throws,
and the library writes to the region that is gone. -/
theorem left_behind : ∃ ls s, run step (init (some 1)) ls = some (s,
    [.opened (.client 0) 0, .ran (.client 0) 0 0, .left (.client 0) 0 none, .closedEarly (.client 0) 0, .began 0, .ended 0 (some (.user 7)), .dangling 0]) :=
  ⟨[.open (.client 0), .run (.client 0) false, .leave (.client 0) none, .interrupt (.client 0), .start 0, .body (.worker 0) (some (.user 7)),
    .cancel (.worker 0)], of_events (by decide +kernel)⟩

/-- Finding: when there is no memory for the future of a task, `run` throws, but the task is there: `task_region` does not wait for it. -/
theorem left_behind_memory : ∃ ls s, run step (init (some 1)) ls = some (s,
    [.opened (.client 0) 0, .runFailed (.client 0) 0, .left (.client 0) 0 none, .closed (.client 0) 0 [], .began 0, .ended 0 (some (.user 7)), .dangling 0]) :=
  ⟨[.open (.client 0), .runNoMemory (.client 0), .leave (.client 0) none, .go (.client 0), .start 0, .body (.worker 0) (some (.user 7)),
    .cancel (.worker 0)], of_events (by decide +kernel)⟩

/-- A task that throws `task_canceled_exception`: the region ends as if nothing had happened, but `run` refuses further tasks. -/
theorem cancellation_is_silent : ∃ ls s, run stepPlain (init none) ls = some (s,
    [.opened (.client 0) 0, .ran (.client 0) 0 0, .began 0, .ended 0 (some .canceled), .runCanceled (.client 0) 0, .left (.client 0) 0 (some .canceled),
      .closed (.client 0) 0 []]) :=
  ⟨[.open (.client 0), .run (.client 0) false, .start 5, .body (.worker 5) (some .canceled), .cancel (.worker 5), .run (.client 0) false,
    .leave (.client 0) (some .canceled), .ready (.worker 5), .go (.client 0)], of_events (by decide +kernel)⟩

/-- C60. What `task_region` throws: if `wait` has not thrown, exactly the exceptions of its function and then, in the order of `run`, those of the tasks. -/
theorem closed_exactly {limit : Option Nat} {ls : List Label} {s : St} {es : List Event} {w : Who} {r : Nat} {x : List Nat} {σ : Sys}
    (h : run stepPlain (init limit) ls = some (s, es ++ [.closed w r x])) (hσ : specState next {} es = some σ) :
    σ.done r = true ∧ (∀ v, v ∈ x ↔ v ∈ (σ.reg r).own ∨ v ∈ σ.errors r) ∧ ((σ.reg r).threw = false → x = (σ.reg r).own ++ σ.errors r) := by
  have ha := conforms_partial h
  have hn := ha.next_of_specState hσ
  simp only [next] at hn
  split at hn
  · rename_i hc
    obtain ⟨-, -, hd, hs⟩ := hc
    refine ⟨hd, ?_, ?_⟩
    · intro v
      cases ht : (σ.reg r).threw with
      | false =>
        have hx : x = (σ.reg r).own ++ σ.errors r := by simpa [ht, same] using hs
        rw [hx, List.mem_append]
      | true =>
        simp [ht, same] at hs
        rw [← List.mem_append, List.mem_append]
        refine ⟨hs.1 v, ?_⟩
        rintro (h1 | h1)
        · exact hs.2 v (Or.inl h1)
        · exact hs.2 v (Or.inr h1)
    · intro ht; simpa [ht, same] using hs
  · exact absurd rfl hn

/-! ## The hypotheses are met -/

/-- Nested regions, two workers, exceptions of a task of a task and of the function of the outer region. -/
example : ∃ ls s, run stepPlain (init (some 2)) ls = some (s,
    [.opened (.client 0) 0, .ran (.client 0) 0 0, .ran (.client 0) 0 1, .began 0, .opened (.worker 0) 1, .ran (.worker 0) 1 2, .began 1,
      .left (.worker 0) 1 none, .ended 1 none, .began 2, .ended 2 (some (.user 4)), .closed (.worker 0) 1 [4], .ended 0 (some (.list [.user 4])),
      .left (.client 0) 0 (some (.user 9)), .closed (.client 0) 0 [9, 4]]) :=
  ⟨[.open (.client 0), .run (.client 0) false, .run (.client 0) false, .start 0, .open (.worker 0), .run (.worker 0) false, .start 1,
    .leave (.worker 0) none, .body (.worker 1) none, .start 1, .body (.worker 1) (some (.user 4)), .cancel (.worker 1), .ready (.worker 1), .go (.worker 0),
    .body (.worker 0) (some (.list [.user 4])), .leave (.client 0) (some (.user 9)), .cancel (.worker 0), .ready (.worker 0), .go (.client 0)], of_events (by decide +kernel)⟩

/-- Open regions, with a thread for every task, to which `regions_end` applies. -/
example : ∃ ls s es σ, run stepPlain (init none) ls = some (s, es) ∧ specState next {} es = some σ ∧ (σ.reg 0).phase ≠ .gone ∧ (σ.reg 1).phase ≠ .gone :=
  ⟨[.open (.client 0), .run (.client 0) false, .start 3, .open (.worker 3), .run (.worker 3) false, .wait (.worker 3)], _, _, _, rfl, rfl, by decide, by decide⟩

/-- An open region, with a pool, to which `regions_end_pool` applies. -/
example : ∃ ls s es σ, run stepPlain (init (some 1)) ls = some (s, es) ∧ (∀ l ∈ ls, opensInWorker l = false) ∧ specState next {} es = some σ ∧
    (σ.reg 0).phase ≠ .gone :=
  ⟨[.open (.client 0), .run (.client 0) false, .run (.client 0) false, .start 0, .leave (.client 0) none], _, _, _, rfl, by simp [opensInWorker], rfl, by decide⟩

/-! ## What the specification refuses -/

example : ¬ Accepts next {} [.opened (.client 0) 0, .ran (.client 0) 0 0, .left (.client 0) 0 none, .closed (.client 0) 0 []] := by decide +kernel
example : ¬ Accepts next {} [.opened (.client 0) 0, .ran (.client 0) 0 0, .began 0, .ended 0 none, .began 0] := by decide +kernel
example : ¬ Accepts next {} [.opened (.client 0) 0, .ran (.client 0) 0 0, .began 0, .ended 0 (some (.user 3)), .left (.client 0) 0 none,
    .closed (.client 0) 0 []] := by decide +kernel
example : ¬ Accepts next {} [.opened (.client 0) 0, .ran (.client 0) 0 0, .began 0, .runCanceled (.client 0) 0] := by decide +kernel
example : ¬ Accepts next {} [.opened (.client 0) 0, .left (.client 0) 0 none, .closed (.client 0) 0 [], .ran (.client 0) 0 0] := by decide +kernel

end Verif.TaskRegion
