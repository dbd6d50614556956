import Verif.CompletionLatch.Lemmas
/-! # Property C24: completion_latch -/

namespace Verif.CompletionLatch

/-- **C24 (safety).** Without interruptions: the thread that counts to zero, and only it, calls the completion function, once, and the function is the
one last installed; a wait succeeds only while the count is zero.
Missing from the full statement: interruptions (`interrupted_waiter_blocks_arrival`), and everything about not blocking, see below. -/
theorem completion_latch_partial {count f n : Nat} {s : State} {ls : List Label} {es : List Event}
    (hl : ∀ l ∈ ls, l.isInterrupt = false) (h : run step (init count f n) ls = some (s, es)) : Accepts specNext (L.new count f) es :=
  simulation_on (fun l : Label => l.isInterrupt = false) R (fun _ _ _ _ _ hl hR hs => step_follows hl hR hs) hl (R_init count f n) h

/-- Two cycles: a waiter, two arrivals, the completion function, a reset and a new function, a late waiter released by the second cycle. -/
example : ∃ s, run step (init 2 7 4) [.wait 0 .wait, .countDown 1 false, .countDown 2 false, .resume 0, .resume 2, .complete 2,
    .wait 3 .try_, .reset 0 1, .then_ 0 8, .countDown 1 false, .resume 3, .resume 1, .complete 1] =
    some (s, [.counted 1, .counted 2, .passed 0, .completion 2 7, .reset 0 1, .then_ 0 8 7, .counted 1, .passed 3, .completion 1 8]) :=
  ⟨_, rfl⟩

/-- How often the count reached zero by counting, and how often the completion function was called. -/
def completions : List Event → Nat
  | [] => 0
  | .completion _ _ :: es => completions es + 1
  | _ :: es => completions es

/-- How often `es` counts a latch with count `c` down to zero. -/
def crossings : Nat → List Event → Nat
  | _, [] => 0
  | c, .counted _ :: es => (if c = 1 then 1 else 0) + crossings (c - 1) es
  | _, .reset _ n :: es => crossings n es
  | c, _ :: es => crossings c es

theorem spec_completions {q q' : L} {es : List Event} (h : specState specNext q es = some q') (hz : q.arriver ≠ none → q.count = 0) :
    (q'.arriver ≠ none → q'.count = 0) ∧
    completions es + (if q'.arriver = none then 0 else 1) = crossings q.count es + (if q.arriver = none then 0 else 1) := by
  induction es generalizing q with
  | nil => simp only [specState, Option.some.injEq] at h; subst h; exact ⟨hz, by simp [completions, crossings]⟩
  | cons e es ih =>
    simp only [specState] at h
    cases hn : specNext q e with
    | undefined => simp [hn] at h
    | illegal => simp [hn] at h
    | ok m =>
      simp only [hn] at h
      have ih := fun hz => ih (q := m) h hz
      cases e with
      | counted t =>
        simp only [specNext] at hn
        split at hn <;> cases hn
        next h0 =>
        have hno : q.arriver = none := by
          cases ha : q.arriver with
          | none => rfl
          | some u => exact absurd (hz (by simp [ha])) h0
        by_cases h1 : q.count = 1
        · have := ih (by simp [h1])
          simp only [h1, hno, if_true, Nat.sub_self, reduceCtorEq, if_false] at this
          refine ⟨this.1, ?_⟩
          simp only [completions, crossings, h1, hno, if_true]
          rw [this.2]; simp; omega
        · have := ih (by simp [h1, hno])
          simp only [h1, hno, if_true, if_false] at this
          refine ⟨this.1, ?_⟩
          simp only [completions, crossings, h1, hno, if_true, if_false]
          rw [this.2]; omega
      | completion t f =>
        simp only [specNext] at hn
        split at hn <;> cases hn
        next ha =>
        have := ih (by simp)
        simp only [if_true] at this
        refine ⟨this.1, ?_⟩
        simp only [completions, crossings, ha.1, reduceCtorEq, if_false]
        omega
      | passed t => simp only [specNext] at hn; split at hn <;> cases hn; exact ih hz
      | failed t => simp only [specNext] at hn; split at hn <;> cases hn; exact ih hz
      | interrupted t => simp only [specNext] at hn; cases hn; exact ih hz
      | reset t n =>
        simp only [specNext] at hn
        split at hn <;> cases hn
        next ha =>
        have := ih (by simp [ha])
        simpa [completions, crossings] using this
      | then_ t f old =>
        simp only [specNext] at hn
        split at hn
        · next ha => split at hn <;> cases hn; exact ih hz
        · cases hn

/-- **C24, in words.** As many calls of the completion function as times the count reached zero, less the one that may be under way. -/
theorem completion_once_per_cycle_partial {count f n : Nat} {s : State} {ls : List Label} {es : List Event} {q : L}
    (hl : ∀ l ∈ ls, l.isInterrupt = false) (h : run step (init count f n) ls = some (s, es))
    (hq : specState specNext (L.new count f) es = some q) :
    completions es + (if q.arriver = none then 0 else 1) = crossings count es ∧
    (q.arriver = none ↔ ∀ p ∈ s.ts, p.isArr = false) := by
  have hR := simulation_state_on (fun l : Label => l.isInterrupt = false) R (fun _ _ _ _ _ hl hR hs => step_follows hl hR hs) hl
    (R_init count f n) h hq
  refine ⟨by simpa [L.new] using (spec_completions hq (by simp [L.new])).2, ?_, ?_⟩
  · intro ha p hp
    obtain ⟨t, ht⟩ := List.getElem?_of_mem hp
    have := hR.arr t p ht
    rw [ha] at this
    simpa using this
  · intro hp
    cases ha : q.arriver with
    | none => rfl
    | some t =>
      have hlt := hR.ex t ha
      have ht := List.getElem?_eq_getElem hlt
      have h1 := (hR.arr t _ ht).mpr ha
      rw [hp _ (List.getElem_mem hlt)] at h1
      cases h1

/-- **C24 (release).** Without interruptions, when the count has reached zero: every thread that had registered as a waiter gets out, by steps of
the threads inside the latch. -/
theorem registered_waiter_released_partial {count f n : Nat} {s : State} {ls : List Label} {es : List Event} {q : L} {t u : Nat} {k : Kind} {a : Bool}
    (hl : ∀ l ∈ ls, l.isInterrupt = false) (h : run step (init count f n) ls = some (s, es))
    (hq : specState specNext (L.new count f) es = some q) (ht : s.ts[t]? = some (.w2 k a)) (hu : q.arriver = some u) (hr : s.ts[u]? ≠ some .run) :
    ∃ ls' s' es', (∀ l ∈ ls', l.isInternal = true) ∧ run step s ls' = some (s', es') ∧ .passed t ∈ es' := by
  have hR := simulation_state_on (fun l : Label => l.isInterrupt = false) R (fun _ _ _ _ _ hl hR hs => step_follows hl hR hs) hl
    (R_init count f n) h hq
  have hz := hR.arr0 (by simp [hu])
  have hlt := hR.ex u hu
  have hu' := List.getElem?_eq_getElem hlt
  have hua := (hR.arr u _ hu').mpr hu
  have hpos : 0 < s.waiters := by rw [hR.wt]; exact cnt_pos ht rfl
  have hne : u ≠ t := by
    rintro rfl; rw [ht] at hu'; rw [← Option.some.inj hu'] at hua; cases hua
  -- the waiter's own step
  have back : ∀ (s : State), s.ts[t]? = some (.w2 k false) → s.leavers ≠ 0 → s.count = 0 → ∃ s', run step s [.resume t] = some (s', [.passed t]) := by
    intro s h1 h2 h3
    exact ⟨_, by simp only [run, step, h1]; simp only [go2, if_pos h2, go3, h3, if_true, leave]; rfl⟩
  have ok := hR.ok u _ hu'
  cases hp : s.ts[u]'hlt with
  | a1 b =>
    rw [hp] at hu' ok hua
    have hb : b = false := by
      cases b with
      | false => rfl
      | true => have := ok.2 rfl; omega
    subst hb
    have hm : ((s.ts.map PC.wakeL).map PC.wakeC)[u]? = some (.a1 false) := by simp [hu', PC.wakeL, PC.wakeC]
    have h1 : run step s [.resume u] = some ({ s with leavers := s.waiters, ts := (((s.ts.map PC.wakeL).map PC.wakeC).set u (.a2 false)).set u (.a2 true) }, []) := by
      simp only [run, step, hu', goA1, ne_eq, Nat.pos_iff_ne_zero.mp hpos, not_false_eq_true, if_true, goA2, if_false]; rfl
    obtain ⟨s', h2⟩ := back { s with leavers := s.waiters, ts := (((s.ts.map PC.wakeL).map PC.wakeC).set u (.a2 false)).set u (.a2 true) }
      (by simp only [List.getElem?_set_ne hne]; simp [ht, PC.wakeL, PC.wakeC]) (by simp only; omega) hz
    exact ⟨[.resume u, .resume t], s', _, by simp [Label.isInternal], run_append h1 h2, by simp⟩
  | a2 b =>
    rw [hp] at ok
    have ha : a = false := by
      cases a with
      | false => rfl
      | true => exact absurd ((hR.ok t _ ht) rfl) ok.1
    subst ha
    obtain ⟨s', h2⟩ := back s ht ok.1 hz
    exact ⟨[.resume t], s', _, by simp [Label.isInternal], h2, by simp⟩
  | run => rw [hp] at hu'; exact absurd hu' hr
  | _ => rw [hp] at hua; cases hua

/-- The hypotheses are met. -/
example : ∃ s q, run step (init 1 7 2) [.wait 0 .wait, .countDown 1 false] = some (s, [.counted 1]) ∧
    specState specNext (L.new 1 7) [.counted 1] = some q ∧ s.ts[0]? = some (.w2 .wait false) ∧ q.arriver = some 1 ∧ s.ts[1]? ≠ some .run :=
  ⟨_, _, rfl, rfl, rfl, rfl, by decide⟩

/-- **C24.** If at least one thread has registered as a waiter, the call that counted to zero gets to call the completion function, by steps of the threads
inside the latch, after everybody registered has left. -/
theorem completion_runs_partial {count f n : Nat} {s : State} {ls : List Label} {es : List Event} {q : L} {u : Nat}
    (hl : ∀ l ∈ ls, l.isInterrupt = false) (h : run step (init count f n) ls = some (s, es))
    (hq : specState specNext (L.new count f) es = some q) (hu : q.arriver = some u) 
    (hw : s.waiters ≠ 0 ∨ ∀ b, s.ts[u]? ≠ some (.a1 b)) :
    ∃ ls' s' es', (∀ l ∈ ls', l.isInternal = true) ∧ run step s ls' = some (s', es') ∧ .completion u q.fct ∈ es' := by
  have hR := simulation_state_on (fun l : Label => l.isInterrupt = false) R (fun _ _ _ _ _ hl hR hs => step_follows hl hR hs) hl
    (R_init count f n) h hq
  clear h hq hl
  -- from line 74 on
  have last : ∀ s : State, R s q → s.ts[u]? = some .run →
      ∃ ls' s' es', (∀ l ∈ ls', l.isInternal = true) ∧ run step s ls' = some (s', es') ∧ .completion u q.fct ∈ es' := by
    intro s hR h
    exact ⟨[.complete u], { s with ts := s.ts.set u .idle }, [.completion u s.fct], by simp [Label.isInternal],
      by simp [run, step, h], by simp [hR.fct]⟩
  -- from line 72 on
  have second : ∀ (m : Nat) (s : State), R s q → s.waiters = m → (∃ b, s.ts[u]? = some (.a2 b)) →
      ∃ ls' s' es', (∀ l ∈ ls', l.isInternal = true) ∧ run step s ls' = some (s', es') ∧ .completion u q.fct ∈ es' := by
    intro m
    induction m with
    | zero =>
      intro s hR hm ⟨b, hb⟩
      have ok := hR.ok u _ hb
      have : b = false := by
        cases b with
        | false => rfl
        | true => exact absurd hm (ok.2 rfl)
      subst this
      have hs : step s (.resume u) = some (goA2 s u) := by simp only [step, hb]
      have hR' := goA2_follows hR hb
      simp only [goA2, if_pos hm] at hs hR'
      have hm' : (s.ts.map PC.wakeL)[u]? = some (.a2 false) := by simp [hb, PC.wakeL]
      obtain ⟨ls', s', es', h1, h2, h3⟩ := last _ hR' (by simp [getElem?_set_eq hm'])
      refine ⟨.resume u :: ls', s', [] ++ es', by simpa [Label.isInternal] using h1, ?_, by simpa using h3⟩
      exact run_step hs h2
    | succ m ih =>
      intro s hR hm ⟨b, hb⟩
      have ok := hR.ok u _ hb
      have hz := hR.arr0 (by simp [hu])
      have hq0 : q.count = 0 := by rw [← hR.cnt]; exact hz
      have hpos : 0 < cnt PC.isReg s.ts := by rw [← hR.wt]; omega
      obtain ⟨v, p, hv, hp⟩ := exists_of_cnt_pos hpos
      have hne : v ≠ u := by rintro rfl; rw [hb] at hv; cases hv; cases hp
      -- the waiter `v` leaves
      have key : ∃ ts', step s (.resume v) = some ({ s with waiters := s.waiters - 1, ts := ts' }, [.passed v]) ∧ ts'[u]? = some (.a2 false) := by
        cases p with
        | w2 k a =>
          have : a = false := by
            cases a with
            | false => rfl
            | true => exact absurd ((hR.ok v _ hv) rfl) ok.1
          subst this
          refine ⟨(((s.ts.set v (.w3 k false)).map PC.wakeW).set v .idle), ?_, ?_⟩
          · simp only [step, hv, go2, if_pos ok.1, go3, hz, if_true, leave]
          · simp [List.getElem?_set_ne hne, hb, PC.wakeW]
        | w3 k a =>
          have : a = false := (hR.ok v _ hv).1
          subst this
          refine ⟨((s.ts.map PC.wakeW).set v .idle), ?_, ?_⟩
          · simp only [step, hv, go3, hz, if_true, leave]
          · simp [List.getElem?_set_ne hne, hb, PC.wakeW]
        | expired =>
          refine ⟨((s.ts.map PC.wakeW).set v .idle), ?_, ?_⟩
          · simp only [step, hv, hz, if_true, leave]
          · simp [List.getElem?_set_ne hne, hb, PC.wakeW]
        | _ => cases hp
      obtain ⟨ts', hs, hts⟩ := key
      have hR' := step_follows rfl hR hs
      simp only [Follows, specNext, hq0, if_true] at hR'
      obtain ⟨ls', s', es', h1, h2, h3⟩ := ih _ hR' (by simp only; omega) ⟨false, hts⟩
      refine ⟨.resume v :: ls', s', [.passed v] ++ es', by simpa [Label.isInternal] using h1, ?_, by simp [h3]⟩
      exact run_step hs h2
  have hlt := hR.ex u hu
  have hu' := List.getElem?_eq_getElem hlt
  have hua := (hR.arr u _ hu').mpr hu
  have ok := hR.ok u _ hu'
  cases hp : s.ts[u]'hlt with
  | a1 b =>
    rw [hp] at hu' ok hua
    have hw0 : s.waiters ≠ 0 := by
      rcases hw with h | h
      · exact h
      · exact absurd hu' (h b)
    have hb : b = false := by
      cases b with
      | false => rfl
      | true => exact absurd (ok.2 rfl) hw0
    subst hb
    have hs : step s (.resume u) = some (goA1 s u) := by simp only [step, hu']
    have hR' := goA1_follows hR hu'
    have hm : ((s.ts.map PC.wakeL).map PC.wakeC)[u]? = some (.a1 false) := by simp [hu', PC.wakeL, PC.wakeC]
    have hm2 : (((s.ts.map PC.wakeL).map PC.wakeC).set u (.a2 false))[u]? = some (.a2 false) := by simp only [getElem?_set_eq hm]; simp
    simp only [goA1, if_pos hw0, goA2, if_neg hw0] at hs hR'
    obtain ⟨ls', s', es', h1, h2, h3⟩ := second _ _ hR' rfl ⟨true, by simp only [getElem?_set_eq hm2]; simp⟩
    refine ⟨.resume u :: ls', s', [] ++ es', by simpa [Label.isInternal] using h1, ?_, by simpa using h3⟩
    exact run_step hs h2
  | a2 b => rw [hp] at hu'; exact second _ s hR rfl ⟨b, hu'⟩
  | run => rw [hp] at hu'; exact last s hR hu'
  | _ => rw [hp] at hua; cases hua

/-- The hypotheses are met, with two waiters. -/
example : ∃ s q, run step (init 1 7 3) [.wait 0 .wait, .wait 2 .timed, .countDown 1 false] = some (s, [.counted 1]) ∧
    specState specNext (L.new 1 7) [.counted 1] = some q ∧ q.arriver = some 1 ∧ s.waiters ≠ 0 :=
  ⟨_, _, rfl, rfl, rfl, by decide⟩

/-! ## What is false -/

/-- No thread inside the latch can move. -/
def Stuck (s : State) : Prop := ∀ l : Label, l.isInternal = true → step s l = none

def PC.still : PC → Bool
  | .idle => true
  | .w1 _ a => a
  | .w2 _ a => a
  | .a1 a => a
  | .a2 a => a
  | _ => false

theorem stuck_of {s : State} (h : s.ts.all PC.still = true) : Stuck s := by
  intro l hl
  have key : ∀ {t : Nat} {p : PC}, s.ts[t]? = some p → p.still = true := fun ht => List.all_eq_true.mp h _ (List.mem_of_getElem? ht)
  cases l with
  | resume t => simp only [step]; split <;> first | rfl | (next ht => have := key ht; cases this)
  | complete t => simp only [step]; split <;> first | rfl | (next ht => have := key ht; cases this)
  | _ => cases hl

/-- **`try_wait` blocks:** called on a latch that has not been counted down it does not return `false`; it sleeps. -/
theorem try_wait_blocks : ∃ s, run step (init 1 7 1) [.wait 0 .try_] = some (s, []) ∧ s.ts[0]? = some (.w2 .try_ true) ∧ Stuck s :=
  ⟨_, rfl, rfl, stuck_of rfl⟩

/-- **`try_wait` never returns `false` and no timed wait ever times out**, in any run without interruptions that keeps the contract. -/
theorem no_wait_ever_fails {count f n : Nat} {s : State} {ls : List Label} {es : List Event} {t : Nat}
    (hl : ∀ l ∈ ls, l.isInterrupt = false) (h : run step (init count f n) ls = some (s, es))
    (hc : ClientOk specNext (L.new count f) es) : .failed t ∉ es := by
  obtain ⟨q, hq⟩ := (completion_latch_partial hl h).specState_isSome hc
  have hR := R_init count f n
  generalize init count f n = s₀ at h hR
  generalize L.new count f = q₀ at hq hR
  clear hc
  induction ls generalizing s₀ q₀ es with
  | nil => rw [run_nil] at h; cases h; simp
  | cons l ls ih =>
    obtain ⟨m, e1, e2, h1, h2, rfl⟩ := run_cons h
    obtain ⟨q1, hR1, hq1⟩ := (step_follows (hl l (List.mem_cons_self ..)) hR h1).specState_append hq
    have := ih (fun l hl' => hl l (List.mem_cons_of_mem _ hl')) m h2 q1 hq1 hR1
    simp only [List.mem_append, not_or]
    exact ⟨step_noFail (hl l (List.mem_cons_self ..)) hR h1 t, this⟩

/-- **A wait that comes after the count has reached zero is not released:** everybody has left, the completion function has run, the count is zero. -/
theorem late_waiter_blocks : ∃ s, run step (init 1 7 3) [.wait 0 .wait, .countDown 1 false, .resume 0, .resume 1, .complete 1, .wait 2 .wait] =
    some (s, [.counted 1, .passed 0, .completion 1 7]) ∧ s.count = 0 ∧ s.ts = [.idle, .idle, .w2 .wait true] ∧ Stuck s :=
  ⟨_, rfl, rfl, rfl, stuck_of rfl⟩

/-- **Without a waiter the completion function is not called** and the last `count_down` blocks. -/
theorem no_waiter_no_completion : ∃ s, run step (init 1 7 1) [.countDown 0 false] = some (s, [.counted 0]) ∧ s.ts = [.a1 true] ∧ Stuck s :=
  ⟨_, rfl, rfl, stuck_of rfl⟩

/-- **`count_down_and_wait` by all `count` threads works only if somebody waits before the last one;** alone it blocks. -/
theorem count_down_and_wait_alone_blocks : ∃ s, run step (init 1 7 1) [.countDown 0 true] = some (s, [.counted 0]) ∧ s.ts = [.a1 true] ∧ Stuck s :=
  ⟨_, rfl, rfl, stuck_of rfl⟩

/-- **An interrupted waiter stays counted:** the other waiter leaves, nobody waits any more, and the thread that counted to zero waits for ever; the
completion function is not called. -/
theorem interrupted_waiter_blocks_arrival : ∃ s, run step (init 1 7 3) [.wait 0 .wait, .wait 1 .wait, .interrupt 1, .countDown 2 false, .resume 0, .resume 2] =
    some (s, [.interrupted 1, .counted 2, .passed 0]) ∧ s.ts = [.idle, .idle, .a2 true] ∧ Stuck s :=
  ⟨_, rfl, rfl, stuck_of rfl⟩

end Verif.CompletionLatch
