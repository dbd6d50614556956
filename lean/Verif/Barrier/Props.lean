import Verif.Barrier.Lemmas
/-! # C21, C22: `barrier` -/

namespace Verif.Barrier

/-- **C21, C22.** For every size, number of threads, schedule, spurious wake-up, interruption and completion function: what a barrier does is
what `specNext` allows. Nobody returns before its generation is complete; the completion function is called once per generation, by
the last to arrive, after all have arrived and before any of them returns; that caller and nobody else reports `true`; the size it returns is
the size of the next generation; threads of an old generation are never counted in a later one. -/
theorem barrier_generations {size n : Nat} {f : Fct} {s₀ s : State} {ls : List Label} {es : List Event} (hM : size < 2 ^ 32)
    (h₀ : construct size f n = some s₀) (h : run step s₀ ls = some (s, es)) : Accepts specNext (Bar.new size) es :=
  simulation R (fun _ _ _ _ _ hR hs => step_follows hR hs) (R_init h₀ hM) h

/-- Two generations of a barrier of size 2, the second joined before the straggler of the first has returned. -/
example : ((construct 2 .default 3).bind fun s₀ => (run step s₀ [.arrive 0 none, .arrive 1 none, .notify 1, .arrive 1 none,
    .arrive 2 none, .resume 0, .notify 2, .resume 1]).map (·.2)) =
    some [.arrived 0, .arrived 1, .completed 1 2, .returned 1 true, .arrived 1, .arrived 2, .completed 2 2, .returned 0 false,
      .returned 2 true, .returned 1 false] := by decide

/-- A zero count is rejected by every constructor. -/
theorem zero_count_rejected (f : Fct) (n : Nat) : construct 0 f n = none := rfl

def trues (es : List Event) : Nat :=
  es.countP fun e => match e with
    | .returned _ true => true
    | _ => false

def completions (es : List Event) : Nat :=
  es.countP fun e => match e with
    | .completed _ _ => true
    | _ => false

theorem spec_elected {b b' : Bar} {es : List Event} (h : specState specNext b es = some b') :
    trues es + b'.elected.length = completions es + b.elected.length := by
  induction es generalizing b with
  | nil => simp only [specState, Option.some.injEq] at h; subst h; rfl
  | cons e es ih =>
    simp only [specState] at h
    cases hn : specNext b e with
    | undefined => simp [hn] at h
    | illegal => simp [hn] at h
    | ok b₁ =>
      simp only [hn] at h
      have := ih h
      have e1 : trues (e :: es) = trues es + trues [e] := by
        simp only [trues, List.countP_cons, List.countP_nil]; omega
      have e2 : completions (e :: es) = completions es + completions [e] := by
        simp only [completions, List.countP_cons, List.countP_nil]; omega
      have e3 : trues [e] + b₁.elected.length = completions [e] + b.elected.length := by
        cases e with
        | arrived t =>
          simp only [specNext] at hn
          (repeat' split at hn) <;> simp at hn <;> subst hn <;> simp [trues, completions]
        | completed t m =>
          simp only [specNext] at hn
          (repeat' split at hn) <;> simp at hn <;> subst hn <;> simp [trues, completions]; omega
        | threw t =>
          simp only [specNext] at hn
          (repeat' split at hn) <;> simp at hn <;> subst hn <;> simp [trues, completions]
        | interrupted t =>
          simp only [specNext] at hn
          (repeat' split at hn) <;> simp at hn <;> subst hn <;> simp [trues, completions]
        | returned t c =>
          cases c with
          | true =>
            simp only [specNext] at hn
            split at hn <;> simp at hn
            next hm =>
            subst hn
            have := List.length_pos_of_mem hm
            simp [trues, completions, List.length_erase_of_mem hm]; omega
          | false =>
            simp only [specNext] at hn
            split at hn <;> simp at hn
            subst hn; simp [trues, completions]
      omega

/-- **C21**, in words: no more calls report `true` than generations were completed, and exactly as many once no thread is inside `wait()`. -/
theorem one_true_per_generation {size n : Nat} {f : Fct} {s₀ s : State} {ls : List Label} {es : List Event} {b : Bar} (hM : size < 2 ^ 32)
    (h₀ : construct size f n = some s₀) (h : run step s₀ ls = some (s, es)) (hb : specState specNext (Bar.new size) es = some b) :
    trues es ≤ completions es ∧ ((∀ p ∈ s.ts, p = .idle) → trues es = completions es) := by
  have hR := simulation_state R (fun _ _ _ _ _ hR hs => step_follows hR hs) (R_init h₀ hM) h hb
  have h1 := spec_elected hb
  simp only [Bar.new, List.length_nil, Nat.add_zero] at h1
  refine ⟨by omega, fun hq => ?_⟩
  have : b.elected = [] := by
    cases he : b.elected with
    | nil => rfl
    | cons t l =>
      have hm : t ∈ b.elected := by simp [he]
      have hp := List.getElem?_eq_getElem (hR.ex t hm)
      have := (hR.all t _ hp).el.mp hm
      have h2 := hq _ (List.mem_of_getElem? hp)
      rw [this] at h2; cases h2
  simpa [this] using h1

/-- **C22.** A barrier built with a plain count, or with a completion function without result, keeps its size. -/
theorem size_is_kept {size n : Nat} {f : Fct} (hf : f ≠ .sized) {s₀ s : State} {ls : List Label} {es : List Event}
    (h₀ : construct size f n = some s₀) (h : run step s₀ ls = some (s, es)) {t m : Nat} (he : Event.completed t m ∈ es) : m = size := by
  have h1 : s₀.fct = f ∧ s₀.size = size := by simp only [construct] at h₀; split at h₀ <;> cases h₀; exact ⟨rfl, rfl⟩
  have := run_inv_hist (fun s h => s.fct = f ∧ s.size = size ∧ ∀ t m, Event.completed t m ∈ h → m = size) (hist := [])
    (fun s l s' h es hi hs => ?_) ⟨h1.1, h1.2, by simp⟩ h
  · exact this.2.2 t m (by simpa using he)
  · obtain ⟨i1, i2, i3⟩ := hi
    have key : s'.fct = s.fct ∧ s'.size = s.size ∧ ∀ t m, Event.completed t m ∈ es → m = size := by
      cases l with
      | arrive u user =>
        simp only [step] at hs
        split at hs
        · split at hs
          · split at hs
            · next m hm =>
              split at hs <;> cases hs
              refine ⟨rfl, rfl, ?_⟩
              simp only [List.mem_cons, reduceCtorEq, false_or, List.not_mem_nil, or_false]
              rintro t m' ⟨⟩
              rw [i1, i2] at hm
              cases f with
              | default => simp [Fct.apply] at hm; exact hm.symm
              | void => cases user <;> simp [Fct.apply] at hm; exact hm.symm
              | sized => exact absurd rfl hf
            · cases hs; simp
          · cases hs; simp
        · cases hs
      | _ => simp only [step] at hs; (repeat' split at hs) <;> cases hs <;> simp
    refine ⟨key.1.trans i1, key.2.1.trans i2, fun t m hm => ?_⟩
    rcases List.mem_append.mp hm with hm | hm
    · exact i3 t m hm
    · exact key.2.2 t m hm

/-- **C21, C22 (release).** While completion functions do not throw and fewer than `2^32` generations have ended: every thread whose
generation is complete gets back from `wait()` by steps of the library alone, whatever other threads do in later generations.
The full statement has neither restriction; see `throwing_completion_strands_waiters` and `straggler_misses_generation`. -/
theorem complete_generation_is_released_partial {size n : Nat} {f : Fct} {s₀ s : State} {ls : List Label} {es : List Event} {b : Bar}
    (hM : size < 2 ^ 32) (h₀ : construct size f n = some s₀) (h : run step s₀ ls = some (s, es))
    (hb : specState specNext (Bar.new size) es = some b) (hg : generations es < 2 ^ 32) (hbr : b.broken = false) {t : Nat}
    {p : PC} (ht : s.ts[t]? = some p) (hrel : t ∈ b.released) :
    ∃ ls' s' es', (∀ l ∈ ls', l.isInternal = true) ∧ run step s ls' = some (s', es') ∧ Event.returned t false ∈ es' := by
  have h1 : Inv size s₀ [] := by
    intro b hb
    simp only [specState, Option.some.injEq] at hb
    subst hb
    refine ⟨R_init h₀ hM, fun _ => ⟨?_, ?_, by simp [Bar.new]⟩⟩
    · simp only [construct] at h₀; split at h₀ <;> cases h₀; rfl
    · intro u q g hq hg
      simp only [construct] at h₀
      split at h₀ <;> cases h₀
      have := List.eq_of_mem_replicate (List.mem_of_getElem? hq)
      subst this
      simp [PC.gen?] at hg
  obtain ⟨hR, hL⟩ := run_inv_hist (Inv size) (inv_step size) h1 h b (by simpa using hb)
  have hL := hL hg
  simp only [List.nil_append] at hL
  have hw := (hR.all t p ht).wa.mp (Or.inr hrel)
  have back : ∀ (s : State) (g : Nat), s.ts[t]? = some (.woken g) → g ≠ s.gen →
      run step s [.resume t] = some ({ s with ts := s.ts.set t .idle }, [.returned t false]) := by
    intro s g hs hne; simp [run, step, hs, hne]
  cases p with
  | idle => simp [PC.gen?] at hw
  | notifying => simp [PC.gen?] at hw
  | woken g =>
    have := (hL.le t _ g ht rfl).2 hrel
    exact ⟨_, _, _, by simp [Label.isInternal], back s g ht (by rw [hL.gen]; omega), by simp⟩
  | asleep g =>
    have hlt := (hL.le t _ g ht rfl).2 hrel
    obtain ⟨u, q, hu, hq⟩ := exists_of_cnt_pos (hL.wake hbr ⟨t, g, ht, hrel⟩)
    cases q <;> simp [PC.isNotifying] at hq
    have hne : u ≠ t := by rintro rfl; rw [ht] at hu; cases hu
    have h2 : run step s [.notify u] = some ({ s with ts := (s.ts.map PC.wake).set u .idle }, [.returned u true]) := by
      simp [run, step, hu]
    have h3 := back { s with ts := (s.ts.map PC.wake).set u .idle } g
      (by simp [List.getElem?_set_ne hne, ht, PC.wake]) (by simp only; rw [hL.gen]; omega)
    exact ⟨[.notify u, .resume t], _, _, by simp [Label.isInternal], run_append h2 h3, by simp⟩

/-- The hypotheses are met: thread 0 sleeps, its generation is complete. -/
example : ∃ s₀ s es b, construct 2 .default 2 = some s₀ ∧ run step s₀ [.arrive 0 none, .arrive 1 none] = some (s, es) ∧
    specState specNext (Bar.new 2) es = some b ∧ generations es < 2 ^ 32 ∧ b.broken = false ∧ s.ts[0]? = some (.asleep 0) ∧ 0 ∈ b.released :=
  ⟨_, _, _, _, rfl, rfl, rfl, by decide, rfl, rfl, by decide⟩

/-- **C22 is false when the completion function throws:** the generation is over (the count has been reached, the specification releases
thread 0), but nobody notifies thread 0 and no step of the library will wake it. -/
theorem throwing_completion_strands_waiters : ∃ s₀ s es b, construct 2 .void 2 = some s₀ ∧
    run step s₀ [.arrive 0 none, .arrive 1 none] = some (s, es) ∧ specState specNext (Bar.new 2) es = some b ∧
    0 ∈ b.released ∧ s.ts[0]? = some (.asleep 0) ∧ ∀ l, l.isInternal = true → step s l = none := by
  refine ⟨_, _, _, _, rfl, rfl, rfl, by decide, rfl, ?_⟩
  intro l hl
  cases l with
  | notify t =>
    match t with
    | 0 => rfl
    | 1 => rfl
    | t + 2 => rfl
  | resume t =>
    match t with
    | 0 => rfl
    | 1 => rfl
    | t + 2 => rfl
  | _ => cases hl

/-- One more generation, by threads 1 and 2, while thread 0 does not move. -/
def block : List Label := [.arrive 1 none, .arrive 2 none, .notify 2, .resume 1]

def rounds : Nat → List Label
  | 0 => [.arrive 0 none, .arrive 1 none, .notify 1]
  | m + 1 => rounds m ++ block

theorem rounds_run (m : Nat) (hm : m + 1 < M) :
    ∃ es, run step ⟨2, 0, .default, 2, [.idle, .idle, .idle]⟩ (rounds m) = some (⟨2, m + 1, .default, 2, [.woken 0, .idle, .idle]⟩, es) ∧
      specState specNext (Bar.new 2) es = some ⟨2, 0, [], [0], [], false⟩ := by
  induction m with
  | zero => exact ⟨_, rfl, rfl⟩
  | succ m ih =>
    obtain ⟨es, h1, h3⟩ := ih (by omega)
    have hb : run step ⟨2, m + 1, .default, 2, [.woken 0, .idle, .idle]⟩ block =
        some (⟨2, m + 2, .default, 2, [.woken 0, .idle, .idle]⟩,
          [.arrived 1, .arrived 2, .completed 2 2, .returned 2 true, .returned 1 false]) := by
      have e : inc (m + 1) = m + 2 := by simp only [inc]; rw [if_neg (by omega)]
      simp [run, block, step, dec, Fct.apply, PC.wake, e, M]
    refine ⟨es ++ [.arrived 1, .arrived 2, .completed 2 2, .returned 2 true, .returned 1 false], run_append h1 hb, ?_⟩
    rw [specState_append, h3]; rfl

/-- **C21 is false over `2^32` generations:** the generation counter wraps, and a straggler of a generation completed exactly `2^32`
generations ago goes back to sleep as if it had just arrived. -/
theorem straggler_misses_generation : ∃ ls s₀ s s' es b, construct 2 .default 3 = some s₀ ∧ run step s₀ ls = some (s, es) ∧
    specState specNext (Bar.new 2) es = some b ∧ 0 ∈ b.released ∧ step s (.resume 0) = some (s', []) ∧ s'.ts[0]? = some (.asleep 0) := by
  have hm : ∃ m, m + 2 = M := ⟨4294967294, rfl⟩
  obtain ⟨m, hm⟩ := hm
  obtain ⟨es, h1, h3⟩ := rounds_run m (by omega)
  have hb : run step ⟨2, m + 1, .default, 2, [.woken 0, .idle, .idle]⟩ block =
      some (⟨2, 0, .default, 2, [.woken 0, .idle, .idle]⟩,
        [.arrived 1, .arrived 2, .completed 2 2, .returned 2 true, .returned 1 false]) := by
    have e : inc (m + 1) = 0 := by simp only [inc]; rw [if_pos (by omega)]
    have h1 : ¬ (0 = m + 1) := by omega
    simp [run, block, step, dec, Fct.apply, PC.wake, e, M]
  refine ⟨_, _, _, _, _, ⟨2, 0, [], [0], [], false⟩, rfl, run_append h1 hb, ?_, by decide, rfl, rfl⟩
  rw [specState_append, h3]; rfl

/-- **C22.** The size that a completion function with a result returns is the size of the next generation: the function called by the last arrival of a run returned exactly what the barrier takes over. -/
theorem size_from_function {size n : Nat} {s₀ s : State} {ls : List Label} {es : List Event} (h₀ : construct size .sized n = some s₀) (h : run step s₀ ls = some (s, es))
    {t m : Nat} {user : Option Nat} {s' : State} {es' : List Event} (hs : step s (.arrive t user) = some (s', es')) (he : Event.completed t m ∈ es') : user = some m := by
  have h1 : s₀.fct = .sized := by simp only [construct] at h₀; split at h₀ <;> cases h₀; rfl
  have hf : s.fct = .sized := by
    refine run_inv (fun s => s.fct = .sized) (fun s l s' es hi hs => ?_) h1 h
    cases l <;> simp only [step] at hs <;> (repeat' split at hs) <;> cases hs <;> exact hi
  simp only [step] at hs
  split at hs
  · split at hs
    · split at hs
      · next m' hm =>
        split at hs <;> cases hs
        simp only [List.mem_cons, reduceCtorEq, false_or, List.not_mem_nil, or_false, Event.completed.injEq, true_and] at he
        subst he
        simpa [hf, Fct.apply] using hm
      · cases hs; simp at he
    · cases hs; simp at he
  · cases hs

/-- A generation of two is followed by one of three. -/
example : ((construct 2 .sized 3).bind fun s₀ => (run step s₀ [.arrive 0 none, .arrive 1 (some 3), .notify 1, .resume 0, .arrive 0 none, .arrive 1 none, .arrive 2 (some 1)]).map (·.2)) =
    some [.arrived 0, .arrived 1, .completed 1 3, .returned 1 true, .returned 0 false, .arrived 0, .arrived 1, .arrived 2, .completed 2 1] := by decide

def arrivals (es : List Event) : Nat :=
  es.countP fun e => match e with
    | .arrived _ => true
    | _ => false

/-- **What a barrier is after its completion function has thrown:** stuck. The exception leaves a count of zero, so that the next generation would need `2^32` arrivals; before that many no generation ends, whatever the
threads do. -/
theorem stuck_after_throw {s s₁ s₂ : State} {t : Nat} {user : Option Nat} {es : List Event} (hth : step s (.arrive t user) = some (s₁, [.arrived t, .threw t])) {ls : List Label}
    (h : run step s₁ ls = some (s₂, es)) (hn : arrivals es < 2 ^ 32) : generations es = 0 := by
  have h1 : s₁.count = 0 := by
    simp only [step] at hth
    (repeat' split at hth) <;> cases hth <;> rfl
  have key := run_inv_hist (fun s h => arrivals h < M → s.count = (if arrivals h = 0 then 0 else M - arrivals h) ∧ generations h = 0) (hist := [])
    (fun s l s' h es hi hs => ?_) (fun _ => ⟨by simp [arrivals, h1], rfl⟩) h
  · exact (key (by simpa [M] using hn)).2
  · intro hlt
    have hsum : arrivals (h ++ es) = arrivals h + arrivals es := by simp [arrivals, List.countP_append]
    have hgen : generations (h ++ es) = generations h + generations es := by simp [generations, List.countP_append]
    obtain ⟨i1, i2⟩ := hi (by omega)
    rw [hgen, i2, hsum]
    rw [hsum] at hlt
    cases l with
    | arrive u user =>
      have ha : arrivals es = 1 := by
        simp only [step] at hs
        (repeat' split at hs) <;> cases hs <;> rfl
      have hd : dec s.count ≠ 0 ∧ dec s.count = M - (arrivals h + 1) := by
        rw [i1]; unfold dec; rw [ha] at hlt; simp only [M] at *
        split <;> (repeat' split) <;> omega
      simp only [step] at hs
      split at hs
      · rw [if_neg hd.1] at hs
        cases hs
        refine ⟨?_, rfl⟩
        simp only [ha]
        rw [if_neg (by omega)]
        exact hd.2
      · cases hs
    | _ =>
      have hx : s'.count = s.count ∧ arrivals es = 0 ∧ generations es = 0 := by
        simp only [step] at hs
        (repeat' split at hs) <;> cases hs <;> exact ⟨rfl, rfl, rfl⟩
      rw [hx.1, hx.2.1, hx.2.2, i1]
      simp

/-- The completion function of a barrier for two throws; afterwards two, and three, threads wait without end. -/
example : ((construct 2 .void 3).bind fun s₀ => (run step s₀ [.arrive 0 none, .arrive 1 none, .interrupt 0, .arrive 0 (some 0), .arrive 1 (some 0), .arrive 2 (some 0)]).map (·.2)) =
    some [.arrived 0, .arrived 1, .threw 1, .interrupted 0, .arrived 0, .arrived 1, .arrived 2] := by decide

end Verif.Barrier
