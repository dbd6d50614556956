import Verif.Latch.Lemmas
import Verif.Latch.Returns
/-! # Property C23: latch -/

namespace Verif.Latch

/-- **C23.** Whatever the threads do, short of `reset(0)`: a waiter passes only if the count has been zero since it began to wait, a timed
waiter reports a time-out only if it has not, `try_wait` and `try_count_down` report the count exactly.
The full statement includes `reset(0)`; see `reset_to_zero_strands_waiter`. -/
theorem latch_correct_partial {count n : Nat} {s : State} {ls : List Label} {es : List Event}
    (hl : ∀ l ∈ ls, l.isResetToZero = false) (h : run step (init count n) ls = some (s, es)) : Accepts specNext (L.new count) es :=
  simulation_on (fun l : Label => l.isResetToZero = false) R (fun _ _ _ _ _ hl hR hs => step_follows hl hR hs) hl (R_init count n) h

/-- A run with waiting, a time-out, counting down and passing. -/
example : ∃ s, run step (init 2 4) [.wait 0 false, .wait 1 true, .timeout 1, .resume 1, .countDown 2, .countDownAndWait 3, .resume 0,
    .tryWait 1, .tryCountDown 1, .wait 1 false, .reset 0 1, .tryWait 2] =
    some (s, [.began 0, .began 1, .timedOut 1, .counted 2, .countedAndWaits 3, .passed 3, .passed 0, .tryWaited 1 true,
      .tryCounted 1 true, .began 1, .passed 1, .reset 0 1, .tryWaited 2 false]) := ⟨_, rfl⟩

/-- How often `es` counts down. -/
def countsDown : List Event → Nat
  | [] => 0
  | .counted _ :: es => countsDown es + 1
  | .countedAndWaits _ :: es => countsDown es + 1
  | .tryCounted _ _ :: es => countsDown es + 1
  | _ :: es => countsDown es

/-- A latch is not reset in `es`. -/
def noReset : List Event → Bool
  | [] => true
  | .reset _ _ :: _ => false
  | _ :: es => noReset es

theorem spec_count {q q' : L} {es : List Event} (hr : noReset es = true) (h : specState specNext q es = some q') :
    q'.count = q.count - countsDown es ∧ (0 < q'.count → q'.released.length ≤ q.released.length) ∧
      (0 < q'.count → ∀ t, t ∈ q'.released → t ∈ q.released) := by
  induction es generalizing q with
  | nil => simp only [specState, Option.some.injEq] at h; subst h; simp [countsDown]
  | cons e es ih =>
    simp only [specState] at h
    cases hn : specNext q e with
    | undefined => simp [hn] at h
    | illegal => simp [hn] at h
    | ok m =>
      simp only [hn] at h
      have hr' : noReset es = true := by cases e <;> simp_all [noReset]
      obtain ⟨i1, i2, i3⟩ := ih hr' h
      have hset : ∀ (q : L) (k : Nat), (q.set k).count = k := by intro q k; simp only [L.set]; split <;> simp_all
      have hset2 : ∀ (q : L) (k : Nat), k ≠ 0 → (q.set k).released = q.released := by intro q k hk; simp [L.set, hk]
      cases e with
      | began t =>
        simp only [specNext, Verdict.ok.injEq] at hn
        subst hn
        simp only [L.enter] at i1 i2 i3
        split at i1
        · next h0 =>
          simp only [countsDown]; simp only at i1
          exact ⟨i1, fun h => by omega, fun h => by omega⟩
        · next h0 =>
          simp only [if_neg h0] at i2 i3
          exact ⟨i1, i2, i3⟩
      | counted t =>
        simp only [specNext] at hn
        split at hn <;> cases hn
        rw [hset] at i1
        refine ⟨by simp only [countsDown]; omega, fun h => ?_, fun h => ?_⟩
        · have := i2 h; rwa [hset2 _ _ (by omega)] at this
        · have := i3 h; rwa [hset2 _ _ (by omega)] at this
      | countedAndWaits t =>
        simp only [specNext] at hn
        split at hn <;> cases hn
        rw [hset] at i1
        refine ⟨by simp only [countsDown]; omega, fun h => ?_, fun h => ?_⟩
        · have := i2 h; rwa [hset2 _ _ (by omega)] at this
        · have := i3 h; rwa [hset2 _ _ (by omega)] at this
      | tryCounted t b =>
        simp only [specNext] at hn
        split at hn
        · cases hn
          split at i1
          · next h0 =>
            simp only [if_pos h0] at i2 i3
            exact ⟨by simp only [countsDown]; omega, i2, i3⟩
          · next h0 =>
            simp only [if_neg h0] at i2 i3
            rw [hset] at i1
            refine ⟨by simp only [countsDown]; omega, fun h => ?_, fun h => ?_⟩
            · have := i2 h; rwa [hset2 _ _ (by omega)] at this
            · have := i3 h; rwa [hset2 _ _ (by omega)] at this
        · cases hn
      | tryWaited t b => simp only [specNext] at hn; split at hn <;> cases hn; exact ⟨i1, i2, i3⟩
      | passed t =>
        simp only [specNext] at hn
        split at hn <;> cases hn
        exact ⟨i1, fun h => Nat.le_trans (i2 h) (List.length_erase_le), fun h u hu => List.mem_of_mem_erase (i3 h u hu)⟩
      | timedOut t => simp only [specNext] at hn; split at hn <;> cases hn; exact ⟨i1, i2, i3⟩
      | interrupted t =>
        simp only [specNext] at hn
        split at hn <;> cases hn
        exact ⟨i1, fun h => Nat.le_trans (i2 h) (List.length_erase_le), fun h u hu => List.mem_of_mem_erase (i3 h u hu)⟩
      | reset t k => simp [noReset] at hr

/-- **C23, in words.** On a latch that is never reset nobody passes before `count` calls have counted down. -/
theorem passes_only_after_count {count n : Nat} {s : State} {ls : List Label} {es es' : List Event} {t : Nat}
    (hl : ∀ l ∈ ls, l.isResetToZero = false) (h : run step (init count n) ls = some (s, es ++ .passed t :: es'))
    (hc : ClientOk specNext (L.new count) es) (hr : noReset es = true) : count ≤ countsDown es := by
  have ha := latch_correct_partial hl h
  obtain ⟨q, hq⟩ := ha.prefix.specState_isSome hc
  have h1 := ha.next_of_specState hq
  obtain ⟨c1, -, c3⟩ := spec_count hr hq
  have h2 : t ∈ q.released := by
    simp only [specNext] at h1
    split at h1
    · next h => exact h
    · exact absurd rfl h1
  simp only [L.new] at c1 c3
  by_cases h0 : 0 < q.count
  · exact absurd (c3 h0 t h2) (by simp)
  · omega

example : ∃ s, run step (init 1 2) [.wait 0 false, .countDown 1, .resume 0] = some (s, [.began 0, .counted 1] ++ .passed 0 :: []) ∧
    ClientOk specNext (L.new 1) [.began 0, .counted 1] ∧ noReset [.began 0, .counted 1] = true := ⟨_, rfl, by decide, rfl⟩

/-- **C23 (release).** Once the count has been zero during a thread's wait, that wait passes by a single step of the thread itself: it is
not asleep, whatever has happened to the latch since. -/
theorem released_passes_partial {count n : Nat} {s : State} {ls : List Label} {es : List Event} {q : L} {t : Nat} {p : PC}
    (hl : ∀ l ∈ ls, l.isResetToZero = false) (h : run step (init count n) ls = some (s, es))
    (hq : specState specNext (L.new count) es = some q) (ht : s.ts[t]? = some p) (hm : t ∈ q.released) :
    (∃ k g, p = .inside k .woken g ∨ p = .inside k .expired g) ∧ ∃ s', step s (.resume t) = some (s', [.passed t]) := by
  have hR := simulation_state_on (fun l : Label => l.isResetToZero = false) R (fun _ _ _ _ _ hl hR hs => step_follows hl hR hs)
    hl (R_init count n) h hq
  have o := hR.all t p ht
  have hw : t ∉ q.waiting := fun h => (List.nodup_append.mp hR.nd).2.2 t h t hm rfl
  cases p with
  | idle => exact absurd (o.idle.mp (Or.inr hm)) (by simp)
  | inside k m g =>
    have o2 := o.wa k m g rfl
    have hg : g ≠ s.generation := fun h => hw (o2.1.mpr h)
    cases m with
    | asleep => exact absurd (o2.2.2 rfl) hg
    | woken => exact ⟨⟨k, g, Or.inl rfl⟩, _, by simp only [step, ht]; rw [if_pos hg]⟩
    | expired => exact ⟨⟨k, g, Or.inr rfl⟩, _, by simp only [step, ht]; rw [if_pos hg]⟩

/-- The hypotheses are met, with the latch already in use again. -/
example : ∃ s q, run step (init 1 3) [.wait 0 false, .countDown 1, .reset 1 5] = some (s, [.began 0, .counted 1, .reset 1 5]) ∧
    specState specNext (L.new 1) [.began 0, .counted 1, .reset 1 5] = some q ∧ s.ts[0]? = some (.inside false .woken 0) ∧ 0 ∈ q.released ∧
    q.count = 5 := ⟨_, _, rfl, rfl, rfl, by decide, rfl⟩

/-- **C23.** A wait that begins at zero passes at once. -/
theorem wait_at_zero_passes {s : State} {t : Nat} {timed : Bool} (ht : s.ts[t]? = some .idle) (h0 : s.count = 0) :
    step s (.wait t timed) = some (s, [.began t, .passed t]) := by
  simp [step, ht, h0]

/-- **C23 is false for `reset(0)`:** the count is zero, the specification has released thread 0, but it sleeps and evaluates a predicate that
is still false, even when woken spuriously. -/
theorem reset_to_zero_strands_waiter : ∃ s q, run step (init 1 2) [.wait 0 false, .reset 1 0] = some (s, [.began 0, .reset 1 0]) ∧
    specState specNext (L.new 1) [.began 0, .reset 1 0] = some q ∧ 0 ∈ q.released ∧ s.ts[0]? = some (.inside false .asleep 0) ∧
    step s (.resume 0) = none ∧ (∃ s', run step s [.spurious 0, .resume 0] = some (s', []) ∧ s' = s) ∧
    (∃ s', run step s [.wait 1 false] = some (s', [.began 1, .passed 1])) :=
  ⟨_, _, rfl, rfl, by decide, rfl, rfl, ⟨_, rfl, rfl⟩, ⟨_, rfl⟩⟩

/-- ... and a timed wait reports a time-out although the count is zero. -/
theorem reset_to_zero_times_out : ∃ s, run step (init 1 2) [.wait 0 true, .reset 1 0, .tryWait 1, .timeout 0, .resume 0] =
    some (s, [.began 0, .reset 1 0, .tryWaited 1 true, .timedOut 0]) ∧
    ¬ Accepts specNext (L.new 1) [.began 0, .reset 1 0, .tryWaited 1 true, .timedOut 0] :=
  ⟨_, rfl, by decide⟩

end Verif.Latch
