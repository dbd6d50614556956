import Verif.OnceEpoch.Lemmas
/-! # C20: `call_once` (epoch variant) -/

namespace Verif.OnceEpoch
open Verif.Once (Event Flag specNext completions completionsOf)

/-- **C20.** The same contract as for the atomic variant, for any number of flags and threads and every schedule, as long as at most
`2^32 - 3` functions have completed in the life of the process. -/
theorem epoch_call_once_exactly_once (n k : Nat) {ls : List Label} {s : State} {es : List Event}
    (h : run step (init n) ls = some (s, es)) (hroom : completions es ≤ 2 ^ 32 - 3) : Accepts (specNext k) Flag.fresh es := by
  obtain ⟨-, q, hq, -⟩ := run_inv_hist (Inv k) (inv_step k) (inv_init k n) h (by simpa [maxEpoch] using hroom)
  simp at hq
  exact accepts_of_specState hq

theorem epoch_call_once_completes_at_most_once (n k : Nat) {ls : List Label} {s : State} {es : List Event}
    (h : run step (init n) ls = some (s, es)) (hroom : completions es ≤ 2 ^ 32 - 3) :
    completionsOf k es ≤ 1 ∧ ∀ t pre post, es = pre ++ .returned t k :: post → completionsOf k pre = 1 := by
  have ha := epoch_call_once_exactly_once n k h hroom
  have h1 := Once.completionsOf_le_one (q := Flag.fresh) (by simp [Flag.fresh]) ha
  refine ⟨by simpa [Flag.fresh] using h1, ?_⟩
  rintro t pre post rfl
  have h2 := Once.returned_after (q := Flag.fresh) (by simp [Flag.fresh]) ha rfl
  simp only [completionsOf, List.countP_append] at *
  simp [Flag.fresh] at h1
  omega

/-- Two flags, a throwing attempt, a waiting thread that takes over, and the short path through the cached epoch. -/
example : ((run step (init 2) [.call 0 7, .enter 0, .call 1 7, .enter 1, .finish 0 false, .store 0, .enter 1, .finish 1 true,
    .store 1, .call 1 7, .call 0 8, .enter 0, .finish 0 true, .store 0, .call 0 7]).map (·.2)) =
    some [.started 0 7, .finished 0 7 false, .raised 0 7, .started 1 7, .finished 1 7 true, .returned 1 7, .returned 1 7,
      .started 0 8, .finished 0 8 true, .returned 0 8, .returned 0 7] := by decide

/-- Thread `t` is inside `call_once(k, …)`, neither running a function for it nor on the way out. -/
def Waiting (s : State) (t k : Nat) : Prop :=
  ∃ x, s.ts[t]? = some x ∧ (x.pc = .missed k ∨ x.pc = .asleep k ∨ x.pc = .woken k)

/-- Some thread is executing the function of flag `k`. -/
def Executing (s : State) (k : Nat) : Prop := ∃ (t : Nat) (x : Thread), s.ts[t]? = some x ∧ k ∈ x.stack

/-- Steps inside the library: no new calls, no function ends. -/
def Label.isInternal : Label → Bool
  | .enter _ => true
  | .store _ => true
  | _ => false

theorem enter_getsIn {s : State} {t k : Nat} {x : Thread} (ht : s.ts[t]? = some x)
    (hx : x.pc = .missed k ∨ x.pc = .woken k) (hv : s.flag k ≠ 1) :
    ∃ s' es, run step s [.enter t] = some (s', es) ∧ (Event.started t k ∈ es ∨ Event.returned t k ∈ es) := by
  refine ⟨(loop s t k x).1, (loop s t k x).2, ?_, ?_⟩
  · rcases hx with hx | hx <;> simp [run, step, ht, hx]
  · simp only [loop]; split <;> simp_all

/-- **C20.** No caller is left behind: as soon as no thread is executing the function of flag `k`, every thread inside
`call_once(k, …)` gets to run the function or to return, by steps of the library alone. -/
theorem epoch_call_once_caller_gets_in (n : Nat) {ls : List Label} {s : State} {es : List Event} (t k : Nat)
    (h : run step (init n) ls = some (s, es)) (hroom : completions es ≤ 2 ^ 32 - 3) (hw : Waiting s t k) (hx : ¬ Executing s k) :
    ∃ ls' s' es', (∀ l ∈ ls', l.isInternal = true) ∧ run step s ls' = some (s', es') ∧
      (Event.started t k ∈ es' ∨ Event.returned t k ∈ es') := by
  obtain ⟨hglob, q, hq, o, r1, -, -, -, -, r5, r7⟩ :=
    run_inv_hist (Inv k) (inv_step k) (inv_init k n) h (by simpa [maxEpoch] using hroom)
  simp only [List.nil_append] at hglob
  obtain ⟨x, ht, hpc⟩ := hw
  by_cases hv : s.flag k = 1
  · obtain ⟨u, hu⟩ := Option.ne_none_iff_exists'.mp (r1.mp hv)
    obtain ⟨⟨pc, st, ep⟩, hy⟩ := r5 u hu
    have hact := (r7 u _ hy).act
    have hk : k ∉ st := fun hc => hx ⟨u, _, hy, hc⟩
    rw [List.count_eq_zero.mpr hk] at hact
    simp only [hu, decide_true, b2n_true, Nat.zero_add] at hact
    have : ∃ ok, pc = .ended k ok := by
      cases pc with
      | ended j ok =>
        simp only [PC.isEnded] at hact
        by_cases hj : j = k
        · exact ⟨ok, by rw [hj]⟩
        · simp [hj] at hact
      | _ => simp [PC.isEnded] at hact
    obtain ⟨ok, rfl⟩ := this
    have hne : u ≠ t := by rintro rfl; rw [ht] at hy; cases hy; simp at hpc
    have hwk : x.wake.pc = .missed k ∨ x.wake.pc = .woken k := by
      obtain ⟨pc, st, e⟩ := x
      rcases hpc with rfl | rfl | rfl <;> simp [Thread.wake, PC.wake]
    cases ok with
    | true =>
      have hpos := cnt_pos (f := Thread.pends) hy rfl
      have hge : 3 ≤ s.glob := by
        simp only [pend] at hglob
        simp only [maxEpoch] at hglob
        omega
      have hd : dec s.glob = s.glob - 1 := by simp only [dec]; rw [if_neg (by omega)]
      let s1 : State := { glob := dec s.glob, flag := s.setFlag k (dec s.glob), ts := (s.ts.map Thread.wake).set u ⟨.user, st, dec s.glob⟩ }
      have h1 : step s (.store u) = some (s1, [.returned u k]) := by
        simp only [step, hy, loop, State.setFlag, if_true, hd]
        rw [if_neg (by omega), if_neg (by omega)]
        simp [s1, hd]
      obtain ⟨s', es', h2, h3⟩ := enter_getsIn (s := s1) (t := t) (k := k) (x := x.wake)
        (by simp [s1, List.getElem?_set_ne hne, ht]) hwk (by simp [s1, State.setFlag]; omega)
      refine ⟨[.store u, .enter t], s', _, by simp [Label.isInternal],
        run_append (ls := [.store u]) (by simp only [run, h1]; rfl) h2, ?_⟩
      rcases h3 with h3 | h3 <;> simp [h3]
    | false =>
      let s1 : State := { s with flag := s.setFlag k 0, ts := (s.ts.map Thread.wake).set u ⟨.user, st, ep⟩ }
      have h1 : step s (.store u) = some (s1, [.raised u k]) := by simp [step, hy, s1]
      obtain ⟨s', es', h2, h3⟩ := enter_getsIn (s := s1) (t := t) (k := k) (x := x.wake)
        (by simp [s1, List.getElem?_set_ne hne, ht]) hwk (by simp [s1, State.setFlag])
      refine ⟨[.store u, .enter t], s', _, by simp [Label.isInternal],
        run_append (ls := [.store u]) (by simp only [run, h1]; rfl) h2, ?_⟩
      rcases h3 with h3 | h3 <;> simp [h3]
  · have ha : x.pc ≠ .asleep k := fun hc => hv ((r7 t x ht).wake hc)
    obtain ⟨s', es', h2, h3⟩ := enter_getsIn ht (by rcases hpc with h | h | h <;> simp_all) hv
    exact ⟨_, s', es', by simp [Label.isInternal], h2, h3⟩

/-- The hypotheses are met: thread 1 sleeps, the function of thread 0 has just thrown. -/
example : ∃ s es, run step (init 2) [.call 0 7, .enter 0, .call 1 7, .enter 1, .finish 0 false] = some (s, es) ∧
    Waiting s 1 7 ∧ ¬ Executing s 7 ∧ completions es ≤ 2 ^ 32 - 3 := by
  refine ⟨_, _, rfl, ⟨_, rfl, Or.inr (Or.inl rfl)⟩, ?_, by decide⟩
  rintro ⟨t, x, hx, hk⟩
  match t with
  | 0 => cases hx; cases hk
  | 1 => cases hx; cases hk
  | t + 2 => cases hx

/-! ## The bound is sharp: what happens when the counter runs out -/

/-- Thread `t` calls `call_once` for the fresh flag `k`, whose function completes. -/
def block (t k : Nat) : List Label := [.call t k, .enter t, .finish t true, .store t]

def sched : Nat → List Label
  | 0 => []
  | m + 1 => sched m ++ block 0 m

theorem sched_run (m : Nat) (hm : m ≤ 2 ^ 32 - 3) :
    ∃ s es, run step (init 2) (sched m) = some (s, es) ∧ s.glob = maxEpoch - m ∧ (∀ k, m ≤ k → s.flag k = 0) ∧
      s.ts = [⟨.user, [], maxEpoch - m⟩, ⟨.user, [], maxEpoch⟩] ∧ completions es = m ∧
      ∀ k, m ≤ k → specState (specNext k) Flag.fresh es = some Flag.fresh := by
  induction m with
  | zero => exact ⟨_, _, rfl, rfl, fun _ _ => rfl, rfl, rfl, fun _ _ => rfl⟩
  | succ m ih =>
    obtain ⟨s, es, h1, h2, h3, h4, h5, h6⟩ := ih (by omega)
    have hg : dec s.glob = maxEpoch - (m + 1) := by simp only [dec, h2, maxEpoch]; rw [if_neg (by omega)]; omega
    have hb : run step s (block 0 m) = some (⟨maxEpoch - (m + 1), s.setFlag m (maxEpoch - (m + 1)),
        [⟨.user, [], maxEpoch - (m + 1)⟩, ⟨.user, [], maxEpoch⟩]⟩,
        [.started 0 m, .finished 0 m true, .returned 0 m]) := by
      have a : 0 < maxEpoch - m := by simp only [maxEpoch]; omega
      have b1 : maxEpoch - (m + 1) ≠ 0 := by simp only [maxEpoch]; omega
      have b2 : maxEpoch - (m + 1) ≠ 1 := by simp only [maxEpoch]; omega
      simp [run, block, step, h4, h3 m (Nat.le_refl m), a, loop, hg, State.setFlag, b1, b2, Thread.wake, PC.wake]
      funext j; simp only [State.setFlag]; split <;> rfl
    refine ⟨_, _, run_append h1 hb, rfl, ?_, rfl, ?_, ?_⟩
    · intro k hk; simp only [State.setFlag]; rw [if_neg (by omega)]; exact h3 k (by omega)
    · rw [completions_append, h5]; rfl
    · intro k hk
      rw [specState_append, h6 k (by omega)]
      have : m ≠ k := by omega
      simp [specState, specNext, this]

/-- The flag that uses up the last epoch. -/
def lastFlag : Nat := 4294967293

theorem sched_end : ∃ s es, run step (init 2) (sched lastFlag) = some (s, es) ∧ s.glob = 2 ∧ s.flag lastFlag = 0 ∧
    s.flag (lastFlag + 1) = 0 ∧ s.ts = [⟨.user, [], 2⟩, ⟨.user, [], maxEpoch⟩] ∧ completions es = lastFlag ∧
    specState (specNext (lastFlag + 1)) Flag.fresh es = some Flag.fresh := by
  obtain ⟨s, es, h1, h2, h3, h4, h5, h6⟩ := sched_run lastFlag (by decide)
  exact ⟨s, es, h1, h2, h3 _ (Nat.le_refl _), h3 _ (Nat.le_succ _), h4, h5, h6 _ (Nat.le_succ _)⟩

/-- **C20 fails beyond the bound (1).** After `2^32 - 3` completed flags the next flag to complete gets the epoch that means "being
initialized": its caller goes to sleep although its own function has completed and nobody is running it, and no step of the
library will wake it. -/
theorem epoch_runs_out_hangs : ∃ ls s es, run step (init 2) ls = some (s, es) ∧ completions es = 2 ^ 32 - 2 ∧
    Event.finished 0 lastFlag true ∈ es ∧ Waiting s 0 lastFlag ∧ ¬ Executing s lastFlag ∧ ∀ l, l.isInternal = true → step s l = none := by
  obtain ⟨⟨g, f, ts⟩, es, h1, h2, h3, -, h4, h5, -⟩ := sched_end
  simp only at h2 h3 h4
  subst h2 h4
  have hb : run step ⟨2, f, [⟨.user, [], 2⟩, ⟨.user, [], maxEpoch⟩]⟩ (block 0 lastFlag) =
      some (⟨1, fun j => if j = lastFlag then 1 else f j, [⟨.asleep lastFlag, [], 2⟩, ⟨.user, [], maxEpoch⟩]⟩,
        [.started 0 lastFlag, .finished 0 lastFlag true]) := by
    simp [run, block, step, h3, loop, State.setFlag, dec, Thread.wake, PC.wake]
    funext j; simp only [State.setFlag]; split <;> rfl
  refine ⟨_, _, _, run_append h1 hb, ?_, ?_, ⟨_, rfl, Or.inr (Or.inl rfl)⟩, ?_, ?_⟩
  · rw [completions_append, h5]; rfl
  · simp
  · rintro ⟨t, x, hx, hk⟩
    match t with
    | 0 => cases hx; cases hk
    | 1 => cases hx; cases hk
    | t + 2 => cases hx
  · intro l hl
    cases l with
    | enter t =>
      match t with
      | 0 => rfl
      | 1 => rfl
      | t + 2 => rfl
    | store t =>
      match t with
      | 0 => rfl
      | 1 => rfl
      | t + 2 => rfl
    | _ => cases hl

/-- **C20 fails beyond the bound (2).** The flag completed after that one gets the epoch that means "uninitialized": its function, having
completed, is started a second time. -/
theorem epoch_runs_out_runs_twice : ∃ ls s es, run step (init 2) ls = some (s, es) ∧ completions es = 2 ^ 32 - 1 ∧
    ¬ Accepts (specNext (lastFlag + 1)) Flag.fresh es := by
  obtain ⟨⟨g, f, ts⟩, es, h1, h2, h3, h3', h4, h5, h6⟩ := sched_end
  simp only at h2 h3 h3' h4
  subst h2 h4
  have hb : ∃ s', run step ⟨2, f, [⟨.user, [], 2⟩, ⟨.user, [], maxEpoch⟩]⟩ (block 0 lastFlag ++ block 1 (lastFlag + 1)) =
      some (s', [.started 0 lastFlag, .finished 0 lastFlag true, .started 1 (lastFlag + 1), .finished 1 (lastFlag + 1) true,
        .started 1 (lastFlag + 1)]) := by
    have : 0 < maxEpoch := by decide
    simp [run, block, step, h3, h3', loop, State.setFlag, dec, Thread.wake, PC.wake, this]
  obtain ⟨s', hb⟩ := hb
  refine ⟨_, _, _, run_append h1 hb, ?_, ?_⟩
  · rw [completions_append, h5]; rfl
  · intro hc
    have : specState (specNext (lastFlag + 1)) Flag.fresh
        (es ++ [.started 0 lastFlag, .finished 0 lastFlag true, .started 1 (lastFlag + 1), .finished 1 (lastFlag + 1) true]) =
        some ⟨none, true, []⟩ := by
      rw [specState_append, h6]; rfl
    refine Accepts.next_of_specState (es := es ++ [.started 0 lastFlag, .finished 0 lastFlag true, .started 1 (lastFlag + 1),
      .finished 1 (lastFlag + 1) true]) (e := .started 1 (lastFlag + 1)) (es' := []) (by simpa using hc) this ?_
    simp [specNext]

end Verif.OnceEpoch
