import Verif.ForeignExit.Sim
/-! # C83: the end of a thread that the library did not start -/

namespace Verif.ForeignExit
open ThreadExit (State Op Event Node Sp upd nval)

/-- C83, partial: whatever the function of the thread, the callbacks, the cleanup functions and the destructors of other keys do, nested to any depth, as long as no cleanup function called by `reset` or
the destructor of a slot changes that slot: in each round each callback registered before it runs once, the last one first, each value stored before it is handed to the cleanup function of its slot once,
and the slots read as null until they are set again; the thread ends when nothing is left, or after `it` rounds. Missing: what is stored or registered in the last round; see `last_round_lost`. -/
theorem conforms_partial (it nk : Nat) (fn : Nat → Bool) {ls : List FLabel} {s : FState} {es : List FEvent} (h : run (step it nk fn) {} ls = some (s, es)) : Accepts (next it nk fn) {} es :=
  simulation (FR it nk fn) (fun _ _ _ _ _ hR hs => sim hR hs) (FR_init it nk fn) h

/-- What is known of the callbacks from the history. -/
structure Known (it nk : Nat) (fn : Nat → Bool) (pre : List FEvent) (σ : FSp) : Prop where
  reg : ∀ n, .now (.registered n) ∈ pre → n ∈ σ.now.cbs ∨ n ∈ σ.cbs ∨ .ran n ∈ pre
  notRet : σ.now.returned = false
  count : σ.rounds = pre.count .round
  le : pre.count .round ≤ it
  over : .ended ∈ pre → σ.done nk fn ∧ (σ.rounds = it ∨ σ.idle nk fn) ∧ σ.over = true ∧ σ.returned = true

theorem known_step {it nk : Nat} {fn : Nat → Bool} {pre : List FEvent} {σ σ' : FSp} {e : FEvent} (hk : Known it nk fn pre σ) (hn : next it nk fn σ e = .ok σ') : Known it nk fn (pre ++ [e]) σ' := by
  have mem : ∀ x, x ∈ pre ++ [e] ↔ x ∈ pre ∨ x = e := fun x => by simp
  cases e with
  | now e =>
    simp only [next] at hn
    split at hn
    · cases hn
    · next hb =>
      have hov : σ.over = false := by cases h : σ.over with
        | true => exact absurd (.inr h) hb
        | false => rfl
      split at hn <;> cases hn
      next τ hτ =>
      have key : (∀ n, n ∈ σ.now.cbs ∨ e = .registered n → n ∈ τ.cbs) ∧ τ.returned = false := by
        have hr := hk.notRet
        cases e <;> simp only [ThreadExit.next] at hτ
        case bodyRet => exact absurd (.inl rfl) hb
        case registered m => cases hτ; exact ⟨fun n hn => by simp only [Event.registered.injEq] at hn; simp only [List.mem_cons]; rcases hn with h | h; exact .inr h; exact .inl h.symm, hr⟩
        case ran m => rw [hr] at hτ; simp at hτ
        all_goals (repeat' split at hτ) <;> cases hτ <;> exact ⟨fun n hn => by simpa using hn, hr⟩
      exact {
        reg := fun n h => by
          rw [mem] at h
          rcases h with h | h
          · rcases hk.reg n h with h | h | h
            · exact .inl (key.1 n (.inl h))
            · exact .inr (.inl h)
            · exact .inr (.inr (by rw [mem]; exact .inl h))
          · cases h; exact .inl (key.1 n (.inr rfl))
        notRet := key.2
        count := by simpa using hk.count
        le := by simpa using hk.le
        over := fun h => by
          rw [mem] at h
          rcases h with h | h
          · have := (hk.over h).2.2.1; rw [hov] at this; cases this
          · cases h }
  | bodyRet =>
    simp only [next] at hn
    split at hn <;> cases hn
    next hb =>
    exact {
      reg := fun n h => by simp only [mem, reduceCtorEq, or_false] at h ⊢; exact hk.reg n h
      notRet := hk.notRet
      count := by simpa using hk.count
      le := by simpa using hk.le
      over := fun h => by simp only [mem, reduceCtorEq, or_false] at h; have := (hk.over h).2.2.2; rw [hb.1] at this; cases this }
  | round =>
    simp only [next] at hn
    split at hn <;> cases hn
    next hb =>
    obtain ⟨h1, h2, h3, h4, h5⟩ := hb
    exact {
      reg := fun n h => by
        simp only [mem, reduceCtorEq, or_false] at h ⊢
        rcases hk.reg n h with h | h | h
        · exact .inr (.inl h)
        · rw [h5.2.1] at h; cases h
        · exact .inr (.inr h)
      notRet := hk.notRet
      count := by simp [hk.count]
      le := by have := hk.count; simp; omega
      over := fun h => by simp only [mem, reduceCtorEq, or_false] at h; have := (hk.over h).2.2.1; rw [h2] at this; cases this }
  | ran m =>
    simp only [next] at hn
    split at hn <;> cases hn
    next hb =>
    exact {
      reg := fun n h => by
        simp only [mem, reduceCtorEq, or_false, FEvent.ran.injEq] at h ⊢
        rcases hk.reg n h with h | h | h
        · exact .inl h
        · obtain ⟨r, hr⟩ := List.head?_eq_some_iff.1 hb.2.2
          rw [hr] at h ⊢
          simp only [List.mem_cons] at h
          rcases h with h | h
          · exact .inr (.inr (.inr h))
          · exact .inr (.inl (by simpa using h))
        · exact .inr (.inr (.inl h))
      notRet := hk.notRet
      count := by simpa using hk.count
      le := by simpa using hk.le
      over := fun h => by
        simp only [mem, reduceCtorEq, or_false] at h
        have := (hk.over h).1.2.1; rw [this] at hb; simp at hb }
  | cleaned k v =>
    simp only [next] at hn
    split at hn <;> cases hn
    next hb =>
    exact {
      reg := fun n h => by simp only [mem, reduceCtorEq, or_false] at h ⊢; exact hk.reg n h
      notRet := hk.notRet
      count := by simpa using hk.count
      le := by simpa using hk.le
      over := fun h => by
        simp only [mem, reduceCtorEq, or_false] at h
        obtain ⟨-, -, h1, h2, h3, h4⟩ := hb
        have := (hk.over h).1.2.2 k h1 h2
        exact absurd (h4.symm.trans this) h3 }
  | back =>
    simp only [next] at hn
    split at hn <;> cases hn
    next hb =>
    exact {
      reg := fun n h => by simp only [mem, reduceCtorEq, or_false] at h ⊢; exact hk.reg n h
      notRet := hk.notRet
      count := by simpa using hk.count
      le := by simpa using hk.le
      over := fun h => by
        simp only [mem, reduceCtorEq, or_false] at h
        have := (hk.over h).1.1; rw [hb.1] at this; cases this }
  | ended =>
    simp only [next] at hn
    split at hn <;> cases hn
    next hb =>
    obtain ⟨h1, h2, h3, h4, h5⟩ := hb
    exact {
      reg := fun n h => by simp only [mem, reduceCtorEq, or_false] at h ⊢; exact hk.reg n h
      notRet := hk.notRet
      count := by simpa using hk.count
      le := by simpa using hk.le
      over := fun _ => ⟨h4, h5, rfl, h1⟩ }

theorem known {it nk : Nat} {fn : Nat → Bool} {pre es : List FEvent} {σ σ' : FSp} (hk : Known it nk fn pre σ) (h : specState (next it nk fn) σ es = some σ') : Known it nk fn (pre ++ es) σ' := by
  induction es generalizing pre σ with
  | nil => simp only [specState, Option.some.injEq] at h; subst h; simpa using hk
  | cons e es ih =>
    simp only [specState] at h
    cases hn : next it nk fn σ e with
    | illegal => rw [hn] at h; cases h
    | undefined => rw [hn] at h; cases h
    | ok σ₁ =>
      rw [hn] at h
      have := ih (known_step hk hn) h
      simpa using this

theorem known_run {it nk : Nat} {fn : Nat → Bool} {ls : List FLabel} {s : FState} {es : List FEvent} (h : run (step it nk fn) {} ls = some (s, es)) (hc : ClientOk (next it nk fn) {} es) :
    ∃ σ, specState (next it nk fn) {} es = some σ ∧ Known it nk fn es σ := by
  obtain ⟨σ, hσ⟩ := (conforms_partial it nk fn h).specState_isSome hc
  have h0 : Known it nk fn [] {} := ⟨fun _ h => (by cases h), rfl, rfl, Nat.zero_le _, fun h => (by cases h)⟩
  exact ⟨σ, hσ, by simpa using known h0 hσ⟩

/-- C83: if the thread ends with fewer than `it` rounds, every callback that was registered has run. -/
theorem callbacks_run (it nk : Nat) (fn : Nat → Bool) {ls : List FLabel} {s : FState} {es : List FEvent} (h : run (step it nk fn) {} ls = some (s, es)) (hc : ClientOk (next it nk fn) {} es)
    (he : .ended ∈ es) (hr : es.count .round < it) {n : Nat} (hn : .now (.registered n) ∈ es) : .ran n ∈ es := by
  obtain ⟨σ, -, hk⟩ := known_run h hc
  obtain ⟨hd, hi, -, -⟩ := hk.over he
  have hi : σ.idle nk fn := hi.resolve_left (by rw [hk.count]; omega)
  rcases hk.reg n hn with h | h | h
  · rw [hi.1] at h; cases h
  · rw [hd.2.1] at h; cases h
  · exact h

/-- C83: and no slot with a cleanup function holds a value. -/
theorem values_cleaned (it nk : Nat) (fn : Nat → Bool) {ls : List FLabel} {s : FState} {es : List FEvent} (h : run (step it nk fn) {} ls = some (s, es)) (hc : ClientOk (next it nk fn) {} es)
    (he : .ended ∈ es) (hr : es.count .round < it) : ∃ σ, specState (next it nk fn) {} es = some σ ∧ ∀ k < nk, fn k = true → σ.now.slot k = 0 ∧ σ.left k = 0 := by
  obtain ⟨σ, hσ, hk⟩ := known_run h hc
  obtain ⟨hd, hi, -, -⟩ := hk.over he
  have hi : σ.idle nk fn := hi.resolve_left (by rw [hk.count]; omega)
  exact ⟨σ, hσ, fun k h hf => ⟨hi.2 k h hf, hd.2.2 k h hf⟩⟩

/-- C83: there are never more than `it` rounds, even if callbacks and cleanup functions keep registering and storing. -/
theorem rounds_bounded (it nk : Nat) (fn : Nat → Bool) {ls : List FLabel} {s : FState} {es : List FEvent} (h : run (step it nk fn) {} ls = some (s, es)) (hc : ClientOk (next it nk fn) {} es) :
    es.count .round ≤ it := by
  obtain ⟨σ, -, hk⟩ := known_run h hc
  exact hk.le

/-- Between two rounds; callback `r` is registered. -/
def again (r : Nat) : FState := { cur := { cbs := [r], n := r + 1 }, made := true, phase := .sys, rounds := r }

theorem again_step (it nk : Nat) (fn : Nat → Bool) (r : Nat) (hr : r < it) :
    run (step it nk fn) (again r) [.round, .go, .op .atExit, .ret, .go, .go] = some (again (r + 1), [.round, .ran r, .now (.registered (r + 1)), .back]) := by
  have hf : ∀ l : List Nat, l.find? (fun _ => false) = none := fun l => List.find?_eq_none.2 (by simp)
  simp [run, step, again, hr, go, FState.inCode, ThreadExit.op, holds, FState.first, hf]

theorem again_run (it nk : Nat) (fn : Nat → Bool) (r : Nat) (hr : r ≤ it) :
    ∃ ls es, run (step it nk fn) {} ls = some (again r, es) ∧ .now (.registered r) ∈ es ∧ ∀ n, .ran n ∈ es → n < r := by
  induction r with
  | zero => exact ⟨[.op .atExit, .ret], [.now (.registered 0), .bodyRet], by simp [run, step, again, FState.inCode, ThreadExit.op, holds], by simp, by simp⟩
  | succ r ih =>
    obtain ⟨ls, es, h, -, hb⟩ := ih (by omega)
    refine ⟨_, _, run_append h (again_step it nk fn r hr), by simp, fun n hn => ?_⟩
    simp only [List.mem_append, List.mem_cons, reduceCtorEq, FEvent.ran.injEq, List.not_mem_nil, false_or, or_false] at hn
    rcases hn with hn | hn
    · have := hb n hn; omega
    · omega

/-- C83: however many rounds there are, a callback registered in the last one never runs; a thread started by the library would run it (C40). -/
theorem last_round_lost (it nk : Nat) (fn : Nat → Bool) : ∃ ls s es n, run (step it nk fn) {} ls = some (s, es) ∧ .ended ∈ es ∧ .now (.registered n) ∈ es ∧ .ran n ∉ es := by
  obtain ⟨ls, es, h, h1, h2⟩ := again_run it nk fn it (Nat.le_refl _)
  have hf : run (step it nk fn) (again it) [.fin] = some ({ again it with phase := .ended }, [.ended]) := by simp [run, step, again]
  exact ⟨_, _, _, it, run_append h hf, by simp, by simp [h1], fun hx => by
    simp only [List.mem_append, List.mem_cons, reduceCtorEq, List.not_mem_nil, or_false] at hx
    have := h2 it hx; omega⟩

/-- C83: at the end of such a thread a slot reads as null although its value has not been cleaned up yet. -/
theorem hidden_values : ∃ ls s es, run (step 4 2 (fun _ => true)) {} ls = some (s, es) ∧
    es = [.now (.resetCall 0 5), .now (.resetRet 0 5), .now (.resetCall 1 6), .now (.resetRet 1 6), .bodyRet, .round, .cleaned 0 5, .now (.got 1 0), .back, .cleaned 1 6, .back, .round, .ended] :=
  ⟨[.op (.reset 0 5), .op (.reset 1 6), .ret, .round, .go, .go, .op (.get 1), .ret, .go, .ret, .go, .round, .fin], _, _, rfl, by decide +kernel⟩

/-- A cleanup function may store a value in its own slot again, which the next round cleans up; the hypotheses of the theorems above are met. -/
example : ∃ ls s es, run (step 4 1 (fun _ => true)) {} ls = some (s, es) ∧ ClientOk (next 4 1 (fun _ => true)) {} es ∧ es.count .round = 2 ∧
    es = [.now (.registered 0), .now (.resetCall 0 5), .now (.resetRet 0 5), .bodyRet, .round, .ran 0, .back, .cleaned 0 5, .now (.resetCall 0 6), .now (.resetRet 0 6), .now (.registered 1), .back,
      .round, .ran 1, .back, .cleaned 0 6, .back, .ended] :=
  ⟨[.op .atExit, .op (.reset 0 5), .ret, .round, .go, .ret, .go, .go, .op (.reset 0 6), .op .atExit, .ret, .go, .round, .go, .ret, .go, .go, .ret, .go, .fin], _, _, rfl, by decide +kernel, by decide +kernel,
    by decide +kernel⟩

end Verif.ForeignExit
