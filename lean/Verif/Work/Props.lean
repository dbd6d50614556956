import Verif.Work.Sim
/-! # C81: the functions given to executors -/

namespace Verif.Work

/-- C81: with the smart pointers of C++11, every history of any number of variables of type `work` conforms to the specification. -/
theorem conforms_smart (n : Nat) {ls : List Label} {s : State} {es : List Event} (h : run (step true n) init ls = some (s, es)) : Accepts next (start n) es :=
  simulation_on (fun _ => True) (R n) (fun _ _ _ _ _ _ hR hs => sim (.inl rfl) hR hs) (fun _ _ => trivial) (R_init n) h

/-- C81, partial: without them, as long as no variable is moved onto itself. Missing: that; see `self_move_loses`. -/
theorem conforms_partial (smart : Bool) (n : Nat) {ls : List Label} {s : State} {es : List Event} (hl : ∀ i, .moveAssign i i ∉ ls) (h : run (step smart n) init ls = some (s, es)) :
    Accepts next (start n) es :=
  simulation_on (fun l => ∀ i, l ≠ .moveAssign i i) (R n) (fun _ _ _ _ _ hP hR hs => sim (.inr hP) hR hs) (fun l hm i e => hl i (by rw [← e]; exact hm)) (R_init n) h

theorem spec_once {σ : Spec} {es : List Event} (h : Accepts next σ es) (hc : ClientOk next σ es) (f : Nat) :
    es.count (.gone f) + (if σ.gone f then 1 else 0) ≤ 1 := by
  induction es generalizing σ with
  | nil => simp; split <;> omega
  | cons e es ih =>
    simp only [Accepts] at h
    simp only [ClientOk] at hc
    cases hn : next σ e with
    | illegal => rw [hn] at h; exact h.elim
    | undefined => rw [hn] at hc; exact hc.elim
    | ok σ' =>
      rw [hn] at h hc
      have := ih h hc
      have hg := gone_step hn f
      by_cases e' : e = .gone f
      · subst e'
        have h1 : σ.gone f = false ∧ σ'.gone f = true := gone_once hn
        rw [h1.2] at this
        rw [h1.1, List.count_cons_self]
        simp at this ⊢; omega
      · rw [List.count_cons_of_ne (by simpa using e')]
        simp only [hg, e', or_false] at this
        exact this

/-- C81: a function object is destroyed at most once. -/
theorem destroyed_once (n : Nat) {ls : List Label} {s : State} {es : List Event} (h : run (step true n) init ls = some (s, es)) (hc : ClientOk next (start n) es) (f : Nat) :
    es.count (.gone f) ≤ 1 := by
  have := spec_once (conforms_smart n h) hc f; simpa [start] using this

theorem made_gone {σ σ' : Spec} {es : List Event} (h : specState next σ es = some σ') (f : Nat) :
    (σ'.gone f = true ↔ σ.gone f = true ∨ .gone f ∈ es) ∧ (σ'.made f = true ↔ σ.made f = true ∨ ∃ i, .made i f ∈ es) := by
  induction es generalizing σ with
  | nil => simp only [specState, Option.some.injEq] at h; subst h; simp
  | cons e es ih =>
    simp only [specState] at h
    cases hn : next σ e with
    | illegal => rw [hn] at h; cases h
    | undefined => rw [hn] at h; cases h
    | ok σ₁ =>
      rw [hn] at h
      have ⟨h1, h2⟩ := ih h
      have hg := gone_step hn f
      have hm := made_step hn f
      refine ⟨?_, ?_⟩
      · rw [h1, hg, List.mem_cons, or_assoc, eq_comm (a := e)]
      · rw [h2, hm]
        constructor
        · rintro ((h | ⟨i, h⟩) | ⟨i, h⟩)
          · exact .inl h
          · exact .inr ⟨i, by simp [h]⟩
          · exact .inr ⟨i, by simp [h]⟩
        · rintro (h | ⟨i, h⟩)
          · exact .inl (.inl h)
          · rcases List.mem_cons.1 h with h | h
            · exact .inl (.inr ⟨i, h.symm⟩)
            · exact .inr ⟨i, h⟩

/-- C81: a function object lives exactly as long as some variable stands for it: it is not destroyed before, and nothing is left behind. -/
theorem lives_exactly (n : Nat) {ls : List Label} {s : State} {es : List Event} (h : run (step true n) init ls = some (s, es)) (hc : ClientOk next (start n) es) {i f : Nat} (hf : .made i f ∈ es) :
    .gone f ∉ es ↔ ∃ j, s.h j = .has f := by
  obtain ⟨σ, hσ⟩ := (conforms_smart n h).specState_isSome hc
  have hR : R n s σ := simulation_state_on (fun _ => True) (R n) (fun _ _ _ _ _ _ hR hs => sim (.inl rfl) hR hs) (fun _ _ => trivial) (R_init n) h hσ
  have ⟨h1, h2⟩ := made_gone hσ f
  have hm : f < s.fresh := (hR.made f).1 (h2.2 (.inr ⟨i, hf⟩))
  have hcnt : s.count f = cnt n s.h f := by have := hR.q.count f; simpa [ind] using this
  constructor
  · intro hg
    have ha : s.alive f = true := by
      cases e : s.alive f with
      | true => rfl
      | false => exact absurd ((h1.1 ((hR.gone f).2 ⟨hm, e⟩)).resolve_left (by simp [start])) hg
    have hp := (hR.q.alive f).1 ha
    rw [hcnt, cnt_pos_iff] at hp
    simp only [referred, List.any_eq_true, List.mem_range, decide_eq_true_eq] at hp
    obtain ⟨j, -, hj⟩ := hp
    exact ⟨j, hj⟩
  · rintro ⟨j, hj⟩ hg
    have hp := cnt_pos (hR.q.lt (by rw [hj]; simp)) hj
    have ha := (hR.q.alive f).2 (by omega)
    have := ((hR.gone f).1 (h1.2 (.inr hg))).2
    rw [ha] at this; cases this

/-- Copies, moves, calls by copies, and the end: variable 1 is a copy, 2 takes over from 0, 0 is empty and does nothing, 1 and 2 call the same function. -/
def tour : List Label := [.make 0, .copy 1 0, .move 2 0, .call 0 0, .call 1 1, .fin 1 false, .call 2 2, .drop 1, .fin 2 true, .moveAssign 2 2, .makeEmpty 3, .assign 3 2, .assign 2 0, .drop 3]

def tourEvents : List Event := [.made 0 0, .copied 1 0, .moved 2 0, .called 0 0 none, .called 1 1 (some 0), .ended 1 false, .called 2 2 (some 0), .dropped 1, .ended 2 true, .moveAssigned 2 2, .madeEmpty 3, .assigned 3 2,
  .assigned 2 0, .dropped 3, .gone 0]

example : (run (step true 4) init tour).map (·.2) = some tourEvents ∧ ClientOk next (start 4) tourEvents := by decide +kernel

/-- `conforms_partial` without smart pointers: one function replaces another. -/
example : (run (step false 2) init [.make 0, .make 1, .moveAssign 0 1, .call 0 0, .fin 0 false, .call 0 1]).map (·.2)
    = some [.made 0 0, .made 1 1, .moveAssigned 0 1, .gone 0, .called 0 0 (some 1), .ended 0 false, .called 0 1 none] := by decide +kernel

/-- Without the smart pointers of C++11 a work that is moved onto itself loses its function. -/
theorem self_move_loses : ∃ s, run (step false 1) init [.make 0, .moveAssign 0 0, .call 0 0] = some (s, [.made 0 0, .moveAssigned 0 0, .gone 0, .called 0 0 none])
    ∧ ¬ Accepts next (start 1) [.made 0 0, .moveAssigned 0 0, .gone 0, .called 0 0 none] := ⟨_, rfl, by decide +kernel⟩

/-- The function does not keep itself alive: it must not destroy the last work that stands for it while it is being called. -/
theorem keep_during_call : ∃ s, run (step true 1) init [.make 0, .call 0 0, .drop 0, .fin 0 false] = some (s, [.made 0 0, .called 0 0 (some 0), .dropped 0, .gone 0, .stale 0]) := ⟨_, rfl⟩

end Verif.Work
