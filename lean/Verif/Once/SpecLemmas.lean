import Verif.Once.Spec
import Verif.Core.Threads
/-! # Two consequences of the specification of `call_once`, in plain words -/

namespace Verif.Once

theorem completionsOf_cons (k : Nat) (e : Event) (es : List Event) :
    completionsOf k (e :: es) = completionsOf k es + completionsOf k [e] := by
  simp only [completionsOf, List.countP_cons, List.countP_nil]; omega

/-- One event: the flag is set by the first completion and by nothing else. -/
theorem spec_step {k : Nat} {q q' : Flag} {e : Event} (hq : q.running ≠ none → q.done = false)
    (hn : specNext k q e = .ok q') :
    (q'.running ≠ none → q'.done = false) ∧ b2n q'.done = b2n q.done + completionsOf k [e] := by
  cases e with
  | finished t j ok =>
    simp only [specNext] at hn
    by_cases hj : j = k
    · subst hj
      by_cases hr : q.running = some t
      · have hd := hq (by simp [hr])
        cases ok <;> simp [hr] at hn <;> subst hn <;> simp [completionsOf, hd]
      · simp [hr] at hn
    · simp [hj] at hn; subst hn
      exact ⟨hq, by cases ok <;> simp [completionsOf, hj]⟩
  | started t j =>
    simp only [specNext] at hn
    (repeat' split at hn) <;> simp at hn <;> subst hn <;> simp_all [completionsOf]
  | returned t j =>
    simp only [specNext] at hn
    (repeat' split at hn) <;> simp at hn <;> subst hn <;> simp_all [completionsOf]
  | raised t j =>
    simp only [specNext] at hn
    (repeat' split at hn) <;> simp at hn <;> subst hn <;> simp_all [completionsOf]

theorem not_undefined {k : Nat} {q : Flag} {e : Event} : specNext k q e ≠ .undefined := by
  intro hn
  cases e <;> simp only [specNext] at hn <;> (repeat' split at hn) <;> cases hn

/-- The specification never blames the client. -/
theorem clientOk (k : Nat) (q : Flag) (es : List Event) : ClientOk (specNext k) q es := by
  induction es generalizing q with
  | nil => trivial
  | cons e es ih =>
    simp only [ClientOk]
    cases hn : specNext k q e with
    | ok q' => exact ih q'
    | illegal => trivial
    | undefined => exact absurd hn not_undefined

theorem completionsOf_le_one {k : Nat} {q : Flag} {es : List Event} (hq : q.running ≠ none → q.done = false)
    (h : Accepts (specNext k) q es) : completionsOf k es + b2n q.done ≤ 1 := by
  induction es generalizing q with
  | nil => simp [completionsOf, b2n_le]
  | cons e es ih =>
    rw [completionsOf_cons]
    simp only [Accepts] at h
    cases hn : specNext k q e with
    | undefined => exact absurd hn not_undefined
    | illegal => simp [hn] at h
    | ok q' =>
      simp only [hn] at h
      obtain ⟨h1, h2⟩ := spec_step hq hn
      have := ih h1 h
      omega

theorem returned_after {k t : Nat} {q : Flag} {pre post : List Event} (hq : q.running ≠ none → q.done = false)
    (h : Accepts (specNext k) q (pre ++ .returned t k :: post)) (hd : q.done = false) :
    0 < completionsOf k pre := by
  induction pre generalizing q with
  | nil => simp [Accepts, specNext, hd] at h
  | cons e pre ih =>
    rw [completionsOf_cons]
    simp only [List.cons_append, Accepts] at h
    cases hn : specNext k q e with
    | undefined => exact absurd hn not_undefined
    | illegal => simp [hn] at h
    | ok q' =>
      simp only [hn] at h
      obtain ⟨h1, h2⟩ := spec_step hq hn
      cases hd' : q'.done with
      | false => have := ih h1 h hd'; omega
      | true => simp [hd, hd'] at h2; omega

end Verif.Once
