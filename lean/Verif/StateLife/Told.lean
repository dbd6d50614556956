import Verif.StateLife.Sim2
/-!
# What permitted histories tell
-/

set_option linter.unusedSimpArgs false
set_option linter.unusedVariables false

namespace Verif.StateLife

theorem clientOk (σ : Spec) (es : List Event) : ClientOk next σ es := by
  induction es generalizing σ with
  | nil => trivial
  | cons e es ih =>
    simp only [ClientOk]
    cases hn : next σ e with
    | ok σ' => exact ih σ'
    | illegal => trivial
    | undefined =>
      cases e <;> simp only [next] at hn <;> (repeat' split at hn) <;> cases hn

/-- What holds at the start and is kept by every permitted event holds after every permitted history. -/
theorem permitted {Q : List Event → Spec → Prop} (h0 : Q [] start) (hstep : ∀ h σ e σ', Q h σ → next σ e = .ok σ' → Q (h ++ [e]) σ')
    {es : List Event} {σ : Spec} (hs : specState next start es = some σ) : Q es σ := by
  have : ∀ (es h : List Event) (σ₀ : Spec), Q h σ₀ → specState next σ₀ es = some σ → Q (h ++ es) σ := by
    intro es
    induction es with
    | nil => intro h σ₀ hq hs; simp only [specState, Option.some.injEq] at hs; subst hs; simpa using hq
    | cons e es ih =>
      intro h σ₀ hq hs
      simp only [specState] at hs
      cases hn : next σ₀ e with
      | ok σ₁ =>
        simp only [hn] at hs
        have := ih (h ++ [e]) σ₁ (hstep h σ₀ e σ₁ hq hn) hs
        simpa using this
      | undefined => simp [hn] at hs
      | illegal => simp [hn] at hs
  simpa using this es [] start h0 hs

theorem Kind.not_both (k : Kind) : ¬ (k.eager = true ∧ k.lazy = true) := by
  cases k <;> simp [Kind.eager, Kind.lazy]
  rename_i p pol; cases pol <;> simp

/-- What the events tell. -/
structure Told (h : List Event) (σ : Spec) : Prop where
  made : ∀ i k, .made i k ∈ h → i < σ.n ∧ σ.kind i = k
  got : ∀ o i, .got o i ∈ h → (o, i) ∈ σ.refs ∨ .dropped o ∈ h
  prom : ∀ i, i < σ.n → σ.kind i = .promise → σ.own i = true ∨ .left i ∈ h
  own : ∀ i, i < σ.n → σ.own i = true → σ.kind i = .promise
  new : ∀ i, σ.n ≤ i → σ.st i = .waiting
  began : ∀ i, .began i ∈ h → i < σ.n ∧ (σ.st i = .running ∨ σ.st i = .ready)
  ready : ∀ i, .ready i ∈ h ↔ σ.st i = .ready
  disc : ∀ i, .discarded i ∈ h ↔ σ.st i = .lost
  start : ∀ i, σ.st i = .started → (σ.kind i).lazy = true
  eager : ∀ i, i < σ.n → (σ.kind i).eager = true → σ.st i = .waiting ∨ .began i ∈ h ∨ .discarded i ∈ h
  dead : ∀ i, .destroyed i ∈ h ↔ σ.dead i = true
  bound : ∀ i, σ.dead i = true → i < σ.n
  stale : ∀ i, .stale i ∉ h
  done : ∀ i, σ.dead i = true → (σ.kind i).eager = true → σ.st i ≠ .waiting
  ran : ∀ i, i < σ.n → (σ.st i = .running ∨ σ.st i = .ready) → σ.kind i ≠ .promise → .began i ∈ h

theorem told {es : List Event} {σ : Spec} (hs : specState next start es = some σ) : Told es σ := by
  refine permitted ?_ ?_ hs
  · constructor <;> simp [StateLife.start]
  · intro h σ e σ' q hn
    obtain ⟨q1, q2, q3, q4, q5, q6, q7, q8, q9, q10, q11, q12, q13, q14, q15⟩ := q
    have hb := Kind.not_both
    cases e <;> simp only [next] at hn <;> (try split at hn) <;> cases hn <;> rename_i hg
    all_goals constructor <;> simp only [List.mem_append, List.mem_singleton, upd, reduceCtorEq, or_false]
    all_goals first | assumption | skip
    all_goals grind [Kind.eager, Kind.lazy, Spec.needed]

end Verif.StateLife
