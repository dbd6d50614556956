/-!
# Schedules, observable histories and specifications

Shared vocabulary of all concurrent models. Nothing here models code of the repository.

* A model is a partial function `step : S → L → Option (S × List E)`. A label `L` names the thread that
  moves and resolves every choice made by the environment. `E` is the type of observable API events (returns of calls).
* `run step s ls` executes a whole schedule and collects the observable history.
* A specification is a deterministic automaton `next : σ → E → Verdict σ` over histories: an
  event is allowed, forbidden, or (because the client broke a documented precondition) outside the contract,
  after which everything is allowed.
-/

namespace Verif

/-- Execute the schedule `ls` from `s`; `none` if some label is not enabled when its turn comes. -/
def run {S L E : Type} (step : S → L → Option (S × List E)) : S → List L → Option (S × List E)
  | s, [] => some (s, [])
  | s, l :: ls =>
    match step s l with
    | none => none
    | some (s', es) =>
      match run step s' ls with
      | none => none
      | some (s'', es') => some (s'', es ++ es')

/-- `s'` can be reached from `s` by some schedule. -/
def Reach {S L E : Type} (step : S → L → Option (S × List E)) (s s' : S) : Prop :=
  ∃ ls es, run step s ls = some (s', es)

/-- What a specification says about one event. -/
inductive Verdict (σ : Type) where
  /-- allowed; the specification moves on -/
  | ok (s : σ)
  /-- the client broke a precondition; nothing is promised from here on -/
  | undefined
  /-- a correct library never produces this -/
  | illegal
deriving DecidableEq, Repr

/-- The history `es` is allowed by the specification `next` from `s`. -/
def Accepts {σ E : Type} (next : σ → E → Verdict σ) : σ → List E → Prop
  | _, [] => True
  | s, e :: es =>
    match next s e with
    | .ok s' => Accepts next s' es
    | .undefined => True
    | .illegal => False

instance {σ E : Type} (next : σ → E → Verdict σ) : ∀ s es, Decidable (Accepts next s es)
  | _, [] => .isTrue trivial
  | s, e :: es => by
    unfold Accepts
    cases next s e with
    | ok s' => exact instDecidableAccepts next s' es
    | undefined => exact .isTrue trivial
    | illegal => exact .isFalse id

/-- The specification state after a history (`none` once the history left the contract or broke it). -/
def specState {σ E : Type} (next : σ → E → Verdict σ) : σ → List E → Option σ
  | s, [] => some s
  | s, e :: es =>
    match next s e with
    | .ok s' => specState next s' es
    | .undefined => none
    | .illegal => none

theorem run_nil {S L E : Type} {step : S → L → Option (S × List E)} {s : S} :
    run step s [] = some (s, []) := rfl

theorem run_cons {S L E : Type} {step : S → L → Option (S × List E)} {s s' : S} {l : L} {ls : List L}
    {es : List E} (h : run step s (l :: ls) = some (s', es)) :
    ∃ m es₁ es₂, step s l = some (m, es₁) ∧ run step m ls = some (s', es₂) ∧ es = es₁ ++ es₂ := by
  rw [run] at h
  cases hs : step s l with
  | none => simp [hs] at h
  | some p =>
    obtain ⟨m, es₁⟩ := p
    simp only [hs] at h
    cases hr : run step m ls with
    | none => simp [hr] at h
    | some q =>
      obtain ⟨s'', es₂⟩ := q
      simp only [hr, Option.some.injEq, Prod.mk.injEq] at h
      exact ⟨m, es₁, es₂, rfl, by rw [← h.1]; exact hr, h.2.symm⟩

/-- Schedules can be concatenated. -/
theorem run_append {S L E : Type} {step : S → L → Option (S × List E)} {s m s' : S} {ls ls' : List L}
    {es es' : List E} (h : run step s ls = some (m, es)) (h' : run step m ls' = some (s', es')) :
    run step s (ls ++ ls') = some (s', es ++ es') := by
  induction ls generalizing s es with
  | nil => simp only [run_nil, Option.some.injEq, Prod.mk.injEq] at h; obtain ⟨rfl, rfl⟩ := h; simpa using h'
  | cons l ls ih =>
    obtain ⟨x, e1, e2, h1, h2, rfl⟩ := run_cons h
    have := ih h2
    simp only [List.cons_append, run, h1, this, List.append_assoc]

/-- An invariant of every step is an invariant of every schedule. -/
theorem run_inv {S L E : Type} {step : S → L → Option (S × List E)} (Inv : S → Prop)
    (hstep : ∀ s l s' es, Inv s → step s l = some (s', es) → Inv s')
    {s s' : S} {ls : List L} {es : List E} (h0 : Inv s) (h : run step s ls = some (s', es)) : Inv s' := by
  induction ls generalizing s es with
  | nil => simp only [run_nil, Option.some.injEq, Prod.mk.injEq] at h; exact h.1 ▸ h0
  | cons l ls ih =>
    obtain ⟨m, es₁, es₂, h1, h2, -⟩ := run_cons h
    exact ih (hstep _ _ _ _ h0 h1) h2

theorem reach_inv {S L E : Type} {step : S → L → Option (S × List E)} (Inv : S → Prop)
    (hstep : ∀ s l s' es, Inv s → step s l = some (s', es) → Inv s')
    {s s' : S} (h0 : Inv s) (h : Reach step s s') : Inv s' := by
  obtain ⟨ls, es, h⟩ := h
  exact run_inv Inv hstep h0 h

/-- An invariant that also speaks about the whole history so far. -/
theorem run_inv_hist {S L E : Type} {step : S → L → Option (S × List E)} (Inv : S → List E → Prop)
    (hstep : ∀ s l s' h es, Inv s h → step s l = some (s', es) → Inv s' (h ++ es))
    {s s' : S} {ls : List L} {hist es : List E} (h0 : Inv s hist) (h : run step s ls = some (s', es)) :
    Inv s' (hist ++ es) := by
  induction ls generalizing s hist es with
  | nil =>
    simp only [run_nil, Option.some.injEq, Prod.mk.injEq] at h
    obtain ⟨rfl, rfl⟩ := h
    simpa using h0
  | cons l ls ih =>
    obtain ⟨m, es₁, es₂, h1, h2, rfl⟩ := run_cons h
    rw [← List.append_assoc]
    exact ih (hstep _ _ _ _ _ h0 h1) h2

/-- How a specification run continues over the events of one step: either it follows to a state related to
the new model state, or the client leaves the contract. -/
def Follows {σ E : Type} (next : σ → E → Verdict σ) (R : σ → Prop) : σ → List E → Prop
  | s, [] => R s
  | s, e :: es =>
    match next s e with
    | .ok s' => Follows next R s' es
    | .undefined => True
    | .illegal => False

theorem Follows.accepts_append {σ E : Type} {next : σ → E → Verdict σ} {R : σ → Prop} {es es' : List E}
    {s : σ} (h : Follows next R s es) (h' : ∀ s', R s' → Accepts next s' es') :
    Accepts next s (es ++ es') := by
  induction es generalizing s with
  | nil => exact h' _ h
  | cons e es ih =>
    simp only [Follows] at h
    simp only [List.cons_append, Accepts]
    cases hn : next s e with
    | ok s' => simp only [hn] at h ⊢; exact ih h
    | undefined => trivial
    | illegal => simp [hn] at h

theorem Follows.and {σ E : Type} {next : σ → E → Verdict σ} {R : σ → Prop} {P : Prop} {es : List E} {s : σ}
    (h : Follows next R s es) (hp : P) : Follows next (fun σ₀ => R σ₀ ∧ P) s es := by
  induction es generalizing s with
  | nil => exact ⟨h, hp⟩
  | cons e es ih =>
    simp only [Follows] at h ⊢
    cases hn : next s e with
    | ok s' => simp only [hn] at h ⊢; exact ih h
    | undefined => trivial
    | illegal => simp [hn] at h

/-- Forward simulation over schedules all of whose labels satisfy `P`. -/
theorem simulation_on {S L E σ : Type} {step : S → L → Option (S × List E)} {next : σ → E → Verdict σ}
    (P : L → Prop) (R : S → σ → Prop)
    (hstep : ∀ s l s' es σ₀, P l → R s σ₀ → step s l = some (s', es) → Follows next (R s') σ₀ es)
    {s s' : S} {σ₀ : σ} {ls : List L} {es : List E} (hP : ∀ l ∈ ls, P l) (h0 : R s σ₀)
    (h : run step s ls = some (s', es)) : Accepts next σ₀ es := by
  induction ls generalizing s σ₀ es with
  | nil => simp only [run_nil, Option.some.injEq, Prod.mk.injEq] at h; rw [← h.2]; trivial
  | cons l ls ih =>
    obtain ⟨m, es₁, es₂, h1, h2, rfl⟩ := run_cons h
    exact (hstep _ _ _ _ _ (hP l (List.mem_cons_self ..)) h0 h1).accepts_append fun s' hR =>
      ih (fun l hl => hP l (List.mem_cons_of_mem _ hl)) hR h2

/-- An invariant preserved by every step whose label satisfies `P`. -/
theorem run_inv_on {S L E : Type} {step : S → L → Option (S × List E)} (P : L → Prop) (Inv : S → Prop)
    (hstep : ∀ s l s' es, P l → Inv s → step s l = some (s', es) → Inv s')
    {s s' : S} {ls : List L} {es : List E} (hP : ∀ l ∈ ls, P l) (h0 : Inv s)
    (h : run step s ls = some (s', es)) : Inv s' := by
  induction ls generalizing s es with
  | nil => simp only [run_nil, Option.some.injEq, Prod.mk.injEq] at h; exact h.1 ▸ h0
  | cons l ls ih =>
    obtain ⟨m, es₁, es₂, h1, h2, -⟩ := run_cons h
    exact ih (fun l hl => hP l (List.mem_cons_of_mem _ hl))
      (hstep _ _ _ _ (hP l (List.mem_cons_self ..)) h0 h1) h2

/-- Forward simulation: every history of the model is accepted by the specification. -/
theorem simulation {S L E σ : Type} {step : S → L → Option (S × List E)} {next : σ → E → Verdict σ}
    (R : S → σ → Prop)
    (hstep : ∀ s l s' es σ₀, R s σ₀ → step s l = some (s', es) → Follows next (R s') σ₀ es)
    {s s' : S} {σ₀ : σ} {ls : List L} {es : List E} (h0 : R s σ₀) (h : run step s ls = some (s', es)) :
    Accepts next σ₀ es := by
  induction ls generalizing s σ₀ es with
  | nil => simp only [run_nil, Option.some.injEq, Prod.mk.injEq] at h; rw [← h.2]; trivial
  | cons l ls ih =>
    obtain ⟨m, es₁, es₂, h1, h2, rfl⟩ := run_cons h
    exact (hstep _ _ _ _ _ h0 h1).accepts_append fun s' hR => ih hR h2

theorem Follows.specState_append {σ E : Type} {next : σ → E → Verdict σ} {R : σ → Prop} {es es' : List E}
    {s σ' : σ} (h : Follows next R s es) (hs : specState next s (es ++ es') = some σ') :
    ∃ m, R m ∧ specState next m es' = some σ' := by
  induction es generalizing s with
  | nil => exact ⟨s, h, hs⟩
  | cons e es ih =>
    simp only [Follows] at h
    simp only [List.cons_append, specState] at hs
    cases hn : next s e with
    | ok s' => simp only [hn] at h hs; exact ih h hs
    | undefined => simp [hn] at hs
    | illegal => simp [hn] at h

/-- As long as the client stays within the contract, the model state stays related to the specification state. -/
theorem simulation_state {S L E σ : Type} {step : S → L → Option (S × List E)} {next : σ → E → Verdict σ}
    (R : S → σ → Prop)
    (hstep : ∀ s l s' es σ₀, R s σ₀ → step s l = some (s', es) → Follows next (R s') σ₀ es)
    {s s' : S} {σ₀ σ' : σ} {ls : List L} {es : List E} (h0 : R s σ₀) (h : run step s ls = some (s', es))
    (hs : specState next σ₀ es = some σ') : R s' σ' := by
  induction ls generalizing s σ₀ es with
  | nil =>
    simp only [run_nil, Option.some.injEq, Prod.mk.injEq] at h
    obtain ⟨rfl, rfl⟩ := h
    simp only [specState, Option.some.injEq] at hs
    exact hs ▸ h0
  | cons l ls ih =>
    obtain ⟨m, es₁, es₂, h1, h2, rfl⟩ := run_cons h
    obtain ⟨σm, hR, hs'⟩ := (hstep _ _ _ _ _ h0 h1).specState_append hs
    exact ih hR h2 hs'

/-- `simulation_state` over schedules all of whose labels satisfy `P`. -/
theorem simulation_state_on {S L E σ : Type} {step : S → L → Option (S × List E)} {next : σ → E → Verdict σ}
    (P : L → Prop) (R : S → σ → Prop)
    (hstep : ∀ s l s' es σ₀, P l → R s σ₀ → step s l = some (s', es) → Follows next (R s') σ₀ es)
    {s s' : S} {σ₀ σ' : σ} {ls : List L} {es : List E} (hP : ∀ l ∈ ls, P l) (h0 : R s σ₀)
    (h : run step s ls = some (s', es)) (hs : specState next σ₀ es = some σ') : R s' σ' := by
  induction ls generalizing s σ₀ es with
  | nil =>
    simp only [run_nil, Option.some.injEq, Prod.mk.injEq] at h
    obtain ⟨rfl, rfl⟩ := h
    simp only [specState, Option.some.injEq] at hs
    exact hs ▸ h0
  | cons l ls ih =>
    obtain ⟨m, es₁, es₂, h1, h2, rfl⟩ := run_cons h
    obtain ⟨σm, hR, hs'⟩ := (hstep _ _ _ _ _ (hP l (List.mem_cons_self ..)) h0 h1).specState_append hs
    exact ih (fun l hl => hP l (List.mem_cons_of_mem _ hl)) hR h2 hs'

/-- Inside the contract, the next event of an accepted history is allowed. -/
theorem Accepts.next_of_specState {σ E : Type} {next : σ → E → Verdict σ} {es es' : List E} {e : E}
    {s σ' : σ} (h : Accepts next s (es ++ e :: es')) (hs : specState next s es = some σ') :
    next σ' e ≠ .illegal := by
  induction es generalizing s with
  | nil =>
    simp only [specState, Option.some.injEq] at hs
    subst hs
    intro hc
    simp [Accepts, hc] at h
  | cons a es ih =>
    simp only [List.cons_append, Accepts] at h
    simp only [specState] at hs
    cases hn : next s a with
    | ok s' => simp only [hn] at h hs; exact ih h hs
    | undefined => simp [hn] at hs
    | illegal => simp [hn] at h

theorem specState_append {σ E : Type} {next : σ → E → Verdict σ} {es es' : List E} {s : σ} :
    specState next s (es ++ es') = (specState next s es).bind fun m => specState next m es' := by
  induction es generalizing s with
  | nil => rfl
  | cons a es ih =>
    simp only [List.cons_append, specState]
    cases next s a <;> simp [ih]

/-- The client keeps its side of the contract all along the history (whatever the library does). -/
def ClientOk {σ E : Type} (next : σ → E → Verdict σ) : σ → List E → Prop
  | _, [] => True
  | s, e :: es =>
    match next s e with
    | .ok s' => ClientOk next s' es
    | .undefined => False
    | .illegal => True

instance {σ E : Type} (next : σ → E → Verdict σ) : ∀ s es, Decidable (ClientOk next s es)
  | _, [] => .isTrue trivial
  | s, e :: es => by
    unfold ClientOk
    cases next s e with
    | ok s' => exact instDecidableClientOk next s' es
    | undefined => exact .isFalse id
    | illegal => exact .isTrue trivial

/-- If client and library both keep the contract, the specification can follow the whole history. -/
theorem Accepts.specState_isSome {σ E : Type} {next : σ → E → Verdict σ} {es : List E} {s : σ}
    (h : Accepts next s es) (hc : ClientOk next s es) : ∃ s', specState next s es = some s' := by
  induction es generalizing s with
  | nil => exact ⟨s, rfl⟩
  | cons e es ih =>
    simp only [Accepts, ClientOk, specState] at *
    cases hn : next s e with
    | ok s' => simp only [hn] at h hc ⊢; exact ih h hc
    | undefined => simp [hn] at hc
    | illegal => simp [hn] at h

theorem Accepts.prefix {σ E : Type} {next : σ → E → Verdict σ} {es es' : List E} {s : σ} (h : Accepts next s (es ++ es')) :
    Accepts next s es := by
  induction es generalizing s with
  | nil => trivial
  | cons e es ih =>
    simp only [List.cons_append, Accepts] at *
    cases hn : next s e with
    | ok s' => simp only [hn] at h ⊢; exact ih h
    | undefined => trivial
    | illegal => simp [hn] at h

theorem run_step {S L E : Type} {step : S → L → Option (S × List E)} {s m s' : S} {l : L} {ls : List L} {e e' : List E}
    (h : step s l = some (m, e)) (h' : run step m ls = some (s', e')) : run step s (l :: ls) = some (s', e ++ e') := by
  simp [run, h, h']

end Verif
