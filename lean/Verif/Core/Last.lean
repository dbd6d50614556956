import Verif.Core.Run
/-! # Events after which nothing happens -/

namespace Verif

/-- If a step that shows an event in `T` shows it last and leads to a state without steps, then such an event is the last of every history. -/
theorem last_of_run {S L E : Type} {step : S → L → Option (S × List E)} (T : E → Prop) (D : S → Prop) (hD : ∀ s l, D s → step s l = none)
    (hT : ∀ s l s' es, step s l = some (s', es) → ∀ pre e post, T e → es = pre ++ e :: post → D s' ∧ post = [])
    {ls : List L} {s s' : S} {es : List E} (h : run step s ls = some (s', es)) {pre post : List E} {e : E} (he : T e) (hes : es = pre ++ e :: post) : post = [] := by
  have key := run_inv_hist (step := step) (fun s h => ∀ pre e post, T e → h = pre ++ e :: post → D s ∧ post = [])
    (fun s l s' h es hi hs pre e post he hx => by
      rcases List.append_eq_append_iff.1 hx with ⟨a, rfl, h5⟩ | ⟨a, h4, h5⟩
      · exact hT s l s' es hs a e post he h5
      · cases a with
        | nil => exact hT s l s' es hs [] e post he (by simpa using h5.symm)
        | cons x a =>
          simp only [List.cons_append, List.cons.injEq] at h5
          obtain ⟨rfl, -⟩ := h5
          have := hD s l (hi pre e a he h4).1
          rw [this] at hs; cases hs)
    (hist := []) (by simp) h
  exact (key pre e post he (by simpa using hes)).2

/-- The case that is easy to check: the event is the last of the step and does not occur before. -/
theorem split_last {E : Type} {T : E → Prop} {init pre post : List E} {e x : E} (hi : ∀ y ∈ init, ¬ T y) (he : T e) (h : init ++ [x] = pre ++ e :: post) : post = [] := by
  induction init generalizing pre with
  | nil =>
    cases pre with
    | nil => simp only [List.nil_append, List.cons.injEq] at h; exact h.2.symm
    | cons y pre => simp at h
  | cons y init ih =>
    cases pre with
    | nil => simp only [List.cons_append, List.nil_append, List.cons.injEq] at h; exact absurd (h.1 ▸ he) (hi y List.mem_cons_self)
    | cons z pre =>
      simp only [List.cons_append, List.cons.injEq] at h
      exact ih (fun y hy => hi y (List.mem_cons_of_mem _ hy)) h.2

/-- A step that shows no event in `T`. -/
theorem none_in {E : Type} {T : E → Prop} {es pre post : List E} {e : E} {P : Prop} (hi : ∀ y ∈ es, ¬ T y) (he : T e) (h : es = pre ++ e :: post) : P :=
  absurd he (hi e (by rw [h]; simp))

end Verif
