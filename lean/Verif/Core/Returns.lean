import Verif.Core.Run
/-!
# What a call returns

Helper for statements of the form "the first thing a thread reports after it has called `f` is one of the results of `f`". Nothing here models code of the repository.
-/

namespace Verif

/-- If, as long as `I` holds, each step either reports nothing about the thread and keeps `I`, or reports first something `ok`, then the first report is `ok`. -/
theorem first_return {S L E : Type} {step : S → L → Option (S × List E)} (mine : E → Bool) (I : S → Prop) (ok : E → Prop)
    (hstep : ∀ s l s' es, I s → step s l = some (s', es) → (es.filter mine = [] ∧ I s') ∨ ∃ e rest, es.filter mine = e :: rest ∧ ok e) :
    ∀ {ls : List L} {s s' : S} {es : List E}, I s → run step s ls = some (s', es) → ∀ e rest, es.filter mine = e :: rest → ok e := by
  intro ls
  induction ls with
  | nil => intro s s' es _ h e rest he; cases h; cases he
  | cons l ls ih =>
    intro s s' es hi h e rest he
    simp only [run] at h
    split at h
    · cases h
    split at h <;> cases h
    rename_i s1 es1 hs1 _ es2 hs2
    rw [List.filter_append] at he
    rcases hstep _ _ _ _ hi hs1 with ⟨h0, hi'⟩ | ⟨e', rest', h0, hok⟩
    · rw [h0] at he
      exact ih hi' hs2 e rest he
    · rw [h0] at he
      cases he
      exact hok

/-- The same from the step that makes the call. -/
theorem first_return_call {S L E : Type} {step : S → L → Option (S × List E)} (mine : E → Bool) (I : S → Prop) (ok : E → Prop)
    (hstep : ∀ s l s' es, I s → step s l = some (s', es) → (es.filter mine = [] ∧ I s') ∨ ∃ e rest, es.filter mine = e :: rest ∧ ok e)
    {s s' : S} {l : L} {ls : List L} {es : List E}
    (hcall : ∀ s' es, step s l = some (s', es) → (es.filter mine = [] ∧ I s') ∨ ∃ e rest, es.filter mine = e :: rest ∧ ok e)
    (h : run step s (l :: ls) = some (s', es)) : ∀ e rest, es.filter mine = e :: rest → ok e := by
  intro e rest he
  simp only [run] at h
  split at h
  · cases h
  split at h <;> cases h
  rename_i s1 es1 hs1 _ es2 hs2
  rw [List.filter_append] at he
  rcases hcall _ _ hs1 with ⟨h0, hi'⟩ | ⟨e', rest', h0, hok⟩
  · rw [h0] at he
    exact first_return mine I ok hstep hi' hs2 e rest he
  · rw [h0] at he
    cases he
    exact hok

end Verif
