import Verif.Core.Last
import Verif.ScopedThread.Props
/-! # `scoped_thread`: nothing happens after `std::terminate` -/

namespace Verif.ScopedThread

/-- When the destructor has ended the program, nothing more is seen. -/
theorem terminate_is_last {fn : Fn} {ls : List Label} {s : State} {es pre post : List Event} {o : Nat} (h : run (step fn) {} ls = some (s, es)) (hes : es = pre ++ .terminated o :: post) : post = [] := by
  refine last_of_run (fun e => ∃ c, e = .terminated c) (fun s => s.dead = true) (fun s l hd => by simp [step, hd]) ?_ h ⟨o, rfl⟩ hes
  intro s l s' es hs pre e post he hx
  by_cases hT : ∃ i c, es = i ++ [.terminated c] ∧ (∀ y ∈ i, ¬ ∃ c, y = Event.terminated c) ∧ s'.dead = true
  · obtain ⟨i, d, rfl, hi, hd⟩ := hT
    exact ⟨hd, split_last (T := fun e => ∃ c, e = .terminated c) hi he hx⟩
  · have ha : ∀ o j y, y ∈ (act fn s o j).2.1 → ¬ ∃ c, y = Event.terminated c := by
      intro o j y hy
      rintro ⟨c, rfl⟩
      unfold act at hy
      cases hsl : s.slot o with
      | none => simp [hsl] at hy
      | some t => cases fn <;> cases j <;> simp [hsl, doDetach, doJoin] at hy
    refine none_in (T := fun e => ∃ c, e = Event.terminated c) ?_ he hx
    unfold step at hs
    split at hs
    · cases hs
    · cases l with
      | destroy o j =>
        simp only at hs
        split at hs
        · cases hs
        · split at hs <;> cases hs
          next es0 heq => exact absurd ⟨es0, o, rfl, by have := ha o j; rw [heq] at this; exact this, rfl⟩ hT
          next es0 heq =>
            have := ha o j; rw [heq] at this
            intro y hy; rcases List.mem_append.1 hy with hy | hy
            · exact this y hy
            · simp at hy; simp [hy]
      | assign d src j =>
        simp only at hs
        split at hs
        · cases hs
        · split at hs <;> cases hs
          next heq => have := ha d j; rw [heq] at this; exact this
          next es0 heq =>
            have := ha d j; rw [heq] at this
            intro y hy; rcases List.mem_append.1 hy with hy | hy
            · exact this y hy
            · simp at hy; simp [hy]
      | join o j => cases j <;> simp only [doJoin] at hs <;> (repeat' split at hs) <;> cases hs <;> simp
      | _ => simp only [doDetach] at hs <;> (repeat' split at hs) <;> cases hs <;> simp

example : ∃ s, run (step .joinIf) {} [.make 0, .destroy 0 .self] = some (s, [.made 0 0, .joinThrew 0 0] ++ .terminated 0 :: []) := ⟨_, rfl⟩

end Verif.ScopedThread
