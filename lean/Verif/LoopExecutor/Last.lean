import Verif.Core.Last
import Verif.LoopExecutor.Props
/-! # `loop_executor`: nothing happens after `std::terminate` -/

namespace Verif.LoopExecutor

/-- When a closure's exception has ended the program, nothing more is seen. -/
theorem terminate_is_last {us : Bool} {ls : List Label} {s : State} {es pre post : List Event} (h : run (step us) init ls = some (s, es)) (hes : es = pre ++ .terminated :: post) : post = [] := by
  refine last_of_run (fun e => e = .terminated) (fun s => s.phase = .dead) (fun s l hd => by simp [step, hd]) ?_ h rfl hes
  intro s l s' es hs pre e post he hx
  by_cases hT : ∃ i, es = i ++ [.terminated] ∧ (∀ y ∈ i, ¬ y = Event.terminated) ∧ s'.phase = .dead
  · obtain ⟨i, rfl, hi, hd⟩ := hT
    exact ⟨hd, split_last (T := fun e => e = .terminated) hi he hx⟩
  · refine none_in (T := fun e => e = Event.terminated) ?_ he hx
    unfold step at hs
    split at hs
    · cases l with
      | throw t =>
        simp only [throw] at hs
        (repeat' split at hs) <;> cases hs <;> first | (simp; done) | exact absurd ⟨[_], rfl, by simp, rfl⟩ hT
      | _ =>
        simp only [submit, tryExec, runQueued, go, start, finish, crash] at hs
        (repeat' split at hs) <;> cases hs <;> (repeat' split) <;> simp
    · cases hs

example : ∃ s, run (step false) init [.submit 0, .tryExec 1, .start 1, .throw 1] = some (s, [.submitted 0 0, .tryTook 1 0, .started 1 0, .threw 1 0] ++ .terminated :: []) := ⟨_, rfl⟩

end Verif.LoopExecutor
