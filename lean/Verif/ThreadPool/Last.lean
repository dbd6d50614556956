import Verif.Core.Last
import Verif.ThreadPool.Props
/-! # `basic_thread_pool`: nothing happens after `std::terminate` -/

namespace Verif.ThreadPool

/-- When the program has been ended, by a closure or by a constructor that failed, nothing more is seen. -/
theorem terminate_is_last {n : Nat} {ls : List Label} {s : State} {es pre post : List Event} (h : run (step n) init ls = some (s, es)) (hes : es = pre ++ .terminated :: post) : post = [] := by
  refine last_of_run (fun e => e = .terminated) (fun s => s.phase = .dead) (fun s l hd => by cases l <;> simp [step, spawn, spawnFails, unwind, hd]) ?_ h rfl hes
  intro s l s' es hs pre e post he hx
  by_cases hT : ∃ i, es = i ++ [.terminated] ∧ (∀ y ∈ i, ¬ y = Event.terminated) ∧ s'.phase = .dead
  · obtain ⟨i, rfl, hi, hd⟩ := hT
    exact ⟨hd, split_last (T := fun e => e = .terminated) hi he hx⟩
  · refine none_in (T := fun e => e = Event.terminated) ?_ he hx
    cases l with
    | unwind =>
      simp only [step, unwind] at hs
      (repeat' split at hs) <;> cases hs <;> first | (simp; done) | exact absurd ⟨[], rfl, by simp, rfl⟩ hT
    | finish t how =>
      simp only [step, finish] at hs
      (repeat' split at hs) <;> cases hs <;> first | (simp; done) | exact absurd ⟨[_], rfl, by simp, rfl⟩ hT
    | destroy t =>
      simp only [step, begin] at hs
      (repeat' split at hs) <;> simp at hs
      obtain ⟨-, rfl⟩ := hs; simp
    | _ =>
      simp only [step, spawn, spawnFails, work, submit, tryExec, start, begin, go] at hs
      (repeat' split at hs) <;> cases hs <;> (repeat' split) <;> simp

example : ∃ s, run (step 1) init [.spawn, .spawn, .submit 5, .work 0, .start 0, .finish 0 .threw] =
    some (s, [.constructed, .submitted 5 0, .started 0 0, .ended 0 0 .threw] ++ .terminated :: []) := ⟨_, rfl⟩

end Verif.ThreadPool
