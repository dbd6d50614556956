import Verif.Core.Last
import Verif.SerialExecutor.Props
/-! # `serial_executor`: nothing happens after `std::terminate` -/

namespace Verif.SerialExecutor

/-- When the program has been ended, by a closed underlying executor or by an interruption, nothing more is seen. -/
theorem terminate_is_last {cap : Nat} {ls : List Label} {s : State} {es pre post : List Event} (h : run (step cap) init ls = some (s, es)) (hes : es = pre ++ .terminated :: post) : post = [] := by
  refine last_of_run (fun e => e = .terminated) (fun s => s.phase = .dead) (fun s l hd => by cases l <;> simp [step, running, hd]) ?_ h rfl hes
  intro s l s' es hs pre e post he hx
  by_cases hT : ∃ i, es = i ++ [.terminated] ∧ (∀ y ∈ i, ¬ y = Event.terminated) ∧ s'.phase = .dead
  · obtain ⟨i, rfl, hi, hd⟩ := hT
    exact ⟨hd, split_last (T := fun e => e = .terminated) hi he hx⟩
  · refine none_in (T := fun e => e = Event.terminated) ?_ he hx
    have ht : ∀ k, tryStep s k = some (s', es) → ∀ y ∈ es, ¬ y = Event.terminated := by
      intro k hk
      unfold tryStep at hk
      (repeat' split at hk) <;> cases hk <;> first | exact absurd ⟨[], rfl, by simp, rfl⟩ hT | (simp [seen]; done) | (unfold seen; split <;> simp)
    cases l with
    | go k =>
      simp only [step, worker] at hs
      (repeat' split at hs) <;> first | (cases hs <;> simp; done) | exact ht _ hs | exact ht .worker (by simpa using hs)
    | interrupt k =>
      simp only [step, interrupt] at hs
      (repeat' split at hs) <;> cases hs
      all_goals exact absurd ⟨[.interrupted _], rfl, by simp, rfl⟩ hT
    | _ =>
      simp only [step, submit, exStart, exEnd] at hs
      (repeat' split at hs) <;> cases hs <;> (try split) <;> simp

example : ∃ s, run (step 1) init [.exClose, .submit (.client 7), .go .worker, .go .worker, .go .worker] = some (s, [.underlyingClosed, .submitted (.client 7) 0] ++ .terminated :: []) := ⟨_, rfl⟩

end Verif.SerialExecutor
