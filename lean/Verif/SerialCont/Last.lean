import Verif.Core.Last
import Verif.SerialCont.Props
/-! # `serial_executor_cont`: nothing happens after `std::terminate` (C57) -/

namespace Verif.SerialCont

/-- When a closure's exception has ended the program, nothing more is seen. -/
theorem terminate_is_last {ls : List Label} {s : State} {es pre post : List Event} {c : Nat} (h : run step init ls = some (s, es)) (hes : es = pre ++ .terminated c :: post) : post = [] := by
  refine last_of_run (fun e => ∃ c, e = .terminated c) (fun s => s.dead = true) (fun s l hd => by simp [step, hd]) ?_ h ⟨c, rfl⟩ hes
  intro s l s' es hs pre e post he hx
  by_cases hT : ∃ c, es = [.terminated c] ∧ s'.dead = true
  · obtain ⟨d, rfl, hd⟩ := hT
    exact ⟨hd, split_last (T := fun e => ∃ c, e = .terminated c) (init := []) (by simp) he hx⟩
  · refine none_in (T := fun e => ∃ c, e = Event.terminated c) ?_ he hx
    unfold step at hs
    split at hs
    · cases hs
    · cases l <;> simp only [stepLive, stepGo, stepGive, stepGiveInline, stepReject, stepMark, stepPass, stepPassReject, accessEx] at hs <;> (repeat' split at hs) <;> cases hs <;> simp at hT ⊢ <;> (try split) <;> simp

example : ∃ s, run step init [.call (.client 0) .submit, .go (.client 0), .go (.client 0), .give (.client 0), .begin 0, .throw 0] =
    some (s, [.called (.client 0) .submit, .queued (.client 0) 0, .submitted (.client 0) 0, .started 0] ++ .terminated 0 :: []) := ⟨_, rfl⟩

end Verif.SerialCont
