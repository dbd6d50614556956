import Verif.Latch.Spec
import Verif.Core.Returns
/-! # What a wait on a latch returns -/

namespace Verif.Latch

/-- Does the event report the end of a wait of thread `t`? -/
def Event.waitOf (t : Nat) : Event → Bool
  | .passed u | .timedOut u | .interrupted u => u == t
  | _ => false

/-- What a wait may end with. Only a wait with a deadline may time out. -/
def MayReturn (t : Nat) (timed : Bool) (e : Event) : Prop := e = .passed t ∨ e = .interrupted t ∨ (timed = true ∧ e = .timedOut t)

/-- Where a thread can be inside a wait. -/
def Inside (timed : Bool) (p : Option PC) : Prop := ∃ m g, p = some (.inside timed m g) ∧ (m = .expired → timed = true)

theorem Inside.wake {timed : Bool} {l : List PC} {t : Nat} (h : Inside timed l[t]?) : Inside timed (l.map PC.wake)[t]? := by
  obtain ⟨m, g, h, hm⟩ := h
  cases m <;> simp [Inside, List.getElem?_map, h, PC.wake] <;> exact hm rfl

theorem Inside.set {timed : Bool} {l : List PC} {t u : Nat} {p : PC} (hu : u ≠ t) (h : Inside timed l[t]?) : Inside timed (l.set u p)[t]? := by
  rw [List.getElem?_set_ne hu]; exact h

theorem countDown_inside {timed : Bool} {s : State} {t : Nat} (h : Inside timed s.ts[t]?) : Inside timed (countDown s).1.ts[t]? := by
  simp only [countDown]
  split
  · exact h
  split
  · exact h.wake
  · exact h

theorem inside_step {t : Nat} {timed : Bool} {s s' : State} {l : Label} {es : List Event} (hi : Inside timed s.ts[t]?) (hs : step s l = some (s', es)) :
    (es.filter (Event.waitOf t) = [] ∧ Inside timed s'.ts[t]?) ∨ ∃ e rest, es.filter (Event.waitOf t) = e :: rest ∧ MayReturn t timed e := by
  have ne_of : ∀ {u : Nat}, s.ts[u]? = some .idle → u ≠ t := by
    intro u hp e
    subst e
    obtain ⟨_, _, h, _⟩ := hi
    rw [hp] at h
    cases h
  have at_ : ∀ {u : Nat} {k : Bool} {m : Mode} {g : Nat}, s.ts[u]? = some (.inside k m g) → u = t → k = timed ∧ (m = .expired → timed = true) ∧ t < s.ts.length := by
    intro u k m g hp e
    subst e
    obtain ⟨_, _, h, hm⟩ := hi
    rw [hp] at h
    cases h
    exact ⟨rfl, hm, (List.getElem?_eq_some_iff.mp hp).1⟩
  cases l <;> simp only [step] at hs
  case wait u k =>
    split at hs <;> try cases hs
    rename_i hp
    have hu := ne_of hp
    split at hs <;> cases hs
    · exact .inl ⟨by simp [Event.waitOf, hu], hi⟩
    · exact .inl ⟨rfl, hi.set hu⟩
  case tryWait => split at hs <;> cases hs; exact .inl ⟨rfl, hi⟩
  case countDown => split at hs <;> cases hs; exact .inl ⟨rfl, countDown_inside hi⟩
  case tryCountDown =>
    split at hs <;> cases hs
    refine .inl ⟨rfl, ?_⟩
    simp only [tryCountDown]
    split
    · exact countDown_inside hi
    · exact hi
  case countDownAndWait u =>
    split at hs <;> try cases hs
    rename_i hp
    have hu := ne_of hp
    split at hs <;> cases hs
    · exact .inl ⟨by simp [Event.waitOf, hu], countDown_inside hi⟩
    · exact .inl ⟨rfl, (countDown_inside hi).set hu⟩
  case reset => split at hs <;> cases hs; exact .inl ⟨rfl, hi⟩
  case resume u =>
    split at hs <;> try cases hs
    · rename_i k g hp
      by_cases hu : u = t
      · obtain ⟨rfl, _, hlt⟩ := at_ hp hu
        subst hu
        split at hs <;> cases hs
        · exact .inr ⟨.passed u, [], by simp [Event.waitOf], .inl rfl⟩
        · exact .inl ⟨rfl, .asleep, g, by simp [hlt], by simp⟩
      · split at hs <;> cases hs <;> exact .inl ⟨by simp [Event.waitOf, hu], hi.set hu⟩
    · rename_i k g hp
      by_cases hu : u = t
      · obtain ⟨rfl, hm, hlt⟩ := at_ hp hu
        subst hu
        split at hs <;> cases hs
        · exact .inr ⟨.passed u, [], by simp [Event.waitOf], .inl rfl⟩
        · exact .inr ⟨.timedOut u, [], by simp [Event.waitOf], .inr (.inr ⟨hm rfl, rfl⟩)⟩
      · split at hs <;> cases hs <;> exact .inl ⟨by simp [Event.waitOf, hu], hi.set hu⟩
  case spurious u =>
    split at hs <;> cases hs
    rename_i k g hp
    by_cases hu : u = t
    · obtain ⟨rfl, hm, hlt⟩ := at_ hp hu
      subst hu
      exact .inl ⟨rfl, .woken, g, by simp [hlt], by simp⟩
    · exact .inl ⟨rfl, hi.set hu⟩
  case timeout u =>
    split at hs <;> cases hs
    all_goals
      rename_i g hp
      by_cases hu : u = t
      · obtain ⟨rfl, hm, hlt⟩ := at_ hp hu
        subst hu
        exact .inl ⟨rfl, .expired, g, by simp [hlt], by simp⟩
      · exact .inl ⟨rfl, hi.set hu⟩
  case interrupt u =>
    split at hs <;> cases hs
    by_cases hu : u = t
    · subst hu; exact .inr ⟨.interrupted u, [], by simp [Event.waitOf], .inr (.inl rfl)⟩
    · exact .inl ⟨by simp [Event.waitOf, hu], hi.set hu⟩

/-- **C23**, what a wait may return. From any state, whatever the other threads do, a wait without a deadline does not time out. -/
theorem call_returns (s s' : State) (ls : List Label) (es : List Event) (t : Nat) (timed : Bool) (h : run step s (.wait t timed :: ls) = some (s', es)) :
    ∀ e rest, es.filter (Event.waitOf t) = e :: rest → MayReturn t timed e := by
  refine first_return_call (Event.waitOf t) (fun s => Inside timed s.ts[t]?) (MayReturn t timed) (fun s l s' es hi hs => inside_step hi hs) ?_ h
  intro s1 es1 hs
  simp only [step] at hs
  split at hs
  · rename_i hp
    obtain ⟨hlt, _⟩ := List.getElem?_eq_some_iff.mp hp
    split at hs <;> cases hs
    · exact .inr ⟨.passed t, [], by simp [Event.waitOf], .inl rfl⟩
    · exact .inl ⟨by simp [Event.waitOf], .asleep, s.generation, by simp [hlt], by simp⟩
  · cases hs

/-- **C23**, the same for `count_down_and_wait`, which has no deadline. -/
theorem count_down_and_wait_returns (s s' : State) (ls : List Label) (es : List Event) (t : Nat) (h : run step s (.countDownAndWait t :: ls) = some (s', es)) :
    ∀ e rest, es.filter (Event.waitOf t) = e :: rest → MayReturn t false e := by
  refine first_return_call (Event.waitOf t) (fun s => Inside false s.ts[t]?) (MayReturn t false) (fun s l s' es hi hs => inside_step hi hs) ?_ h
  intro s1 es1 hs
  simp only [step] at hs
  split at hs
  · rename_i hp
    obtain ⟨hlt, _⟩ := List.getElem?_eq_some_iff.mp hp
    have hlt' : t < (countDown s).1.ts.length := by
      simp only [countDown]
      repeat' split
      all_goals simp [hlt]
    split at hs <;> cases hs
    · exact .inr ⟨.passed t, [], by simp [Event.waitOf], .inl rfl⟩
    · exact .inl ⟨by simp [Event.waitOf], .asleep, s.generation, by simp [hlt'], by simp⟩
  · cases hs

-- a wait with a deadline gives up, one without passes
example : (run step (init 1 3) [.wait 0 false, .wait 1 true, .timeout 1, .resume 1, .countDown 2, .resume 0]).map
    (fun r => (r.2.filter (Event.waitOf 0), r.2.filter (Event.waitOf 1))) = some ([.passed 0], [.timedOut 1]) := by decide +kernel
example : (run step (init 2 2) [.countDownAndWait 0, .countDownAndWait 1, .resume 0]).map (fun r => (r.2.filter (Event.waitOf 0), r.2.filter (Event.waitOf 1))) = some ([.passed 0], [.passed 1]) := by
  decide +kernel

end Verif.Latch
