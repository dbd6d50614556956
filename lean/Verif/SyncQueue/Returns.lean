import Verif.SyncQueue.Spec
import Verif.Core.Returns
/-! # What a blocking pull returns -/

namespace Verif.SyncQueue

variable {V : Type}

/-- Does the event report the end of a pull of thread `t`? -/
def Event.pullOf (t : Nat) : Event V → Bool
  | .pulled u _ | .noPull u _ | .interrupted u => u == t
  | _ => false

/-- What a blocking pull may end with: an element, "closed", an interruption or, if it has a deadline, "timed out". It never reports "empty" or "busy". -/
def MayReturn (t : Nat) (k : Kind) : Event V → Prop
  | .pulled u _ => u = t
  | .noPull u r => u = t ∧ (r = .closed ∨ (k = .timed ∧ r = .timeout))
  | .interrupted u => u = t
  | _ => False

/-- Where a thread can be inside a pull. -/
def Inside (k : Kind) (p : Option PC) : Prop := p = some (.asleep k) ∨ p = some (.woken k) ∨ (k = .timed ∧ p = some .expired)

theorem Inside.wake {k : Kind} {l : List PC} {t : Nat} (h : Inside k l[t]?) : Inside k (l.map PC.wake)[t]? := by
  rcases h with h | h | ⟨rfl, h⟩ <;> simp [Inside, List.getElem?_map, h, PC.wake]

theorem Inside.set {k : Kind} {l : List PC} {t u : Nat} {p : PC} (hu : u ≠ t) (h : Inside k l[t]?) : Inside k (l.set u p)[t]? := by
  rw [List.getElem?_set_ne hu]; exact h

theorem Inside.lt {k : Kind} {l : List PC} {t : Nat} (h : Inside k l[t]?) : t < l.length := by
  rcases h with h | h | ⟨_, h⟩ <;> exact (List.getElem?_eq_some_iff.mp h).1

theorem pop_returns {front : List V → Nat → Bool} {s s' : State V} {t i : Nat} {k : Kind} {es : List (Event V)} (hs : pop front s t i = some (s', es)) :
    ∃ e rest, es.filter (Event.pullOf t) = e :: rest ∧ MayReturn t k e := by
  simp only [pop] at hs
  split at hs
  · split at hs <;> cases hs
    rename_i v _
    exact ⟨.pulled t v, [], by simp [Event.pullOf], rfl⟩
  · cases hs

theorem pop_other {front : List V → Nat → Bool} {s s' : State V} {t u i : Nat} {k : Kind} {es : List (Event V)} (hu : u ≠ t) (hi : Inside k s.ts[t]?) (hs : pop front s u i = some (s', es)) :
    es.filter (Event.pullOf t) = [] ∧ Inside k s'.ts[t]? := by
  simp only [pop] at hs
  split at hs
  · split at hs <;> cases hs
    exact ⟨by simp [Event.pullOf, hu], hi.set hu⟩
  · cases hs

theorem wait_returns {front : List V → Nat → Bool} {s s' : State V} {t i : Nat} {k : Kind} {es : List (Event V)} (ht : t < s.ts.length) (hs : waitThenPull front s t k i = some (s', es)) :
    (es.filter (Event.pullOf t) = [] ∧ Inside k s'.ts[t]?) ∨ ∃ e rest, es.filter (Event.pullOf t) = e :: rest ∧ MayReturn t k e := by
  simp only [waitThenPull] at hs
  split at hs
  · split at hs
    · exact .inr (pop_returns hs)
    · cases hs; exact .inr ⟨.noPull t .closed, [], by simp [Event.pullOf], by simp [MayReturn]⟩
  · cases hs; exact .inl ⟨rfl, .inl (by simp [ht])⟩

theorem wait_other {front : List V → Nat → Bool} {s s' : State V} {t u i : Nat} {k k' : Kind} {es : List (Event V)} (hu : u ≠ t) (hi : Inside k s.ts[t]?) (hs : waitThenPull front s u k' i = some (s', es)) :
    es.filter (Event.pullOf t) = [] ∧ Inside k s'.ts[t]? := by
  simp only [waitThenPull] at hs
  split at hs
  · split at hs
    · exact pop_other hu hi hs
    · cases hs; exact ⟨by simp [Event.pullOf, hu], hi.set hu⟩
  · cases hs; exact ⟨rfl, hi.set hu⟩

theorem inside_step {front : List V → Nat → Bool} {t : Nat} {k : Kind} {s s' : State V} {l : Label V} {es : List (Event V)} (hi : Inside k s.ts[t]?) (hs : step front s l = some (s', es)) :
    (es.filter (Event.pullOf t) = [] ∧ Inside k s'.ts[t]?) ∨ ∃ e rest, es.filter (Event.pullOf t) = e :: rest ∧ MayReturn t k e := by
  have ne_of : ∀ {u : Nat} {p : PC}, s.ts[u]? = some p → (p = .idle ∨ p = .closing) → u ≠ t := by
    intro u p hp hpc e
    subst e
    rw [hp] at hi
    rcases hi with h | h | ⟨_, h⟩ <;> cases h <;> simp at hpc
  cases l <;> simp only [step] at hs
  case resume u i =>
    split at hs <;> try cases hs
    · rename_i k' hp
      by_cases hu : u = t
      · subst hu
        rw [hp] at hi
        rcases hi with h | h | ⟨_, h⟩ <;> cases h
        exact wait_returns (List.getElem?_eq_some_iff.mp hp).1 hs
      · exact .inl (wait_other hu hi hs)
    · rename_i hp
      by_cases hu : u = t
      · subst hu
        rw [hp] at hi
        rcases hi with h | h | ⟨hk, h⟩ <;> cases h
        split at hs
        · split at hs
          · exact .inr (pop_returns hs)
          · cases hs; exact .inr ⟨.noPull u .closed, [], by simp [Event.pullOf], by simp [MayReturn]⟩
        · cases hs; exact .inr ⟨.noPull u .timeout, [], by simp [Event.pullOf], by simp [MayReturn, hk]⟩
      · refine .inl ?_
        split at hs
        · split at hs
          · exact pop_other hu hi hs
          · cases hs; exact ⟨by simp [Event.pullOf, hu], hi.set hu⟩
        · cases hs; exact ⟨by simp [Event.pullOf, hu], hi.set hu⟩
  case spurious u =>
    split at hs <;> cases hs
    rename_i hp
    by_cases hu : u = t
    · subst hu
      have hlt := hi.lt
      rw [hp] at hi
      rcases hi with h | h | ⟨_, h⟩ <;> cases h
      exact .inl ⟨rfl, .inr (.inl (by simp [hlt]))⟩
    · exact .inl ⟨rfl, hi.set hu⟩
  case timeout u =>
    split at hs <;> cases hs
    all_goals
      rename_i hp
      by_cases hu : u = t
      · subst hu
        have hlt := hi.lt
        rw [hp] at hi
        rcases hi with h | h | ⟨_, h⟩ <;> cases h
        exact .inl ⟨rfl, .inr (.inr ⟨rfl, by simp [hlt]⟩)⟩
      · exact .inl ⟨rfl, hi.set hu⟩
  case interrupt u =>
    split at hs <;> cases hs
    all_goals
      by_cases hu : u = t
      · subst hu; exact .inr ⟨.interrupted u, [], by simp [Event.pullOf], rfl⟩
      · exact .inl ⟨by simp [Event.pullOf, hu], hi.set hu⟩
  all_goals refine .inl ?_
  case pull => split at hs <;> try cases hs
               rename_i hp; exact wait_other (ne_of hp (.inl rfl)) hi hs
  case push =>
    split at hs <;> try cases hs
    split at hs <;> cases hs
    · exact ⟨rfl, hi⟩
    · exact ⟨rfl, hi.wake⟩
  case tryPull =>
    split at hs <;> try cases hs
    rename_i hp
    have hu := ne_of hp (.inl rfl)
    split at hs
    · split at hs <;> cases hs <;> exact ⟨by simp [Event.pullOf, hu], hi⟩
    · exact pop_other hu hi hs
  case busyPull => split at hs <;> cases hs
                   rename_i hp; exact ⟨by simp [Event.pullOf, ne_of hp (.inl rfl)], hi⟩
  case close => split at hs <;> cases hs
                rename_i hp; exact ⟨rfl, hi.set (ne_of hp (.inl rfl))⟩
  case closeNotify => split at hs <;> cases hs
                      rename_i hp; exact ⟨rfl, (hi.set (ne_of hp (.inr rfl))).wake⟩
  all_goals split at hs <;> cases hs <;> exact ⟨rfl, hi⟩

/-- **C26**, what a blocking pull may return. From any state, whatever the other threads do, a blocking pull ends with an element, with "closed" or with an interruption; only one with a deadline may
time out, and none reports "empty" or "busy". -/
theorem call_returns (front : List V → Nat → Bool) (s s' : State V) (ls : List (Label V)) (es : List (Event V)) (t i : Nat) (k : Kind) (h : run (step front) s (.pull t k i :: ls) = some (s', es)) :
    ∀ e rest, es.filter (Event.pullOf t) = e :: rest → MayReturn t k e := by
  refine first_return_call (Event.pullOf t) (fun s => Inside k s.ts[t]?) (MayReturn t k) (fun s l s' es hi hs => inside_step hi hs) ?_ h
  intro s1 es1 hs
  simp only [step] at hs
  split at hs
  · rename_i hp
    exact wait_returns (List.getElem?_eq_some_iff.mp hp).1 hs
  · cases hs

-- a consumer waits, another times out, an element comes, and the first one gets it
example : (run (step fifo) (init Nat 3) [.pull 0 .status 0, .pull 1 .timed 0, .timeout 1, .resume 1 0, .push 2 5, .resume 0 0]).map
    (fun r => (r.2.filter (Event.pullOf 0), r.2.filter (Event.pullOf 1))) = some ([.pulled 0 5], [.noPull 1 .timeout]) := by decide +kernel

end Verif.SyncQueue
