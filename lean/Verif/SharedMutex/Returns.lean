import Verif.SharedMutex.Spec
import Verif.Core.Returns
/-! # What the calls on a shared mutex return -/

namespace Verif.SharedMutex

/-- Does the event report the return of a call of thread `t`? -/
def Event.returnOf (t : Nat) : Event → Bool
  | .granted u _ | .timedOut u _ | .tried u _ _ | .released u _ | .downgraded u _ => u == t
  | .blocked _ _ | .called _ _ => false

/-- What a blocking or timed call may return: only a timed one may fail. -/
def MayReturn (t : Nat) (op : Op) (timed : Bool) (e : Event) : Prop := e = .granted t op ∨ (timed = true ∧ e = .timedOut t op)

/-- Where a thread can be inside a call. -/
def Inside (op : Op) (timed : Bool) (p : PC) : Prop := p = .asleep op timed ∨ p = .woken op timed ∨ (timed = true ∧ p = .expired op)

/-- The thread is inside the call. -/
def InCall (t : Nat) (op : Op) (timed : Bool) (ts : List PC) : Prop := ∃ p, ts[t]? = some p ∧ Inside op timed p

theorem notifyOne_inside {c : Cond} {ts ts' : List PC} {w : Option Nat} {t : Nat} {op : Op} {timed : Bool} (h : notifyOne c ts w = some ts') (hi : InCall t op timed ts) : InCall t op timed ts' := by
  obtain ⟨p, hp, hi⟩ := hi
  cases w with
  | none => simp only [notifyOne] at h; split at h <;> cases h; exact ⟨p, hp, hi⟩
  | some u =>
    simp only [notifyOne] at h
    split at h
    · rename_i op' tm hk
      split at h <;> cases h
      by_cases hu : u = t
      · subst hu
        rw [hk] at hp; cases hp
        simp only [Inside, PC.asleep.injEq, reduceCtorEq, and_false, or_false] at hi
        obtain ⟨rfl, rfl⟩ := hi
        exact ⟨_, List.getElem?_set_self (by grind), .inr (.inl rfl)⟩
      · exact ⟨p, by rw [List.getElem?_set_ne hu]; exact hp, hi⟩
    · split at h <;> cases h
      exact ⟨p, hp, hi⟩
    · cases h

theorem notifyAll_inside {ts : List PC} {t : Nat} {op : Op} {timed : Bool} (hi : InCall t op timed ts) : InCall t op timed (notifyAllShared ts) := by
  obtain ⟨p, hp, hi⟩ := hi
  refine ⟨p.wakeShared, by simp [notifyAllShared, hp], ?_⟩
  rcases hi with rfl | rfl | ⟨h, rfl⟩ <;> simp only [PC.wakeShared]
  · split
    · exact .inr (.inl rfl)
    · exact .inl rfl
  · exact .inr (.inl rfl)
  · exact .inr (.inr ⟨h, rfl⟩)

theorem releaseWaiters_inside {ts ts' : List PC} {w : Option Nat} {t : Nat} {op : Op} {timed : Bool} (h : releaseWaiters ts w = some ts') (hi : InCall t op timed ts) : InCall t op timed ts' := by
  simp only [releaseWaiters, Option.map_eq_some_iff] at h
  obtain ⟨ts1, h1, rfl⟩ := h
  exact notifyAll_inside (notifyOne_inside h1 hi)

theorem set_inside {ts : List PC} {t u : Nat} {q : PC} {op : Op} {timed : Bool} (hu : u ≠ t) (hi : InCall t op timed ts) : InCall t op timed (ts.set u q) := by
  obtain ⟨p, hp, hi⟩ := hi
  exact ⟨p, by rw [List.getElem?_set_ne hu]; exact hp, hi⟩

theorem callEvents_quiet (t u : Nat) (op : Op) : (op.callEvents u).filter (Event.returnOf t) = [] := by cases op <;> simp [Op.callEvents, Event.returnOf]

theorem inside_step {t : Nat} {op : Op} {timed : Bool} {s s' : State} {l : Label} {es : List Event} (hi : InCall t op timed s.ts) (hs : step s l = some (s', es)) :
    (es.filter (Event.returnOf t) = [] ∧ InCall t op timed s'.ts) ∨ ∃ e rest, es.filter (Event.returnOf t) = e :: rest ∧ MayReturn t op timed e := by
  have hidle : ∀ u, s.ts[u]? = some .idle → u ≠ t := by
    rintro u hu rfl
    obtain ⟨p, hp, hi⟩ := hi
    rw [hu] at hp; cases hp
    simp [Inside] at hi
  cases l with
  | call u op' tm =>
    simp only [step] at hs
    (repeat' split at hs) <;> cases hs
    all_goals
      rename_i hu _ _
      have hne := hidle u hu
      refine .inl ⟨by simp [List.filter_append, callEvents_quiet, Event.returnOf, hne], ?_⟩
      first | exact hi | exact set_inside hne hi
  | tryCall u op' =>
    simp only [step] at hs
    (repeat' split at hs) <;> cases hs
    all_goals
      rename_i hu _
      have hne := hidle u hu
      exact .inl ⟨by simp [Event.returnOf, hne], hi⟩
  | unlock u m w v =>
    simp only [step] at hs
    split at hs
    rotate_left
    · cases hs
    rename_i hu
    have hne := hidle u hu
    have key : (∀ e ∈ es, e = .released u m) → InCall t op timed s'.ts → (es.filter (Event.returnOf t) = [] ∧ InCall t op timed s'.ts) ∨ ∃ e rest, es.filter (Event.returnOf t) = e :: rest ∧ MayReturn t op timed e := by
      intro h1 h2
      refine .inl ⟨?_, h2⟩
      rw [List.filter_eq_nil_iff]
      intro e he
      rw [h1 e he]
      simp [Event.returnOf, hne]
    cases m <;> simp only [unlock] at hs <;> (repeat' split at hs) <;> cases hs <;> refine key (by simp) ?_
    · rename_i h1 _ _ h2
      exact releaseWaiters_inside h2 (notifyOne_inside h1 hi)
    · rename_i h1
      exact releaseWaiters_inside h1 hi
    · exact hi
    · rename_i h1
      exact releaseWaiters_inside h1 hi
    · exact notifyAll_inside hi
    · rename_i h1
      exact releaseWaiters_inside h1 hi
  | down u c w =>
    simp only [step] at hs
    split at hs
    rotate_left
    · cases hs
    rename_i hu
    have hne := hidle u hu
    simp only [down] at hs
    split at hs <;> cases hs
    rename_i ts hts
    exact .inl ⟨by simp [Event.returnOf, hne], releaseWaiters_inside hts hi⟩
  | spurious u | timeout u =>
    simp only [step] at hs
    split at hs <;> cases hs
    rename_i hu
    refine .inl ⟨rfl, ?_⟩
    by_cases hne : u = t
    · subst hne
      obtain ⟨p, hp, hi⟩ := hi
      rw [hu] at hp; cases hp
      refine ⟨_, List.getElem?_set_self (by grind), ?_⟩
      simp only [Inside, PC.asleep.injEq, reduceCtorEq, and_false, or_false] at hi
      simp [Inside, hi]
    · exact set_inside hne hi
  | resume u w =>
    simp only [step] at hs
    by_cases hne : u = t
    · subst hne
      obtain ⟨p, hp, hi⟩ := hi
      rw [hp] at hs
      have hlt : u < s.ts.length := by grind
      rcases hi with rfl | rfl | ⟨rfl, rfl⟩ <;> simp only at hs
      · cases hs
      · split at hs <;> cases hs
        · exact .inr ⟨_, [], by simp [Event.returnOf], .inl rfl⟩
        · exact .inl ⟨rfl, _, List.getElem?_set_self hlt, .inl rfl⟩
      · (repeat' split at hs) <;> cases hs
        · exact .inr ⟨_, [], by simp [Event.returnOf], .inl rfl⟩
        · exact .inr ⟨_, [], by simp [Event.returnOf], .inr ⟨rfl, rfl⟩⟩
        · exact .inr ⟨_, [], by simp [Event.returnOf], .inr ⟨rfl, rfl⟩⟩
    · (repeat' split at hs) <;> cases hs
      all_goals refine .inl ⟨by simp [Event.returnOf, hne], ?_⟩
      all_goals first
        | exact set_inside hne hi
        | (rename_i h; exact releaseWaiters_inside h (set_inside hne hi))

/-- **C07, what a call may return.** From any state, whatever the other threads do, a blocking call returns only with what it asked for; it never gives up. A timed call returns with it or fails. -/
theorem call_returns (s s' : State) (ls : List Label) (es : List Event) (t : Nat) (op : Op) (timed : Bool) (h : run step s (.call t op timed :: ls) = some (s', es)) :
    ∀ e rest, es.filter (Event.returnOf t) = e :: rest → MayReturn t op timed e := by
  refine first_return_call (Event.returnOf t) (fun s => InCall t op timed s.ts) (MayReturn t op timed) (fun s l s' es hi hs => inside_step hi hs) ?_ h
  intro s1 es1 hs
  simp only [step] at hs
  (repeat' split at hs) <;> cases hs
  · exact .inr ⟨_, [], by simp [List.filter_append, callEvents_quiet, Event.returnOf], .inl rfl⟩
  · exact .inl ⟨by simp [List.filter_append, callEvents_quiet, Event.returnOf], _, List.getElem?_set_self (by grind), .inl rfl⟩

/-- Thread 1 waits in `lock()` and gets the mutex when the reader leaves; thread 2 gives up. -/
example : ∃ s s' es, run step s (.call 1 .exclusive false :: [.call 2 .exclusive true, .timeout 2, .resume 2 (some 1), .resume 1 none, .unlock 0 .shared (some 1) none, .resume 1 none]) = some (s', es) ∧
    es.filter (Event.returnOf 1) = [.granted 1 .exclusive] ∧ es.filter (Event.returnOf 2) = [.timedOut 2 .exclusive] :=
  ⟨{ data := { sharedCount := 1, exclusive := false, upgrade := false, exclusiveWaitingBlocked := false }, ts := [.idle, .idle, .idle] }, _, _, rfl, by decide, by decide⟩

end Verif.SharedMutex
