import Verif.V2Mutex.Spec
import Verif.Core.Returns
/-! # What the calls on an upgradable shared mutex return -/

set_option linter.unusedSimpArgs false

namespace Verif.V2Mutex

/-- Does the event report the end of a call of thread `t`? -/
def Event.returnOf (t : Nat) : Event → Bool
  | .granted u _ | .timedOut u _ | .threw u _ | .tried u _ _ | .down u _ | .callAborts u _ | .tryAborts u _ | .downAborts u _ => u == t
  | .blocked _ _ | .called _ _ => false

/-- What a blocking or timed call may end with: what it asked for, an interruption, an assertion; only a timed one may fail. -/
def MayReturn (t : Nat) (op : Op) (timed : Bool) (e : Event) : Prop := e = .granted t op ∨ e = .threw t op ∨ e = .callAborts t op ∨ (timed = true ∧ e = .timedOut t op)

/-- Where a thread can be inside a call. -/
def Inside (op : Op) (timed : Bool) (p : PC) : Prop := ∃ sl, (sl = .expired → timed = true) ∧ (p = .gate1 op timed sl ∨ ∃ saved, p = .gate2 op saved timed sl)

theorem wake1_inside {op : Op} {timed : Bool} {p : PC} (h : Inside op timed p) : Inside op timed p.wake1 := by
  obtain ⟨sl, hsl, rfl | ⟨sv, rfl⟩⟩ := h <;> cases sl <;> simp_all [Inside, PC.wake1]

theorem wake2_inside {op : Op} {timed : Bool} {p : PC} (h : Inside op timed p) : Inside op timed p.wake2 := by
  obtain ⟨sl, hsl, rfl | ⟨sv, rfl⟩⟩ := h <;> cases sl <;> simp_all [Inside, PC.wake2]

theorem notifyOne1_inside {s s' : State} {pick : Option Nat} {t : Nat} {op : Op} {timed : Bool} (hs : s.notifyOne1 pick = some s') (h : Inside op timed (s.pc t)) : Inside op timed (s'.pc t) := by
  cases pick <;> simp only [State.notifyOne1] at hs <;> (repeat' split at hs) <;> cases hs
  · exact h
  · simp only [upd_apply]
    split
    · rename_i e; exact e ▸ wake1_inside h
    · exact h
  · exact h

theorem notifyOne2_inside {s s' : State} {pick : Option Nat} {t : Nat} {op : Op} {timed : Bool} (hs : s.notifyOne2 pick = some s') (h : Inside op timed (s.pc t)) : Inside op timed (s'.pc t) := by
  cases pick <;> simp only [State.notifyOne2] at hs <;> (repeat' split at hs) <;> cases hs
  · exact h
  · simp only [upd_apply]
    split
    · rename_i e; exact e ▸ wake2_inside h
    · exact h
  · exact h

theorem down_inside {s s' : State} {pick : Option Nat} {d : Down} {t : Nat} {op : Op} {timed : Bool} (hs : s.down pick d = some s') (h : Inside op timed (s.pc t)) : Inside op timed (s'.pc t) := by
  cases d <;> simp only [State.down] at hs
  case unlockShared =>
    (repeat' split at hs)
    · exact notifyOne1_inside hs h
    · cases hs; exact h
    · exact notifyOne2_inside hs h
    · cases hs; exact h
  all_goals
    cases hs
    exact wake1_inside h

/-- Passing the first gate: the thread has what it asked for, or waits at the second gate. -/
theorem pass1_inside (s : State) (t : Nat) (timed : Bool) (op : Op) : (s.pass1 t timed op).2 = false → Inside op timed ((s.pass1 t timed op).1.pc t) := by
  cases op <;> simp only [State.pass1, State.enter2] <;> (try split) <;> simp [Inside, upd_apply]

theorem pass1_other (s : State) (t u : Nat) (timed : Bool) (op : Op) (hu : u ≠ t) : (s.pass1 u timed op).1.pc t = s.pc t := by
  have hu' : t ≠ u := Ne.symm hu
  cases op <;> simp only [State.pass1, State.enter2] <;> (try split) <;> simp [upd_apply, hu']

theorem callEvents_quiet (t u : Nat) (op : Op) : (op.callEvents u).filter (Event.returnOf t) = [] := by cases op <;> simp [Op.callEvents, Event.returnOf]

theorem grant_pc (s : State) (op : TryOp) : (op.grant s).pc = s.pc := by cases op <;> rfl
theorem fail2_pc (s : State) (t sv : Nat) (op : Op) : (s.fail2 t sv op).pc = upd s.pc t .idle := by cases op <;> rfl

theorem inside_step {t : Nat} {op : Op} {timed : Bool} {s s' : State} {l : Label} {es : List Event} (hi : Inside op timed (s.pc t)) (hs : step s l = some (s', es)) :
    (es.filter (Event.returnOf t) = [] ∧ Inside op timed (s'.pc t)) ∨ ∃ e rest, es.filter (Event.returnOf t) = e :: rest ∧ MayReturn t op timed e := by
  have hidle : ∀ u, s.pc u = .idle → u ≠ t := by
    rintro u hu rfl
    obtain ⟨sl, -, h | ⟨sv, h⟩⟩ := hi <;> rw [hu] at h <;> cases h
  simp only [step] at hs
  split at hs
  · cases hs
  cases l with
  | call u op' tm =>
    simp only at hs
    split at hs
    rotate_left
    · cases hs
    rename_i hc
    have hne := hidle u hc.2.1
    have hne' : t ≠ u := Ne.symm hne
    (repeat' split at hs) <;> cases hs
    · exact .inl ⟨by simp [List.filter_append, callEvents_quiet, Event.returnOf, hne], by rw [pass1_other _ _ _ _ _ hne]; exact hi⟩
    · exact .inl ⟨by simp [List.filter_append, callEvents_quiet, Event.returnOf, hne], by rw [pass1_other _ _ _ _ _ hne]; exact hi⟩
    · exact .inl ⟨by simp [List.filter_append, callEvents_quiet, Event.returnOf, hne], by simp only [upd_apply, if_neg hne']; exact hi⟩
    · exact .inl ⟨by simp [List.filter_append, callEvents_quiet, Event.returnOf, hne], hi⟩
  | tryCall u op' =>
    simp only at hs
    split at hs
    rotate_left
    · cases hs
    rename_i hc
    have hne := hidle u hc.2
    (repeat' split at hs) <;> cases hs
    · exact .inl ⟨by simp [Event.returnOf, hne], by rw [grant_pc]; exact hi⟩
    · exact .inl ⟨by simp [Event.returnOf, hne], hi⟩
    · exact .inl ⟨by simp [Event.returnOf, hne], hi⟩
  | down u d pick =>
    simp only at hs
    split at hs
    rotate_left
    · cases hs
    rename_i hc
    have hne := hidle u hc.2
    (repeat' split at hs) <;> cases hs
    · rename_i h
      exact .inl ⟨by simp [Event.returnOf, hne], down_inside h hi⟩
    · exact .inl ⟨by simp [Event.returnOf, hne], hi⟩
  | spurious u | timeout u =>
    simp only at hs
    (split at hs) <;> cases hs
    all_goals
      rename_i hu
      refine .inl ⟨rfl, ?_⟩
      simp only [upd_apply]
      split
      · rename_i e
        subst e
        rw [hu] at hi
        obtain ⟨sl, hsl, h | ⟨sv, h⟩⟩ := hi <;> cases h <;> simp [Inside]
      · exact hi
  | interrupt u =>
    simp only at hs
    (split at hs) <;> cases hs
    all_goals
      rename_i hu
      by_cases e : t = u
      · subst e
        rw [hu] at hi
        obtain ⟨sl, hsl, h | ⟨sv, h⟩⟩ := hi <;> cases h <;> exact .inr ⟨_, [], by simp [Event.returnOf], .inr (.inl rfl)⟩
      · exact .inl ⟨by simp [Event.returnOf, Ne.symm e], by simp only [upd_apply, if_neg e]; exact hi⟩
  | resume u =>
    simp only at hs
    split at hs
    · rename_i op' tm sl' hu
      simp only [State.resume1] at hs
      by_cases e : t = u
      · subst e
        rw [hu] at hi
        obtain ⟨sl, hsl, h | ⟨sv, h⟩⟩ := hi <;> cases h
        (repeat' split at hs) <;> cases hs
        · exact .inr ⟨_, [], by simp [Event.returnOf], .inl rfl⟩
        · rename_i h _ h2
          exact .inl ⟨rfl, pass1_inside _ _ _ _ (by simpa using h2)⟩
        · rename_i h2
          exact .inr ⟨_, [], by simp [Event.returnOf], .inr (.inr (.inr ⟨hsl h2, rfl⟩))⟩
        · exact .inl ⟨rfl, by simp [Inside, upd_apply]⟩
      · have hne : u ≠ t := Ne.symm e
        (repeat' split at hs) <;> cases hs
        · exact .inl ⟨by simp [Event.returnOf, hne], by rw [pass1_other _ _ _ _ _ hne]; exact hi⟩
        · exact .inl ⟨rfl, by rw [pass1_other _ _ _ _ _ hne]; exact hi⟩
        · exact .inl ⟨by simp [Event.returnOf, hne], by simp only [upd_apply, if_neg e]; exact hi⟩
        · exact .inl ⟨rfl, by simp only [upd_apply, if_neg e]; exact hi⟩
    · rename_i op' sv' tm sl' hu
      simp only [State.resume2] at hs
      by_cases e : t = u
      · subst e
        rw [hu] at hi
        obtain ⟨sl, hsl, h | ⟨sv, h⟩⟩ := hi <;> cases h
        (repeat' split at hs) <;> cases hs
        · exact .inr ⟨_, [], by simp [Event.returnOf], .inl rfl⟩
        · rename_i h2
          exact .inr ⟨_, [], by simp [Event.returnOf], .inr (.inr (.inr ⟨hsl h2, rfl⟩))⟩
        · exact .inl ⟨rfl, by simp [Inside, upd_apply]⟩
      · have hne : u ≠ t := Ne.symm e
        (repeat' split at hs) <;> cases hs
        · exact .inl ⟨by simp [Event.returnOf, hne], by simp only [upd_apply, if_neg e]; exact hi⟩
        · exact .inl ⟨by simp [Event.returnOf, hne], by simp only [fail2_pc, upd_apply, if_neg e]; exact hi⟩
        · exact .inl ⟨rfl, by simp only [upd_apply, if_neg e]; exact hi⟩
    · cases hs

/-- **What a call may return.** From any state, whatever the other threads do, a blocking call ends with what it asked for (or by an interruption or a failed assertion); it never gives up. Only a timed
call may report failure. -/
theorem call_returns (s s' : State) (ls : List Label) (es : List Event) (t : Nat) (op : Op) (timed : Bool) (h : run step s (.call t op timed :: ls) = some (s', es)) :
    ∀ e rest, es.filter (Event.returnOf t) = e :: rest → MayReturn t op timed e := by
  refine first_return_call (Event.returnOf t) (fun s => Inside op timed (s.pc t)) (MayReturn t op timed) (fun s l s' es hi hs => inside_step hi hs) ?_ h
  intro s1 es1 hs
  simp only [step] at hs
  (repeat' split at hs) <;> cases hs
  · exact .inr ⟨_, [], by simp [List.filter_append, callEvents_quiet, Event.returnOf], .inl rfl⟩
  · rename_i h2
    exact .inl ⟨by simp [List.filter_append, callEvents_quiet, Event.returnOf], pass1_inside _ _ _ _ (by simpa using h2)⟩
  · exact .inl ⟨by simp [List.filter_append, callEvents_quiet, Event.returnOf], by simp [Inside, upd_apply]⟩
  · exact .inr ⟨_, [], by simp [List.filter_append, callEvents_quiet, Event.returnOf], .inr (.inr (.inl rfl))⟩

/-- A reader; thread 1 waits in `lock()` and thread 2 in a timed one that gives up; the reader leaves. -/
def waitProg : List Label := [.call 0 .shared false, .call 1 .lock false, .call 2 .lock true, .timeout 2, .resume 2, .down 0 .unlockShared (some 1), .resume 1]
example : (run step (init 3 5) waitProg).map (fun r => (r.2.filter (Event.returnOf 1), r.2.filter (Event.returnOf 2))) = some ([.granted 1 .lock], [.timedOut 2 .lock]) := by decide +kernel

end Verif.V2Mutex
