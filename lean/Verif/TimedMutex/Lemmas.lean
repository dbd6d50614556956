import Verif.TimedMutex.Spec
/-! Helper lemmas for the `timed_mutex` model. -/

namespace Verif.TimedMutex

/-- Simulation relation: `is_locked` says exactly whether somebody holds the mutex. -/
def R (s : State) (h : Holder) : Prop := s.isLocked = h.isSome

theorem step_sim {s s' : State} {l : Label} {es : List Event} {h : Holder} (hns : l.isSpecialDuration = false)
    (hR : R s h) (hs : step s l = some (s', es)) : Follows specNext (R s') h es := by
  cases l with
  | timedLockRel t d =>
    cases d <;> simp [step, acquireOrSleep, R, Label.isSpecialDuration, RelTime.isPosInfinity,
      RelTime.isSpecial] at hs hR hns <;>
    (repeat' split at hs) <;> cases hs <;> cases h <;> grind [Follows, specNext, R, Kind.acquired]
  | resume t p =>
    simp only [step, acquireOrSleep, R] at hs hR
    (repeat' split at hs) <;> cases hs <;> cases h <;>
    first
    | grind [Follows, specNext, R]
    | (next k _ _ => cases k <;> grind [Follows, specNext, R, Kind.acquired])
  | _ =>
    simp only [step, acquireOrSleep, R] at hs hR <;> (repeat' split at hs) <;> cases hs <;>
    cases h <;> grind [Follows, specNext, R, Kind.acquired]

/-- Awake: back from the wait and about to take `m`. -/
def PC.isAwake : PC → Bool
  | .woken _ => true
  | .expired => true
  | _ => false

/-- If the mutex is free and somebody sleeps, somebody is awake. -/
def WakeInv (s : State) : Prop :=
  s.isLocked = false → 0 < cnt PC.isAsleep s.ts → 0 < cnt PC.isAwake s.ts

theorem signal_none {ts ts' : List PC} (h : signal ts none = some ts') : cnt PC.isAsleep ts' = 0 := by
  simp only [signal] at h
  by_cases hc : ts.any PC.isAsleep = true
  · rw [if_pos hc] at h; cases h
  · rw [if_neg hc] at h; cases h
    rw [cnt_eq_zero]
    intro t p hp
    cases hb : p.isAsleep with
    | false => rfl
    | true => exact absurd (List.any_eq_true.mpr ⟨p, List.mem_of_getElem? hp, hb⟩) hc

theorem signal_some {ts ts' : List PC} {u : Nat} (h : signal ts (some u) = some ts') :
    0 < cnt PC.isAwake ts' := by
  simp only [signal] at h
  split at h
  · next k hk =>
    cases h
    exact cnt_pos (t := u) (p := .woken k) (by rw [getElem?_set_eq hk]; simp) rfl
  · next hk => cases h; exact cnt_pos hk rfl
  · cases h

theorem step_wake {s s' : State} {l : Label} {es : List Event} (hi : WakeInv s)
    (hs : step s l = some (s', es)) : WakeInv s' := by
  cases l with
  | unlock t w =>
    simp only [step] at hs
    (repeat' split at hs) <;> cases hs
    next ts' heq =>
    unfold WakeInv
    intro _ hex
    cases w with
    | none => rw [signal_none heq] at hex; omega
    | some u => exact signal_some heq
  | _ =>
    unfold WakeInv at *
    simp only [step, acquireOrSleep] at hs <;> (repeat' split at hs) <;> cases hs <;>
    grind [cnt_set, PC.isAwake, PC.isAsleep, b2n]

/-- Where a thread can be inside a call of kind `k`. -/
def Inside (k : Kind) (p : PC) : Prop := p = .asleep k ∨ p = .woken k ∨ (k = .timed ∧ (p = .expired ∨ p = .polling))

theorem signal_other {ts ts' : List PC} {w : Option Nat} {t : Nat} {k : Kind} {p : PC} (h : signal ts w = some ts') (hp : ts[t]? = some p) (hi : Inside k p) :
    ∃ q, ts'[t]? = some q ∧ Inside k q := by
  cases w with
  | none => simp only [signal] at h; split at h <;> cases h; exact ⟨p, hp, hi⟩
  | some u =>
    simp only [signal] at h
    split at h <;> cases h
    · rename_i k' hk
      by_cases hu : u = t
      · subst hu
        rw [hk] at hp; cases hp
        have : k' = k := by simp [Inside] at hi; exact hi
        subst this
        exact ⟨.woken k', by rw [List.getElem?_set_self (by grind)], .inr (.inl rfl)⟩
      · exact ⟨p, by rw [List.getElem?_set_ne hu]; exact hp, hi⟩
    · exact ⟨p, hp, hi⟩

theorem acquired_thread (t : Nat) (k : Kind) : (k.acquired t).thread = t := by cases k <;> rfl
theorem acquired_may (t : Nat) (k : Kind) : k.MayReturn t (k.acquired t) := by cases k <;> simp [Kind.MayReturn, Kind.acquired]

/-- A thread inside a call stays inside, or the call returns what it may. -/
theorem inside_step {s s' : State} {l : Label} {es : List Event} {t : Nat} {k : Kind} {p : PC} (hp : s.ts[t]? = some p) (hi : Inside k p) (hs : step s l = some (s', es)) :
    (es.filter (·.thread == t) = [] ∧ ∃ q, s'.ts[t]? = some q ∧ Inside k q) ∨ ∃ e, es = [e] ∧ k.MayReturn t e := by
  have hlt : t < s.ts.length := by grind
  have hne : p ≠ .idle := by rintro rfl; simp [Inside] at hi
  cases l with
  | unlock u w =>
    simp only [step] at hs
    split at hs
    · rename_i hu
      split at hs <;> cases hs
      rename_i ts hts
      have hut : u ≠ t := by rintro rfl; rw [hu] at hp; cases hp; exact hne rfl
      obtain ⟨q, hq⟩ := signal_other hts hp hi
      exact .inl ⟨by simp [Event.thread, hut], q, hq⟩
    · cases hs
  | spurious u | timeout u =>
    simp only [step] at hs
    split at hs <;> cases hs
    rename_i hu
    refine .inl ⟨rfl, ?_⟩
    by_cases hut : u = t
    · subst hut
      rw [hu] at hp; cases hp
      simp only [List.getElem?_set_self hlt]
      refine ⟨_, rfl, ?_⟩
      simp [Inside] at hi ⊢; simp [hi]
    · exact ⟨p, by simp only [List.getElem?_set_ne hut]; exact hp, hi⟩
  | lock u | tryLock u | timedLock u | timedLockRel u d =>
    simp only [step, acquireOrSleep] at hs
    repeat' split at hs
    all_goals cases hs
    all_goals
      have hut : u ≠ t := by rintro rfl; simp_all
      refine .inl ⟨?_, p, ?_, hi⟩
      · first | rfl | (simp [acquired_thread, hut]; done) | (simp [Event.thread, hut]; done)
      · first | exact hp | (simp only [List.getElem?_set_ne hut]; exact hp)
  | resume u b | poll u b =>
    simp only [step, acquireOrSleep] at hs
    by_cases hut : u = t
    · subst hut
      rw [hp] at hs
      rcases hi with rfl | rfl | ⟨rfl, rfl | rfl⟩ <;> simp only [reduceCtorEq] at hs
      all_goals repeat' split at hs
      all_goals cases hs
      all_goals first
        | exact .inl ⟨rfl, _, by simp only [List.getElem?_set_self hlt]; rfl, by simp [Inside]⟩
        | exact .inr ⟨_, rfl, by first | exact acquired_may _ _ | (simp [Kind.MayReturn]; done)⟩
    · repeat' split at hs
      all_goals cases hs
      all_goals
        refine .inl ⟨?_, p, ?_, hi⟩
        · first | rfl | (simp [acquired_thread, hut]; done) | (simp [Event.thread, hut]; done)
        · first | exact hp | (simp only [List.getElem?_set_ne hut]; exact hp)

/-- The first return of a thread inside a call is one the call may have. -/
theorem inside_run {t : Nat} {k : Kind} : ∀ {ls : List Label} {s s' : State} {es : List Event} {p : PC}, s.ts[t]? = some p → Inside k p → run step s ls = some (s', es) →
    ∀ e rest, es.filter (·.thread == t) = e :: rest → k.MayReturn t e := by
  intro ls
  induction ls with
  | nil => intro s s' es p _ _ h e rest he; cases h; cases he
  | cons l ls ih =>
    intro s s' es p hp hi h e rest he
    simp only [run] at h
    split at h
    · cases h
    split at h <;> cases h
    rename_i s1 es1 hs1 _ es2 hs2
    rw [List.filter_append] at he
    rcases inside_step hp hi hs1 with ⟨h0, q, hq, hqi⟩ | ⟨e', rfl, hm⟩
    · rw [h0] at he
      exact ih hq hqi hs2 e rest he
    · have : e'.thread = t := by
        cases k <;> simp only [Kind.MayReturn] at hm
        · subst hm; rfl
        · subst hm; rfl
        · rcases hm with rfl | rfl <;> rfl
      simp [this] at he
      exact he.1 ▸ hm

end Verif.TimedMutex
