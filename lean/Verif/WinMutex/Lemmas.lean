import Verif.WinMutex.Spec
/-! Invariants of the Windows mutex model. -/

namespace Verif.WinMutex

def PC.isWaiter : PC → Bool
  | .waiting _ _ => true
  | .clearing _ _ => true
  | _ => false
def PC.isClearing : PC → Bool
  | .clearing _ _ => true
  | _ => false
def PC.isSetting : PC → Bool
  | .setting => true
  | _ => false
def PC.isUnlocking : PC → Bool
  | .unlocking => true
  | _ => false

/-- Holder, waiter count, event conservation, and "free with waiters means a wake-up is on its way". -/
structure R (s : State) (h : Holder) : Prop where
  lock : s.word.locked = h.isSome
  waiters : s.word.waiters = cnt PC.isWaiter s.ts
  event : b2n s.word.eventSet = b2n s.signalled + cnt PC.isSetting s.ts + cnt PC.isClearing s.ts
  wake : s.word.locked = false → 0 < s.word.waiters → s.word.eventSet = true ∨ 0 < cnt PC.isUnlocking s.ts

theorem clearing_le (ts : List PC) : cnt PC.isClearing ts ≤ cnt PC.isWaiter ts := cnt_le ts fun p hp => by
  cases p <;> simp_all [PC.isClearing, PC.isWaiter]

theorem step_sim {s s' : State} {l : Label} {es : List Event} {h : Holder}
    (hR : R s h) (hs : step s l = some (s', es)) : Follows specNext (R s') h es := by
  obtain ⟨h1, h2, h3, h4⟩ := hR
  have := clearing_le s.ts
  cases l with
  | call t timed =>
    simp only [step] at hs
    (repeat' split at hs) <;> cases hs
    · next ht hl =>
      have c1 := cnt_set PC.isWaiter (.reading timed) ht
      have c2 := cnt_set PC.isClearing (.reading timed) ht
      have c3 := cnt_set PC.isSetting (.reading timed) ht
      have c4 := cnt_set PC.isUnlocking (.reading timed) ht
      simp [PC.isWaiter, PC.isClearing, PC.isSetting, PC.isUnlocking] at c1 c2 c3 c4
      exact ⟨h1, by simp_all, by simp_all, by simp_all⟩
    · next ht hl =>
      cases h with
      | some => simp_all
      | none => cases timed <;> exact ⟨rfl, h2, h3, by simp⟩
  | tryLock t =>
    simp only [step] at hs
    (repeat' split at hs) <;> cases hs <;> cases h <;> simp_all [Follows, specNext] <;> constructor <;> simp_all
  | unlock t =>
    simp only [step] at hs
    (repeat' split at hs) <;> cases hs
    · next ht hl =>
      have c1 := cnt_set PC.isWaiter .unlocking ht
      have c2 := cnt_set PC.isClearing .unlocking ht
      have c3 := cnt_set PC.isSetting .unlocking ht
      have c4 := cnt_set PC.isUnlocking .unlocking ht
      simp [PC.isWaiter, PC.isClearing, PC.isSetting, PC.isUnlocking] at c1 c2 c3 c4
      cases h with
      | none => trivial
      | some u =>
        by_cases hu : u = t
        · simp only [Follows, specNext, hu, if_true]
          exact ⟨by simp_all, by simp_all, by simp_all, by simp_all⟩
        · simp [Follows, specNext, hu]
    · next ht hl =>
      cases h with
      | none => trivial
      | some u =>
        by_cases hu : u = t
        · simp only [Follows, specNext, hu, if_true]
          refine ⟨by simp_all, h2, h3, ?_⟩
          intro _ hw
          left
          simp only [] at hw
          simp only [Bool.and_eq_true, decide_eq_true_eq, not_and] at hl
          grind
        · simp [Follows, specNext, hu]
  | next t =>
    simp only [step] at hs
    split at hs
    · next timed ht =>
      cases hs
      have c1 := cnt_set PC.isWaiter (.marking timed s.word) ht
      have c2 := cnt_set PC.isClearing (.marking timed s.word) ht
      have c3 := cnt_set PC.isSetting (.marking timed s.word) ht
      have c4 := cnt_set PC.isUnlocking (.marking timed s.word) ht
      simp [PC.isWaiter, PC.isClearing, PC.isSetting, PC.isUnlocking] at c1 c2 c3 c4
      exact ⟨h1, by simp_all, by simp_all, by simp_all⟩
    · next timed old ht =>
      (repeat' split at hs) <;> cases hs
      · next hw hl =>
        have c1 := cnt_set PC.isWaiter (.waiting timed old.mark) ht
        have c2 := cnt_set PC.isClearing (.waiting timed old.mark) ht
        have c3 := cnt_set PC.isSetting (.waiting timed old.mark) ht
        have c4 := cnt_set PC.isUnlocking (.waiting timed old.mark) ht
        simp [PC.isWaiter, PC.isClearing, PC.isSetting, PC.isUnlocking] at c1 c2 c3 c4
        subst hw
        exact ⟨by simp_all [Word.mark], by simp_all [Word.mark], by simp_all [Word.mark], by simp_all [Word.mark]⟩
      · next hw hl =>
        have c1 := cnt_set PC.isWaiter .idle ht
        have c2 := cnt_set PC.isClearing .idle ht
        have c3 := cnt_set PC.isSetting .idle ht
        simp [PC.isWaiter, PC.isClearing, PC.isSetting] at c1 c2 c3
        subst hw
        cases h with
        | some => simp_all
        | none =>
          have : R { s with word := s.word.mark, ts := s.ts.set t .idle } (some t) :=
            ⟨by simp_all [Word.mark], by simp_all [Word.mark], by simp_all [Word.mark], by simp_all [Word.mark]⟩
          cases timed <;> exact this
      · have c1 := cnt_set PC.isWaiter (.marking timed s.word) ht
        have c2 := cnt_set PC.isClearing (.marking timed s.word) ht
        have c3 := cnt_set PC.isSetting (.marking timed s.word) ht
        have c4 := cnt_set PC.isUnlocking (.marking timed s.word) ht
        simp [PC.isWaiter, PC.isClearing, PC.isSetting, PC.isUnlocking] at c1 c2 c3 c4
        exact ⟨h1, by simp_all, by simp_all, by simp_all⟩
    · next timed old ht =>
      (repeat' split at hs) <;> cases hs
      next hsg =>
      have c1 := cnt_set PC.isWaiter (.clearing timed old.clearGuess) ht
      have c2 := cnt_set PC.isClearing (.clearing timed old.clearGuess) ht
      have c3 := cnt_set PC.isSetting (.clearing timed old.clearGuess) ht
      have c4 := cnt_set PC.isUnlocking (.clearing timed old.clearGuess) ht
      simp [PC.isWaiter, PC.isClearing, PC.isSetting, PC.isUnlocking] at c1 c2 c3 c4
      refine ⟨h1, by simp_all, ?_, by simp_all⟩
      simp [hsg, h3, c2, c3]; omega
    · next timed old ht =>
      have hpos : 0 < cnt PC.isClearing s.ts := cnt_pos ht rfl
      have hev : s.word.eventSet = true ∧ s.signalled = false ∧ cnt PC.isSetting s.ts = 0 ∧ cnt PC.isClearing s.ts = 1 := by
        have := b2n_le s.word.eventSet
        cases he : s.word.eventSet <;> cases hg : s.signalled <;> simp [he, hg] at h3 ⊢ <;> omega
      obtain ⟨e1, e2, e3, e4⟩ := hev
      (repeat' split at hs) <;> cases hs
      · next hw hl =>
        have c1 := cnt_set PC.isWaiter (.waiting timed old) ht
        have c2 := cnt_set PC.isClearing (.waiting timed old) ht
        have c3 := cnt_set PC.isSetting (.waiting timed old) ht
        have c4 := cnt_set PC.isUnlocking (.waiting timed old) ht
        simp [PC.isWaiter, PC.isClearing, PC.isSetting, PC.isUnlocking] at c1 c2 c3 c4
        subst hw
        exact ⟨by simp_all [Word.clear], by simp_all [Word.clear], by simp_all [Word.clear], by simp_all [Word.clear]⟩
      · next hw hl =>
        have c1 := cnt_set PC.isWaiter .idle ht
        have c2 := cnt_set PC.isClearing .idle ht
        have c3 := cnt_set PC.isSetting .idle ht
        simp [PC.isWaiter, PC.isClearing, PC.isSetting] at c1 c2 c3
        subst hw
        cases h with
        | some => simp_all
        | none =>
          have : R { s with word := s.word.clear, ts := s.ts.set t .idle } (some t) :=
            ⟨by simp_all [Word.clear], by simp_all [Word.clear]; omega, by simp_all [Word.clear], by simp_all [Word.clear]⟩
          cases timed <;> exact this
      · have c1 := cnt_set PC.isWaiter (.clearing timed s.word) ht
        have c2 := cnt_set PC.isClearing (.clearing timed s.word) ht
        have c3 := cnt_set PC.isSetting (.clearing timed s.word) ht
        have c4 := cnt_set PC.isUnlocking (.clearing timed s.word) ht
        simp [PC.isWaiter, PC.isClearing, PC.isSetting, PC.isUnlocking] at c1 c2 c3 c4
        exact ⟨h1, by simp_all, by simp_all, by simp_all⟩
    · next ht =>
      (repeat' split at hs) <;> cases hs
      · have c1 := cnt_set PC.isWaiter .idle ht
        have c2 := cnt_set PC.isClearing .idle ht
        have c3 := cnt_set PC.isSetting .idle ht
        have c4 := cnt_set PC.isUnlocking .idle ht
        simp [PC.isWaiter, PC.isClearing, PC.isSetting, PC.isUnlocking] at c1 c2 c3 c4
        exact ⟨h1, by simp_all, by simp_all, by simp_all⟩
      · next he =>
        have c1 := cnt_set PC.isWaiter .setting ht
        have c2 := cnt_set PC.isClearing .setting ht
        have c3 := cnt_set PC.isSetting .setting ht
        simp [PC.isWaiter, PC.isClearing, PC.isSetting] at c1 c2 c3
        simp at he
        simp [he] at h3
        exact ⟨h1, by simp_all, by simp_all; omega, by simp_all⟩
    · next ht =>
      cases hs
      have hpos : 0 < cnt PC.isSetting s.ts := cnt_pos ht rfl
      have c1 := cnt_set PC.isWaiter .idle ht
      have c2 := cnt_set PC.isClearing .idle ht
      have c3 := cnt_set PC.isSetting .idle ht
      have c4 := cnt_set PC.isUnlocking .idle ht
      simp [PC.isWaiter, PC.isClearing, PC.isSetting, PC.isUnlocking] at c1 c2 c3 c4
      have := b2n_le s.word.eventSet
      have := b2n_le s.signalled
      refine ⟨h1, by simp_all, ?_, by simp_all⟩
      simp only [b2n_true]
      omega
    · cases hs
  | giveUp t =>
    simp only [step] at hs
    (repeat' split at hs) <;> cases hs
    next old ht =>
    have c1 := cnt_set PC.isWaiter .idle ht
    have c2 := cnt_set PC.isClearing .idle ht
    have c3 := cnt_set PC.isSetting .idle ht
    have c4 := cnt_set PC.isUnlocking .idle ht
    simp [PC.isWaiter, PC.isClearing, PC.isSetting, PC.isUnlocking] at c1 c2 c3 c4
    have : R { s with word := { s.word with waiters := s.word.waiters - 1 }, ts := s.ts.set t .idle } h :=
      ⟨h1, by simp; omega, by simp_all, by intro h; simp only [c4]; intro h'; exact h4 h (by have h'' : 0 < s.word.waiters - 1 := h'; omega)⟩
    cases h <;> exact this

theorem R_init (n : Nat) : R (init n) none := by
  constructor <;> simp [init, cnt_replicate, PC.isWaiter, PC.isSetting, PC.isClearing]

/-! ## What a call returns -/

/-- The thread that moves. -/
def Label.thread : Label → Nat
  | .call t _ | .tryLock t | .unlock t | .next t | .giveUp t => t

theorem acquired_thread (t : Nat) (timed : Bool) : (acquired t timed).thread = t := by cases timed <;> rfl
theorem acquired_may (t : Nat) (timed : Bool) : MayReturn t timed (acquired t timed) := by cases timed <;> simp [MayReturn, acquired]
theorem MayReturn.thread {t : Nat} {timed : Bool} {e : Event} (h : MayReturn t timed e) : e.thread = t := by
  cases timed <;> simp only [MayReturn, Bool.false_eq_true, ↓reduceIte] at h
  · subst h; rfl
  · rcases h with rfl | rfl <;> rfl

/-- Where a thread can be inside a locking call. -/
def Inside (timed : Bool) (p : PC) : Prop := p = .reading timed ∨ ∃ old, p = .marking timed old ∨ p = .waiting timed old ∨ p = .clearing timed old

theorem step_other {s s' : State} {l : Label} {es : List Event} {t : Nat} (hl : l.thread ≠ t) (hs : step s l = some (s', es)) :
    s'.ts[t]? = s.ts[t]? ∧ ∀ e ∈ es, e.thread ≠ t := by
  cases l <;> simp only [Label.thread] at hl <;> simp only [step] at hs <;> (repeat' split at hs) <;> cases hs <;>
    first | (simp [acquired_thread, hl, List.getElem?_set_ne hl]; done) | (simp [Event.thread, hl, List.getElem?_set_ne hl]; done)

/-- A thread inside a call stays inside, or the call returns what it may. -/
theorem inside_step {s s' : State} {l : Label} {es : List Event} {t : Nat} {timed : Bool} {p : PC} (hp : s.ts[t]? = some p) (hi : Inside timed p) (hs : step s l = some (s', es)) :
    ((∀ e ∈ es, e.thread ≠ t) ∧ ∃ q, s'.ts[t]? = some q ∧ Inside timed q) ∨ (∃ e, es = [e] ∧ MayReturn t timed e) ∧ l.thread = t := by
  by_cases hl : l.thread = t
  rotate_left
  · obtain ⟨h1, h2⟩ := step_other hl hs
    exact .inl ⟨h2, p, by rw [h1]; exact hp, hi⟩
  have hlt : t < s.ts.length := by grind
  cases l with
  | next u =>
    simp only [Label.thread] at hl; subst hl
    simp only [step, hp] at hs
    rcases hi with rfl | ⟨old, rfl | rfl | rfl⟩ <;> simp only at hs <;> (repeat' split at hs) <;> cases hs
    all_goals first
      | exact .inr ⟨⟨_, rfl, acquired_may _ _⟩, rfl⟩
      | exact .inl ⟨by simp, _, by simp only [List.getElem?_set_self hlt]; rfl, by simp [Inside]⟩
  | giveUp u =>
    simp only [Label.thread] at hl; subst hl
    simp only [step, hp] at hs
    rcases hi with rfl | ⟨old, rfl | rfl | rfl⟩ <;> cases timed <;> cases hs
    exact .inr ⟨⟨_, rfl, by simp [MayReturn]⟩, rfl⟩
  | _ =>
    simp only [Label.thread] at hl; subst hl
    simp only [step, hp] at hs
    rcases hi with rfl | ⟨old, rfl | rfl | rfl⟩ <;> cases hs

/-- The first step of a call. -/
theorem call_step {s s' : State} {es : List Event} {t : Nat} {timed : Bool} (hs : step s (.call t timed) = some (s', es)) :
    (es = [] ∧ ∃ q, s'.ts[t]? = some q ∧ Inside timed q) ∨ ∃ e, es = [e] ∧ MayReturn t timed e := by
  simp only [step] at hs
  (repeat' split at hs) <;> cases hs
  · exact .inl ⟨rfl, _, List.getElem?_set_self (by grind), .inl rfl⟩
  · exact .inr ⟨_, rfl, acquired_may _ _⟩

/-- The first return of a thread inside a call is one the call may have. -/
theorem inside_run {t : Nat} {timed : Bool} : ∀ {ls : List Label} {s s' : State} {es : List Event} {p : PC}, s.ts[t]? = some p → Inside timed p → run step s ls = some (s', es) →
    ∀ e rest, es.filter (·.thread == t) = e :: rest → MayReturn t timed e := by
  intro ls
  induction ls with
  | nil => intro s s' es p _ _ h e rest he; cases h; cases he
  | cons l ls ih =>
    intro s s' es p hp hi h e rest he
    simp only [run] at h
    split at h
    · cases h
    split at h <;> cases h
    rename_i s1 es1 hs1 _ es2 hs2
    rw [List.filter_append] at he
    rcases inside_step hp hi hs1 with ⟨h0, q, hq, hqi⟩ | ⟨⟨e', rfl, hm⟩, -⟩
    · rw [List.filter_eq_nil_iff.mpr (by simpa using h0)] at he
      exact ih hq hqi hs2 e rest he
    · simp [hm.thread] at he
      exact he.1 ▸ hm

end Verif.WinMutex
