import Verif.WinMutexLife.Model
/-!
# Invariants
-/

set_option linter.unusedSimpArgs false
set_option linter.unusedVariables false

namespace Verif.WinMutexLife
open WinMutex (Word)

/-- The event a thread has got from `get_event`. -/
def PC.has : PC → Option Nat
  | .waiting _ _ h => some h
  | .clearing _ _ h => some h
  | .setting h => some h
  | _ => none

/-- The event a thread has created and not yet offered. -/
def PC.new : PC → Option Nat
  | .madeW _ _ h => some h
  | .madeS h => some h
  | _ => none

def PC.phase : PC → Phase
  | .idle => .out
  | .unlocking => .leaving
  | .getS => .leaving
  | .madeS _ => .leaving
  | .setting _ => .leaving
  | _ => .locking

/-- What holds of the events as long as the mutex lives. -/
structure Hd (s : State) : Prop where
  has : ∀ (t : Nat) p h, s.ts[t]? = some p → p.has = some h → s.event = some h
  new : ∀ (t : Nat) p h, s.ts[t]? = some p → p.new = some h → h < s.made ∧ s.event ≠ some h ∧ s.sig h = false
  uniq : ∀ (t u : Nat) p q h, s.ts[t]? = some p → s.ts[u]? = some q → p.new = some h → q.new = some h → t = u
  ev : ∀ h, s.event = some h → h < s.made
  fresh : ∀ h, s.made ≤ h → s.sig h = false

theorem get_set {ts : List PC} {t u : Nat} {p q : PC} (h : (ts.set t p)[u]? = some q) : (u = t ∧ q = p) ∨ (u ≠ t ∧ ts[u]? = some q) := by
  rw [List.getElem?_set] at h
  split at h
  · rename_i e
    split at h <;> cases h
    exact Or.inl ⟨e.symm, rfl⟩
  · rename_i e; exact Or.inr ⟨fun g => e g.symm, h⟩

theorem Hd.init (n : Nat) : Hd (init n) := by
  have key : ∀ (t : Nat) p, (WinMutexLife.init n).ts[t]? = some p → p = .idle := by
    intro t p h
    simp only [WinMutexLife.init, List.getElem?_replicate] at h
    split at h <;> cases h
    rfl
  refine ⟨?_, ?_, ?_, ?_, ?_⟩
  · intro t p h ht hp; rw [key t p ht] at hp; cases hp
  · intro t p h ht hp; rw [key t p ht] at hp; cases hp
  · intro t u p q h ht hu hp hq; rw [key t p ht] at hp; cases hp
  · intro h e; simp [WinMutexLife.init] at e
  · intro h e; rfl

/-- A thread goes on with the events as they are. -/
theorem Hd.keep {s s' : State} {t : Nat} {p' : PC} (h : Hd s) (hts : s'.ts = s.ts.set t p') (he : s'.event = s.event) (hm : s'.made = s.made) (hsg : s'.sig = s.sig)
    (hh : ∀ x, p'.has = some x → s.event = some x) (hn : p'.new = none) : Hd s' := by
  refine ⟨?_, ?_, ?_, ?_, ?_⟩
  · intro u q x hu hq
    rw [he]
    rw [hts] at hu
    rcases get_set hu with ⟨-, rfl⟩ | ⟨-, hu⟩
    · exact hh x hq
    · exact h.has u q x hu hq
  · intro u q x hu hq
    rw [he, hm, hsg]
    rw [hts] at hu
    rcases get_set hu with ⟨-, rfl⟩ | ⟨-, hu⟩
    · rw [hn] at hq; cases hq
    · exact h.new u q x hu hq
  · intro u w q r x hu hw hq hr
    rw [hts] at hu hw
    rcases get_set hu with ⟨-, rfl⟩ | ⟨-, hu⟩
    · rw [hn] at hq; cases hq
    · rcases get_set hw with ⟨-, rfl⟩ | ⟨-, hw⟩
      · rw [hn] at hr; cases hr
      · exact h.uniq u w q r x hu hw hq hr
  · rw [he, hm]; exact h.ev
  · rw [hm, hsg]; exact h.fresh

theorem Hd.same {s s' : State} (h : Hd s) (hts : s'.ts = s.ts) (he : s'.event = s.event) (hm : s'.made = s.made) (hsg : s'.sig = s.sig) : Hd s' := by
  refine ⟨?_, ?_, ?_, ?_, ?_⟩
  · rw [hts, he]; exact h.has
  · rw [hts, he, hm, hsg]; exact h.new
  · rw [hts]; exact h.uniq
  · rw [he, hm]; exact h.ev
  · rw [hm, hsg]; exact h.fresh

/-- The event that there is, is signalled or reset. -/
theorem Hd.signal {s : State} {x : Nat} {b : Bool} (h : Hd s) (hx : s.event = some x) : Hd { s with sig := upd s.sig x b } := by
  refine ⟨h.has, ?_, h.uniq, h.ev, ?_⟩
  · intro t p y ht hp
    obtain ⟨h1, h2, h3⟩ := h.new t p y ht hp
    refine ⟨h1, h2, ?_⟩
    have : y ≠ x := fun e => h2 (e ▸ hx)
    simp [upd, this, h3]
  · intro y hy
    have : y ≠ x := fun e => by have := h.ev x hx; subst e; exact absurd this (Nat.not_lt.mpr hy)
    simp [upd, this, h.fresh y hy]

theorem Hd.getEvent {s : State} {t : Nat} {p : PC} {k c : Nat → PC} (h : Hd s) (ht : s.ts[t]? = some p) (hp : p.new = none)
    (hk : ∀ x, (k x).has = some x ∧ (k x).new = none) (hc : ∀ x, (c x).has = none ∧ (c x).new = some x) : Hd (getEvent s t k c).1 := by
  unfold WinMutexLife.getEvent
  split
  · rename_i x hx
    exact h.keep rfl rfl rfl rfl (fun y hy => by rw [(hk x).1] at hy; cases hy; exact hx) (hk x).2
  · rename_i hx
    have hlt : ∀ (u : Nat) q y, s.ts[u]? = some q → q.new = some y → y ≠ s.made := fun u q y hu hq e => by
      have := (h.new u q y hu hq).1; omega
    refine ⟨?_, ?_, ?_, ?_, ?_⟩
    · intro u q y hu hq
      simp only [State.pc] at hu
      rcases get_set hu with ⟨-, rfl⟩ | ⟨-, hu⟩
      · rw [(hc _).1] at hq; cases hq
      · exact h.has u q y hu hq
    · intro u q y hu hq
      simp only [State.pc] at hu
      rcases get_set hu with ⟨-, rfl⟩ | ⟨-, hu⟩
      · rw [(hc _).2] at hq; cases hq
        refine ⟨Nat.lt_succ_self _, ?_, h.fresh _ (Nat.le_refl _)⟩
        show s.event ≠ _
        rw [hx]; simp
      · obtain ⟨h1, h2, h3⟩ := h.new u q y hu hq
        exact ⟨Nat.lt_succ_of_lt h1, h2, h3⟩
    · intro u w q r y hu hw hq hr
      simp only [State.pc] at hu hw
      rcases get_set hu with ⟨e1, rfl⟩ | ⟨-, hu⟩
      · rw [(hc _).2] at hq; cases hq
        rcases get_set hw with ⟨e2, rfl⟩ | ⟨-, hw⟩
        · rw [e1, e2]
        · exact absurd rfl (hlt w r _ hw hr)
      · rcases get_set hw with ⟨e2, rfl⟩ | ⟨-, hw⟩
        · rw [(hc _).2] at hr; cases hr
          exact absurd rfl (hlt u q _ hu hq)
        · exact h.uniq u w q r y hu hw hq hr
    · intro y hy
      exact Nat.lt_succ_of_lt (h.ev y hy)
    · intro y hy
      exact h.fresh y (Nat.le_of_succ_le hy)

theorem Hd.offerEvent {s : State} {t x : Nat} {p : PC} {k : Nat → PC} (h : Hd s) (ht : s.ts[t]? = some p) (hp : p.new = some x)
    (hk : ∀ x, (k x).has = some x ∧ (k x).new = none) : Hd (offerEvent s t x k).1 := by
  unfold WinMutexLife.offerEvent
  split
  · rename_i y hy
    exact h.keep rfl rfl rfl rfl (fun z hz => by rw [(hk y).1] at hz; cases hz; exact hy) (hk y).2
  · rename_i hx
    refine ⟨?_, ?_, ?_, ?_, ?_⟩
    · intro u q y hu hq
      simp only [State.pc] at hu
      rcases get_set hu with ⟨-, rfl⟩ | ⟨-, hu⟩
      · rw [(hk _).1] at hq; exact hq
      · have := h.has u q y hu hq; rw [hx] at this; cases this
    · intro u q y hu hq
      simp only [State.pc] at hu
      rcases get_set hu with ⟨-, rfl⟩ | ⟨hne, hu⟩
      · rw [(hk _).2] at hq; cases hq
      · obtain ⟨h1, h2, h3⟩ := h.new u q y hu hq
        refine ⟨h1, ?_, h3⟩
        intro e
        have e : x = y := by simpa using e
        subst e
        exact hne (h.uniq u t q p x hu ht hq hp)
    · intro u w q r y hu hw hq hr
      simp only [State.pc] at hu hw
      rcases get_set hu with ⟨e1, rfl⟩ | ⟨-, hu⟩
      · rw [(hk _).2] at hq; cases hq
      · rcases get_set hw with ⟨e2, rfl⟩ | ⟨-, hw⟩
        · rw [(hk _).2] at hr; cases hr
        · exact h.uniq u w q r y hu hw hq hr
    · intro y hy
      have : x = y := by simpa using hy
      subst this
      exact (h.new t p x ht hp).1
    · exact h.fresh

theorem Hd.go {s s' : State} {t : Nat} {p : PC} {es : List Event} (h : Hd s) (ht : s.ts[t]? = some p) (hs : go s t p = some (s', es)) : Hd s' := by
  cases p with
  | idle => cases hs
  | reading tm => cases hs; exact h.keep rfl rfl rfl rfl (by simp [PC.has]) rfl
  | marking tm old =>
    simp only [WinMutexLife.go] at hs
    (repeat' split at hs) <;> cases hs <;> exact h.keep rfl rfl rfl rfl (by simp [PC.has]) rfl
  | getW tm old =>
    simp only [WinMutexLife.go, Option.some.injEq] at hs
    have := h.getEvent (k := .waiting tm old) (c := .madeW tm old) ht rfl (fun x => ⟨rfl, rfl⟩) (fun x => ⟨rfl, rfl⟩)
    rw [hs] at this; exact this
  | madeW tm old x =>
    simp only [WinMutexLife.go, Option.some.injEq] at hs
    have := h.offerEvent (k := .waiting tm old) ht rfl (fun x => ⟨rfl, rfl⟩)
    rw [hs] at this; exact this
  | waiting tm old x =>
    simp only [WinMutexLife.go] at hs
    split at hs <;> cases hs
    have hx := h.has t _ x ht rfl
    exact (h.signal (b := false) hx).keep (p' := .clearing tm old.clearGuess x) rfl rfl rfl rfl (fun y hy => by cases hy; exact hx) rfl
  | clearing tm old x =>
    have hx := h.has t _ x ht rfl
    simp only [WinMutexLife.go] at hs
    (repeat' split at hs) <;> cases hs <;> exact h.keep rfl rfl rfl rfl (by intro y hy; first | (cases hy; exact hx) | simp [PC.has] at hy) rfl
  | unlocking =>
    simp only [WinMutexLife.go] at hs
    (repeat' split at hs) <;> cases hs <;> exact h.keep rfl rfl rfl rfl (by simp [PC.has]) rfl
  | getS =>
    simp only [WinMutexLife.go, Option.some.injEq] at hs
    have := h.getEvent (k := .setting) (c := .madeS) ht rfl (fun x => ⟨rfl, rfl⟩) (fun x => ⟨rfl, rfl⟩)
    rw [hs] at this; exact this
  | madeS x =>
    simp only [WinMutexLife.go, Option.some.injEq] at hs
    have := h.offerEvent (k := .setting) ht rfl (fun x => ⟨rfl, rfl⟩)
    rw [hs] at this; exact this
  | setting x =>
    cases hs
    have hx := h.has t _ x ht rfl
    exact (h.signal (b := true) hx).keep (p' := .idle) rfl rfl rfl rfl (by simp [PC.has]) rfl

theorem Hd.step {s s' : State} {l : Label} {es : List Event} (h : Hd s) (hl : l ≠ .destroy) (hd : s.dead = false) (hs : step s l = some (s', es)) : Hd s' ∧ s'.dead = false := by
  have hgo : ∀ {t p}, s.ts[t]? = some p → WinMutexLife.go s t p = some (s', es) → Hd s' ∧ s'.dead = false := by
    intro t p ht hg
    refine ⟨h.go ht hg, ?_⟩
    cases hE : s.event <;> cases p <;> simp only [WinMutexLife.go, WinMutexLife.getEvent, WinMutexLife.offerEvent, hE] at hg <;> (repeat' split at hg) <;> cases hg <;> exact hd
  cases l with
  | destroy => exact absurd rfl hl
  | next t =>
    simp only [WinMutexLife.step, hd, Bool.false_and, Bool.false_eq_true, if_false] at hs
    split at hs
    · rename_i p ht; exact hgo ht hs
    · cases hs
  | call t tm =>
    simp only [WinMutexLife.step, hd, Bool.false_eq_true, if_false] at hs
    (repeat' split at hs) <;> cases hs
    · exact ⟨h.keep rfl rfl rfl rfl (by simp [PC.has]) rfl, by first | exact hd | rfl⟩
    · exact ⟨h.same rfl rfl rfl rfl, by first | exact hd | rfl⟩
  | tryLock t =>
    simp only [WinMutexLife.step, hd, Bool.false_eq_true, if_false] at hs
    (repeat' split at hs) <;> cases hs <;> exact ⟨h.same rfl rfl rfl rfl, by first | exact hd | rfl⟩
  | unlock t =>
    simp only [WinMutexLife.step, hd, Bool.false_eq_true, if_false] at hs
    (repeat' split at hs) <;> cases hs
    · exact ⟨h.keep rfl rfl rfl rfl (by simp [PC.has]) rfl, by first | exact hd | rfl⟩
    · exact ⟨h.same rfl rfl rfl rfl, by first | exact hd | rfl⟩
  | giveUp t =>
    simp only [WinMutexLife.step, hd, Bool.false_eq_true, if_false] at hs
    (repeat' split at hs) <;> cases hs
    exact ⟨h.keep rfl rfl rfl rfl (by simp [PC.has]) rfl, by first | exact hd | rfl⟩

end Verif.WinMutexLife
