import Verif.WinMutexLife.Lemmas
/-!
# As long as it lives, the mutex does what the model with one event from the start does
-/

set_option linter.unusedSimpArgs false
set_option linter.unusedVariables false

namespace Verif.WinMutexLife

def absPC : PC → WinMutex.PC
  | .idle => .idle
  | .reading tm => .reading tm
  | .marking tm old => .marking tm old
  | .getW tm old => .waiting tm old
  | .madeW tm old _ => .waiting tm old
  | .waiting tm old _ => .waiting tm old
  | .clearing tm old _ => .clearing tm old
  | .unlocking => .unlocking
  | .getS => .setting
  | .madeS _ => .setting
  | .setting _ => .setting

/-- The event that there is, is signalled. -/
def State.signalled (s : State) : Bool :=
  match s.event with
  | some h => s.sig h
  | none => false

/-- What the state is, seen without the handles. -/
def abs (s : State) : WinMutex.State := { word := s.word, signalled := s.signalled, ts := s.ts.map absPC }

/-- What both models show. -/
def seen : Event → Option Event
  | .owned t b => some (.owned t b)
  | .release t => some (.release t)
  | _ => none

def conv : WinMutex.Event → Event
  | .locked t => .owned t true
  | .tryLocked t b => .owned t b
  | .timedLocked t b => .owned t b
  | .unlocked t => .release t

def Refines (s s' : State) (es : List Event) : Prop := ∃ ls' es', run WinMutex.step (abs s) ls' = some (abs s', es') ∧ es.filterMap seen = es'.map conv

theorem Refines.stutter {s s' : State} {es : List Event} (h : abs s' = abs s) (he : es.filterMap seen = []) : Refines s s' es :=
  ⟨[], [], by rw [h]; rfl, by rw [he]; rfl⟩

theorem Refines.one {s s' : State} {es : List Event} {l : WinMutex.Label} {es' : List WinMutex.Event} (h : WinMutex.step (abs s) l = some (abs s', es')) (he : es.filterMap seen = es'.map conv) :
    Refines s s' es := ⟨[l], es', by simp [run, h], he⟩

theorem abs_get {s : State} {t : Nat} {p : PC} (h : s.ts[t]? = some p) : (abs s).ts[t]? = some (absPC p) := by simp [abs, h]

theorem set_self {α : Type} {l : List α} {t : Nat} {x : α} (h : l[t]? = some x) : l.set t x = l := by
  apply List.ext_getElem?
  intro i
  rw [List.getElem?_set]
  split
  · rename_i e; subst e
    have := (List.getElem?_eq_some_iff.mp h).1
    rw [if_pos this, h]
  · rfl

theorem acq_conv (t : Nat) (tm : Bool) : conv (WinMutex.acquired t tm) = .owned t true := by cases tm <;> rfl

theorem go_refines {s s' : State} {t : Nat} {p : PC} {es : List Event} (h : Hd s) (ht : s.ts[t]? = some p) (hs : go s t p = some (s', es)) : Refines s s' es := by
  have ha := abs_get ht
  have hstut : ∀ p', absPC p' = absPC p → (s.ts.set t p').map absPC = s.ts.map absPC := by
    intro p' e
    rw [List.map_set, e]
    exact set_self (by simp [ht])
  have hget : ∀ {k c : Nat → PC}, (∀ x, absPC (k x) = absPC p) → (∀ x, absPC (c x) = absPC p) → getEvent s t k c = (s', es) → Refines s s' es := by
    intro k c hk hc hg
    unfold getEvent at hg
    split at hg <;> cases hg
    · refine .stutter ?_ rfl
      simp only [abs, State.pc, hstut _ (hk _)]; rfl
    · refine .stutter ?_ rfl
      simp only [abs, State.pc, hstut _ (hc _)]; rfl
  have hoff : ∀ {k : Nat → PC} {x : Nat}, (∀ x, absPC (k x) = absPC p) → p.new = some x → offerEvent s t x k = (s', es) → Refines s s' es := by
    intro k x hk hn hg
    unfold offerEvent at hg
    split at hg <;> cases hg
    · refine .stutter ?_ rfl
      simp only [abs, State.pc, hstut _ (hk _)]; rfl
    · rename_i he
      refine .stutter ?_ rfl
      simp only [abs, State.pc, hstut _ (hk _), State.signalled, he, (h.new t p x ht hn).2.2]
  cases p with
  | idle => cases hs
  | reading tm =>
    cases hs
    exact .one (l := .next t) (es' := []) (by simp [WinMutex.step, ha, absPC, abs, State.pc, State.signalled, ht]) rfl
  | marking tm old =>
    simp only [go] at hs
    split at hs
    · rename_i e
      split at hs <;> cases hs
      · rename_i hl
        exact .one (l := .next t) (es' := []) (by simp [WinMutex.step, ha, absPC, abs, State.pc, State.signalled, ht, e, hl]) rfl
      · rename_i hl
        exact .one (l := .next t) (es' := [WinMutex.acquired t tm]) (by simp [WinMutex.step, ha, absPC, abs, State.pc, State.signalled, ht, e, hl]) (by simp [seen, acq_conv])
    · rename_i e
      cases hs
      exact .one (l := .next t) (es' := []) (by simp [WinMutex.step, ha, absPC, abs, State.pc, State.signalled, ht, e]) rfl
  | getW tm old =>
    simp only [go, Option.some.injEq] at hs
    exact hget (k := .waiting tm old) (c := .madeW tm old) (fun _ => rfl) (fun _ => rfl) hs
  | madeW tm old x =>
    simp only [go, Option.some.injEq] at hs
    exact hoff (k := .waiting tm old) (fun _ => rfl) rfl hs
  | waiting tm old x =>
    have hx := h.has t _ x ht rfl
    simp only [go] at hs
    split at hs <;> cases hs
    rename_i hg
    exact .one (l := .next t) (es' := []) (by simp [WinMutex.step, ha, absPC, abs, State.pc, State.signalled, ht, hx, hg, upd]) rfl
  | clearing tm old x =>
    simp only [go] at hs
    split at hs
    · rename_i e
      split at hs <;> cases hs
      · rename_i hl
        exact .one (l := .next t) (es' := []) (by simp [WinMutex.step, ha, absPC, abs, State.pc, State.signalled, ht, e, hl]) rfl
      · rename_i hl
        exact .one (l := .next t) (es' := [WinMutex.acquired t tm]) (by simp [WinMutex.step, ha, absPC, abs, State.pc, State.signalled, ht, e, hl]) (by simp [seen, acq_conv])
    · rename_i e
      cases hs
      exact .one (l := .next t) (es' := []) (by simp [WinMutex.step, ha, absPC, abs, State.pc, State.signalled, ht, e]) rfl
  | unlocking =>
    simp only [go] at hs
    split at hs <;> cases hs
    · rename_i e
      exact .one (l := .next t) (es' := []) (by simp [WinMutex.step, ha, absPC, abs, State.pc, State.signalled, ht, e]) rfl
    · rename_i e
      exact .one (l := .next t) (es' := []) (by simp [WinMutex.step, ha, absPC, abs, State.pc, State.signalled, ht, e]) rfl
  | getS =>
    simp only [go, Option.some.injEq] at hs
    exact hget (k := .setting) (c := .madeS) (fun _ => rfl) (fun _ => rfl) hs
  | madeS x =>
    simp only [go, Option.some.injEq] at hs
    exact hoff (k := .setting) (fun _ => rfl) rfl hs
  | setting x =>
    have hx := h.has t _ x ht rfl
    cases hs
    exact .one (l := .next t) (es' := []) (by simp [WinMutex.step, ha, absPC, abs, State.pc, State.signalled, ht, hx, upd]) rfl

theorem step_refines {s s' : State} {l : Label} {es : List Event} (h : Hd s) (hl : l ≠ .destroy) (hd : s.dead = false) (hs : step s l = some (s', es)) : Refines s s' es := by
  cases l with
  | destroy => exact absurd rfl hl
  | next t =>
    simp only [step, hd, Bool.false_and, Bool.false_eq_true, if_false] at hs
    split at hs
    · rename_i p ht; exact go_refines h ht hs
    · cases hs
  | call t tm =>
    simp only [step, hd, Bool.false_eq_true, if_false] at hs
    split at hs
    · rename_i ht
      have ha := abs_get ht
      split at hs <;> cases hs
      · rename_i e
        exact .one (l := .call t tm) (es' := []) (by simp [WinMutex.step, ha, absPC, abs, State.pc, State.signalled, ht, e]) rfl
      · rename_i e
        exact .one (l := .call t tm) (es' := [WinMutex.acquired t tm]) (by simp [WinMutex.step, ha, absPC, abs, State.pc, State.signalled, ht, e]) (by simp only [List.map_cons, acq_conv]; rfl)
    · cases hs
  | tryLock t =>
    simp only [step, hd, Bool.false_eq_true, if_false] at hs
    split at hs
    · rename_i ht
      have ha := abs_get ht
      split at hs <;> cases hs
      · rename_i e
        exact .one (l := .tryLock t) (es' := [.tryLocked t false]) (by simp [WinMutex.step, ha, absPC, abs, State.pc, State.signalled, ht, e]) rfl
      · rename_i e
        exact .one (l := .tryLock t) (es' := [.tryLocked t true]) (by simp [WinMutex.step, ha, absPC, abs, State.pc, State.signalled, ht, e]) rfl
    · cases hs
  | unlock t =>
    simp only [step, hd, Bool.false_eq_true, if_false] at hs
    split at hs
    · rename_i ht
      have ha := abs_get ht
      split at hs <;> cases hs
      · rename_i e
        simp only [Bool.and_eq_true, decide_eq_true_eq] at e
        exact .one (l := .unlock t) (es' := [.unlocked t]) (by simp [WinMutex.step, ha, absPC, abs, State.pc, State.signalled, ht, e.1, e.2]) rfl
      · rename_i e
        have e' : ¬ ((s.word.eventSet = false && decide (0 < s.word.waiters)) = true) := e
        refine .one (l := .unlock t) (es' := [.unlocked t]) ?_ rfl
        simp only [WinMutex.step, ha, absPC]
        rw [if_neg (by exact e')]
        rfl
    · cases hs
  | giveUp t =>
    simp only [step, hd, Bool.false_eq_true, if_false] at hs
    split at hs
    · rename_i old x ht
      have ha := abs_get ht
      cases hs
      exact .one (l := .giveUp t) (es' := [.timedLocked t false]) (by simp [WinMutex.step, ha, absPC, abs, State.pc, State.signalled, ht]) rfl
    · cases hs

theorem abs_init (n : Nat) : abs (init n) = WinMutex.init n := by simp [abs, init, WinMutex.init, State.signalled, absPC]

theorem run_refines {s s' : State} {ls : List Label} {es : List Event} (h : Hd s) (hd : s.dead = false) (hl : .destroy ∉ ls) (hr : run step s ls = some (s', es)) : Refines s s' es := by
  induction ls generalizing s s' es with
  | nil => cases hr; exact .stutter rfl rfl
  | cons l ls ih =>
    simp only [List.mem_cons, not_or] at hl
    simp only [run] at hr
    split at hr
    · cases hr
    · rename_i s1 es1 h1
      split at hr
      · cases hr
      · rename_i s2 es2 h2
        cases hr
        obtain ⟨g1, g2⟩ := h.step (fun e => hl.1 e.symm) hd h1
        obtain ⟨la, ea, ra, fa⟩ := step_refines h (fun e => hl.1 e.symm) hd h1
        obtain ⟨lb, eb, rb, fb⟩ := ih g1 g2 hl.2 h2
        refine ⟨la ++ lb, ea ++ eb, ?_, ?_⟩
        · exact run_append ra rb
        · rw [List.filterMap_append, fa, fb, List.map_append]

end Verif.WinMutexLife
