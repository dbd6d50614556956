import Verif.WinSharedMutex.Spec
import Verif.Core.Returns
/-! # What the calls on the Windows shared mutex return -/

namespace Verif.WinSharedMutex

/-- Does the event report the end of a call of thread `t`? -/
def Event.returnOf (t : Nat) : Event → Bool
  | .granted u _ | .refused u _ | .timedOut u _ | .error u _ | .down u _ => u == t
  | .blocked _ _ => false

/-- What a call may end with. A blocking request never fails except with an error, only a timed one may. -/
def MayReturn (t : Nat) (e : Event) : Code → Prop
  | .lock timed => e = .granted t .lock ∨ e = .error t .lock ∨ (timed = true ∧ e = .timedOut t .lock)
  | .shared timed => e = .granted t .shared ∨ e = .error t .shared ∨ (timed = true ∧ (e = .timedOut t .shared ∨ e = .refused t .shared))
  | .upgrade => e = .granted t .upgrade ∨ e = .error t .upgrade
  | .tryLock => e = .granted t .lock ∨ e = .refused t .lock
  | .tryShared => e = .granted t .shared ∨ e = .refused t .shared
  | .tryUpgrade => e = .granted t .upgrade ∨ e = .refused t .upgrade
  | .unlock => e = .down t .unlock
  | .unlockShared => e = .down t .unlockShared
  | .unlockUpgrade => e = .down t .unlockUpgrade
  | .upgradeToExclusive => e = .granted t .upgradeToExclusive
  | .exclusiveToUpgrade => e = .down t .exclusiveToUpgrade
  | .exclusiveToShared => e = .down t .exclusiveToShared
  | .upgradeToShared => e = .down t .upgradeToShared
  -- not calls
  | .lockExpired => False
  | .sharedExpired => False

/-- The code `c'` is run for the call `c`. -/
def Sub (c c' : Code) : Prop := c' = c ∧ c.callable = true ∨ (c = .lock true ∧ c' = .lockExpired) ∨ (c = .shared true ∧ c' = .sharedExpired)

/-- Where a thread can be inside a call. -/
def Inside (c : Code) (p : PC) : Prop :=
  (∃ c', Sub c c' ∧ (p = .start c' ∨ ∃ w, p = .loop c' w ∨ p = .waiting c' w ∨ ∃ ex un up, p = .releasing ex un up (some (c', w)))) ∨ (c = .upgradeToExclusive ∧ p = .waitUp)

theorem plan_refuse {c c' : Code} {w : Word} {r : Req} (t : Nat) (hc : Sub c c') (h : plan w c' = .refuse r) : MayReturn t (.refused t r) c := by
  rcases hc with ⟨rfl, hc⟩ | ⟨rfl, rfl⟩ | ⟨rfl, rfl⟩
  · cases c' <;> simp only [Code.callable, reduceCtorEq] at hc <;> simp only [plan] at h <;> (repeat' split at h) <;> cases h <;> simp [MayReturn]
  all_goals simp only [plan] at h <;> (repeat' split at h) <;> cases h <;> simp [MayReturn]

theorem plan_error {c c' : Code} {w : Word} {r : Req} (t : Nat) (hc : Sub c c') (h : plan w c' = .error r) : MayReturn t (.error t r) c := by
  rcases hc with ⟨rfl, hc⟩ | ⟨rfl, rfl⟩ | ⟨rfl, rfl⟩
  · cases c' <;> simp only [plan] at h <;> (repeat' split at h) <;> cases h <;> simp [MayReturn]
  all_goals simp only [plan] at h <;> (repeat' split at h) <;> cases h

/-- The end of the call, or another wait. -/
def KontOk (t : Nat) (c : Code) : Kont → Prop
  | .granted r => MayReturn t (.granted t r) c
  | .refused r => MayReturn t (.refused t r) c
  | .timedOut r _ => MayReturn t (.timedOut t r) c
  | .down d _ _ _ => MayReturn t (.down t d) c
  | .wait _ => True
  | .waitUp => c = .upgradeToExclusive

theorem plan_cas {c c' : Code} {w new : Word} {k : Kont} (t : Nat) (hc : Sub c c') (h : plan w c' = .cas new k) : KontOk t c k := by
  rcases hc with ⟨rfl, hc⟩ | ⟨rfl, rfl⟩ | ⟨rfl, rfl⟩
  · cases c' <;> simp only [Code.callable, reduceCtorEq] at hc <;> simp only [plan] at h <;> (repeat' split at h) <;> simp only [Plan.cas.injEq, reduceCtorEq] at h <;> (obtain ⟨-, rfl⟩ := h) <;>
      simp [KontOk, MayReturn]
  all_goals simp only [plan] at h <;> (repeat' split at h) <;> simp only [Plan.cas.injEq, reduceCtorEq] at h <;> (obtain ⟨-, rfl⟩ := h) <;> simp [KontOk, MayReturn]

theorem decide_inside {s : State} {t : Nat} {c c' : Code} (hc : Sub c c') (w : Word) :
    ((s.decide t c' w).2.filter (Event.returnOf t) = [] ∧ Inside c ((s.decide t c' w).1.pc t)) ∨ ∃ e rest, (s.decide t c' w).2.filter (Event.returnOf t) = e :: rest ∧ MayReturn t e c := by
  simp only [State.decide]
  split
  · rename_i h; exact .inr ⟨_, [], by simp [Event.returnOf], plan_refuse t hc h⟩
  · rename_i h; exact .inr ⟨_, [], by simp [Event.returnOf], plan_error t hc h⟩
  · exact .inl ⟨rfl, .inl ⟨c', hc, .inr ⟨w, .inl (by simp [upd_apply])⟩⟩⟩

theorem decide_other {s : State} {t u : Nat} (hu : u ≠ t) (c' : Code) (w : Word) : (s.decide u c' w).2.filter (Event.returnOf t) = [] ∧ (s.decide u c' w).1.pc t = s.pc t := by
  have hu' : t ≠ u := Ne.symm hu
  simp only [State.decide]
  split <;> simp [Event.returnOf, upd_apply, hu, hu']

theorem commit_other {s : State} {t u : Nat} (hu : u ≠ t) (c' : Code) (old new : Word) (k : Kont) : (s.commit u c' old new k).2.filter (Event.returnOf t) = [] ∧ (s.commit u c' old new k).1.pc t = s.pc t := by
  have hu' : t ≠ u := Ne.symm hu
  cases k <;> simp [State.commit, Event.returnOf, upd_apply, hu, hu']

theorem commit_inside {s : State} {t : Nat} {c c' : Code} (hc : Sub c c') {old new : Word} {k : Kont} (h : plan old c' = .cas new k) :
    ((s.commit t c' old new k).2.filter (Event.returnOf t) = [] ∧ Inside c ((s.commit t c' old new k).1.pc t)) ∨ ∃ e rest, (s.commit t c' old new k).2.filter (Event.returnOf t) = e :: rest ∧ MayReturn t e c := by
  have hk := plan_cas t hc h
  cases k <;> simp only [KontOk] at hk <;> simp only [State.commit]
  case wait r => exact .inl ⟨by simp [Event.returnOf], .inl ⟨c', hc, .inr ⟨old, .inr (.inl (by simp [upd_apply]))⟩⟩⟩
  case waitUp => exact .inl ⟨by simp [Event.returnOf], .inr ⟨hk, by simp [upd_apply]⟩⟩
  all_goals exact .inr ⟨_, [], by simp [Event.returnOf], hk⟩

/-- A step of another thread. -/
theorem other_step {t : Nat} {s s' : State} {l : Label} {es : List Event} (hl : match l with | .call u _ | .load u | .cas u | .wake u | .timeout u | .release u => u ≠ t) (hs : step s l = some (s', es)) :
    es.filter (Event.returnOf t) = [] ∧ s'.pc t = s.pc t := by
  cases l <;> simp only at hl <;> simp only [step] at hs <;> have hl' := Ne.symm hl <;> (repeat' split at hs) <;> simp only [Option.some.injEq, reduceCtorEq] at hs
  all_goals first
    | (have h := decide_other (s := s) hl; obtain ⟨rfl, rfl⟩ := Prod.mk.inj hs; exact h _ _)
    | (have h := commit_other (s := s) hl; obtain ⟨rfl, rfl⟩ := Prod.mk.inj hs; exact h _ _ _ _)
    | (obtain ⟨rfl, rfl⟩ := Prod.mk.inj hs; simp [upd_apply, hl, hl', Event.returnOf]; done)
    | (rw [← (congrArg Prod.fst hs : _ = s'), ← (congrArg Prod.snd hs : _ = es)]; first | exact decide_other hl _ _ | exact commit_other hl _ _ _ _)

theorem inside_step {t : Nat} {c : Code} {s s' : State} {l : Label} {es : List Event} (hi : Inside c (s.pc t)) (hs : step s l = some (s', es)) :
    (es.filter (Event.returnOf t) = [] ∧ Inside c (s'.pc t)) ∨ ∃ e rest, es.filter (Event.returnOf t) = e :: rest ∧ MayReturn t e c := by
  by_cases hl : match l with | .call u _ | .load u | .cas u | .wake u | .timeout u | .release u => u ≠ t
  · obtain ⟨h1, h2⟩ := other_step hl hs
    exact .inl ⟨h1, by rw [h2]; exact hi⟩
  have ofDecide : ∀ {c' : Code} {w : Word}, Sub c c' → some (s.decide t c' w) = some (s', es) →
      (es.filter (Event.returnOf t) = [] ∧ Inside c (s'.pc t)) ∨ ∃ e rest, es.filter (Event.returnOf t) = e :: rest ∧ MayReturn t e c := by
    intro c' w hc h
    have := decide_inside (s := s) (t := t) hc w
    rw [Option.some.inj h] at this
    exact this
  cases l <;> simp only [ne_eq, Decidable.not_not] at hl <;> subst hl <;> simp only [step] at hs
  case call u c' =>
    split at hs
    · rename_i h
      rw [h.2.1] at hi
      rcases hi with ⟨_, _, h | ⟨_, h | h | ⟨_, _, _, h⟩⟩⟩ | ⟨_, h⟩ <;> cases h
    · cases hs
  case load u =>
    split at hs <;> try cases hs
    rename_i c' hp
    rw [hp] at hi
    rcases hi with ⟨_, hc, h | ⟨_, h | h | ⟨_, _, _, h⟩⟩⟩ | ⟨_, h⟩ <;> cases h
    exact ofDecide hc hs
  case cas u =>
    split at hs <;> try cases hs
    rename_i c' old hp
    rw [hp] at hi
    rcases hi with ⟨_, hc, h | ⟨_, h | h | ⟨_, _, _, h⟩⟩⟩ | ⟨_, h⟩ <;> cases h
    split at hs
    · rename_i new k hpl
      split at hs
      · have := commit_inside (s := s) (t := u) hc hpl
        rw [Option.some.inj hs] at this
        exact this
      split at hs
      · cases hs
        exact .inl ⟨rfl, .inl ⟨c', hc, .inr ⟨s.word, .inr (.inr ⟨0, 1, 0, by simp [upd_apply]⟩)⟩⟩⟩
      · exact ofDecide hc hs
    · cases hs
  case wake u =>
    split at hs
    · rename_i c' w hp
      rw [hp] at hi
      rcases hi with ⟨_, hc, h | ⟨_, h | h | ⟨_, _, _, h⟩⟩⟩ | ⟨_, h⟩ <;> cases h
      split at hs <;> split at hs <;> cases hs
      all_goals exact .inl ⟨rfl, .inl ⟨_, hc, .inl (by simp [upd_apply])⟩⟩
    · rename_i hp
      rw [hp] at hi
      rcases hi with ⟨_, hc, h | ⟨_, h | h | ⟨_, _, _, h⟩⟩⟩ | ⟨rfl, h⟩ <;> cases h
      split at hs <;> cases hs
      exact .inr ⟨_, [], by simp [Event.returnOf], rfl⟩
    · cases hs
  case timeout u =>
    split at hs <;> try cases hs
    all_goals
      rename_i w hp
      rw [hp] at hi
      rcases hi with ⟨_, hc, h | ⟨_, h | h | ⟨_, _, _, h⟩⟩⟩ | ⟨_, h⟩ <;> cases h
      rcases hc with ⟨h, -⟩ | ⟨rfl, h⟩ | ⟨rfl, h⟩ <;> cases h
    · exact ofDecide (.inr (.inl ⟨rfl, rfl⟩)) hs
    · exact ofDecide (.inr (.inr ⟨rfl, rfl⟩)) hs
  case release u =>
    split at hs <;> try cases hs
    rename_i ex un up k hp
    rw [hp] at hi
    rcases hi with ⟨_, hc, h | ⟨w, h | h | ⟨_, _, _, h⟩⟩⟩ | ⟨_, h⟩ <;> cases h
    repeat' split at hs
    · cases hs; exact .inl ⟨rfl, .inl ⟨_, hc, .inr ⟨w, .inr (.inr ⟨0, un, up, by simp [upd_apply]⟩)⟩⟩⟩
    · cases hs; exact .inl ⟨rfl, .inl ⟨_, hc, .inr ⟨w, .inr (.inr ⟨0, 0, up, by simp [upd_apply]⟩)⟩⟩⟩
    · cases hs; exact .inl ⟨rfl, .inl ⟨_, hc, .inr ⟨w, .inr (.inr ⟨0, 0, 0, by simp [upd_apply]⟩)⟩⟩⟩
    · rename_i h; cases h
    · rename_i h; cases h; exact ofDecide hc hs

/-- **C12**, what a call may return. From any state, whatever the other threads do, a call ends with one of the results it has: a blocking request with what it asked for or with `lock_error`, never
by giving up. -/
theorem call_returns (s s' : State) (ls : List Label) (es : List Event) (t : Nat) (c : Code) (h : run step s (.call t c :: ls) = some (s', es)) :
    ∀ e rest, es.filter (Event.returnOf t) = e :: rest → MayReturn t e c := by
  refine first_return_call (Event.returnOf t) (fun s => Inside c (s.pc t)) (fun e => MayReturn t e c) (fun s l s' es hi hs => inside_step hi hs) ?_ h
  intro s1 es1 hs
  simp only [step] at hs
  split at hs <;> cases hs
  rename_i hc
  exact .inl ⟨rfl, .inl ⟨c, .inl ⟨rfl, hc.2.2⟩, .inl (by simp [upd_apply])⟩⟩

/-- A reader; thread 1 waits in `lock()`, thread 2 in a timed one that gives up; the reader leaves. -/
def waitProg : List Label :=
  [.call 0 (.shared false), .load 0, .cas 0, .call 1 (.lock false), .load 1, .cas 1, .call 2 (.lock true), .load 2, .cas 2, .timeout 2, .cas 2, .release 2, .release 2, .cas 2, .release 2, .call 0 .unlockShared, .load 0, .cas 0,
   .release 0, .release 0, .wake 1, .load 1, .cas 1]
example : (run step (init 3) waitProg).map (fun r => (r.2.filter (Event.returnOf 1), r.2.filter (Event.returnOf 2))) = some ([.granted 1 .lock], [.timedOut 2 .lock]) := by decide +kernel

end Verif.WinSharedMutex
