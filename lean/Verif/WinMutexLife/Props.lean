import Verif.WinMutexLife.Refine
import Verif.WinMutexLife.Sim
import Verif.WinMutex.Props
/-!
# C74: the event of a mutex on Windows, and when the mutex may be destroyed
-/

namespace Verif.WinMutexLife

/-- For any number of threads and in every execution the model keeps to the specification with the strict rule: no two threads own the mutex, every handle that is used is open, every handle is closed at
most once, and no member is used after the destruction. -/
theorem conforms (n : Nat) {ls : List Label} {s : State} {es : List Event} (h : run step (init n) ls = some (s, es)) : Accepts (next true) (start n) es :=
  simulation R (fun _ _ _ _ _ hR hs => sim hR hs) (R.init n) h

/-- A client that keeps to a rule sees no illegal event if the model keeps to it. -/
theorem no_stale {strict : Bool} {σ : Spec} {es : List Event} (h : Accepts (next strict) σ es) (hc : ClientOk (next strict) σ es) : .stale ∉ es := by
  induction es generalizing σ with
  | nil => simp
  | cons e es ih =>
    intro hm
    simp only [Accepts] at h
    simp only [ClientOk] at hc
    cases hn : next strict σ e with
    | ok σ' =>
      rw [hn] at h hc
      rcases List.mem_cons.mp hm with e' | hm
      · subst e'; simp [next] at hn
      · exact ih h hc hm
    | undefined => rw [hn] at hc; exact hc
    | illegal => rw [hn] at h; exact h

/-- Partial: a mutex that is destroyed when no thread owns it and every call of a member function has returned is not used any more. Missing: that it may be destroyed when calls of `unlock` that have given up
the mutex have not returned; see `lax_fails`. -/
theorem destroy_partial (n : Nat) {ls : List Label} {s : State} {es : List Event} (h : run step (init n) ls = some (s, es)) (hc : ClientOk (next true) (start n) es) : .stale ∉ es :=
  no_stale (conforms n h) hc

/-! ## Nothing is leaked -/

theorem open_of {strict : Bool} {σ σ' : Spec} {es : List Event} {h : Nat} (hs : specState (next strict) σ es = some σ') (ho : .opened h ∈ es ∨ σ.isOpen h = true) (hc : .closed h ∉ es) : σ'.isOpen h = true := by
  induction es generalizing σ with
  | nil => simp only [specState, Option.some.injEq] at hs; subst hs; simpa using ho
  | cons e es ih =>
    simp only [specState] at hs
    simp only [List.mem_cons, not_or] at hc
    cases hn : next strict σ e with
    | ok σ1 =>
      rw [hn] at hs
      refine ih hs ?_ hc.2
      rcases ho with ho | ho
      · rcases List.mem_cons.mp ho with e' | ho
        · subst e'
          simp only [next] at hn
          split at hn <;> cases hn
          exact Or.inr (by simp [upd])
        · exact Or.inl ho
      · refine Or.inr ?_
        cases e <;> simp only [next] at hn <;> (repeat' split at hn) <;> cases hn <;> try exact ho
        · simp only [upd]; split
          · rfl
          · exact ho
        · rename_i x _
          have : h ≠ x := fun e' => hc.1 (by rw [e'])
          simp only [upd, if_neg this]; exact ho
    | undefined => rw [hn] at hs; cases hs
    | illegal => rw [hn] at hs; cases hs

theorem dead_of {strict : Bool} {σ σ' : Spec} {es : List Event} (hs : specState (next strict) σ es = some σ') (ho : .destroyed ∈ es ∨ σ.dead = true) : σ'.dead = true := by
  induction es generalizing σ with
  | nil => simp only [specState, Option.some.injEq] at hs; subst hs; simpa using ho
  | cons e es ih =>
    simp only [specState] at hs
    cases hn : next strict σ e with
    | ok σ1 =>
      rw [hn] at hs
      refine ih hs ?_
      rcases ho with ho | ho
      · rcases List.mem_cons.mp ho with e' | ho
        · subst e'
          simp only [next] at hn
          split at hn <;> cases hn
          exact Or.inr rfl
        · exact Or.inl ho
      · refine Or.inr ?_
        cases e <;> simp only [next] at hn <;> (repeat' split at hn) <;> cases hn <;> first | exact ho | rfl
    | undefined => rw [hn] at hs; cases hs
    | illegal => rw [hn] at hs; cases hs

/-- When the mutex has been destroyed, every handle that was obtained for it has been closed, also those of threads that lost the race to create the event. -/
theorem no_leak (n : Nat) {ls : List Label} {s : State} {es : List Event} (h : run step (init n) ls = some (s, es)) (hc : ClientOk (next true) (start n) es) (hd : .destroyed ∈ es) {x : Nat}
    (ho : .opened x ∈ es) : .closed x ∈ es := by
  obtain ⟨σ, hσ⟩ := (conforms n h).specState_isSome hc
  have hR := simulation_state R (fun _ _ _ _ _ hR hs => sim hR hs) (R.init n) h hσ
  have hdead : s.dead = true := by rw [← hR.gone]; exact dead_of hσ (Or.inl hd)
  have hg : Gone s σ := by
    rcases hR.st with hl | hg
    · have := hl.dead; rw [hdead] at this; cases this
    · exact hg
  cases hm : decide (Event.closed x ∈ es) with
  | true => simpa using hm
  | false =>
    have := open_of hσ (Or.inl ho) (by simpa using hm)
    rw [hg.opn x] at this; cases this

/-! ## The mutex behaves as if the event had been there from the start -/

/-- Until it is destroyed, the mutex shows what the model of C05, in which there is one event from the start, shows in some execution: the theorems about that model are about this one as well. -/
theorem one_event (n : Nat) {ls : List Label} {s : State} {es : List Event} (h : run step (init n) ls = some (s, es)) (hl : .destroy ∉ ls) :
    ∃ ls' s' es', run WinMutex.step (WinMutex.init n) ls' = some (s', es') ∧ es.filterMap seen = es'.map conv := by
  obtain ⟨ls', es', h1, h2⟩ := run_refines (Hd.init n) rfl hl h
  rw [abs_init] at h1
  exact ⟨ls', _, es', h1, h2⟩

/-- All threads use the same event, at all times. -/
theorem same_event (n : Nat) {ls : List Label} {s : State} {es : List Event} (h : run step (init n) ls = some (s, es)) (hl : .destroy ∉ ls) {t u : Nat} {p q : PC} {x y : Nat}
    (ht : s.ts[t]? = some p) (hu : s.ts[u]? = some q) (hp : p.has = some x) (hq : q.has = some y) : x = y := by
  have key : ∀ {ls : List Label} {s s' : State} {es : List Event}, Hd s → s.dead = false → .destroy ∉ ls → run step s ls = some (s', es) → Hd s' := by
    intro ls
    induction ls with
    | nil => intro s s' es h _ _ hr; cases hr; exact h
    | cons l ls ih =>
      intro s s' es h hd hl hr
      simp only [List.mem_cons, not_or] at hl
      obtain ⟨m, e1, e2, h1, h2, rfl⟩ := run_cons hr
      obtain ⟨g1, g2⟩ := h.step (fun e => hl.1 e.symm) hd h1
      exact ih g1 g2 hl.2 h2
  have hh := key (Hd.init n) rfl hl h
  have e1 := hh.has t p x ht hp
  have e2 := hh.has u q y hu hq
  rw [e1] at e2; cases e2; rfl

/-! ## Witnesses -/

def obs (n : Nat) (ls : List Label) : Option (List Event) := (run step (init n) ls).map (·.2)

theorem obs_some {n : Nat} {ls : List Label} {es : List Event} (h : obs n ls = some es) : ∃ s', run step (init n) ls = some (s', es) := by
  unfold obs at h
  cases hr : run step (init n) ls with
  | none => rw [hr] at h; cases h
  | some p => rw [hr] at h; cases h; exact ⟨p.1, rfl⟩

/-- Thread 0 unlocks while thread 1 waits. Before it sets the flag, thread 2 locks and unlocks; that wakes thread 1, which is the last to lock and to unlock, and destroys the mutex. -/
def laxRun : List Label :=
  [.call 0 false, .call 1 false, .next 1, .next 1, .unlock 0, .tryLock 2, .unlock 2, .next 2, .next 2, .next 2, .next 2, .next 1, .next 1, .next 1, .unlock 1, .destroy, .next 0]

def laxEvents : List Event :=
  [.call 0, .owned 0 true, .call 1, .release 0, .call 2, .owned 2 true, .release 2, .opened 0, .used 0, .done 2, .used 0, .owned 1 true, .release 1, .done 1, .destroyed, .closed 0, .stale]

/-- A client that destroys the mutex when it is not locked, and nobody is going to use it, is not safe: `unlock` uses the mutex after it has given it up. -/
theorem lax_fails : ∃ ls s es, run step (init 3) ls = some (s, es) ∧ ClientOk (next false) (start 3) es ∧ .stale ∈ es := by
  obtain ⟨s, h⟩ := obs_some (show obs 3 laxRun = some laxEvents by decide +kernel)
  exact ⟨_, s, _, h, by decide +kernel, by decide⟩

/-- Two threads race to create the event: thread 1, which waits, and thread 0, which wakes it. The one that loses closes its own. -/
def raceRun : List Label :=
  [.call 0 false, .call 1 false, .next 1, .next 1, .unlock 0, .next 0, .next 0, .next 1, .next 1, .next 0, .next 0, .next 1, .next 1, .unlock 1, .destroy]

def raceEvents : List Event :=
  [.call 0, .owned 0 true, .call 1, .release 0, .opened 0, .opened 1, .closed 0, .used 1, .done 0, .used 1, .owned 1 true, .release 1, .done 1, .destroyed, .closed 1]

example : obs 2 raceRun = some raceEvents := by decide +kernel
example : ClientOk (next true) (start 2) raceEvents := by decide +kernel
example : .destroyed ∈ raceEvents ∧ .opened 0 ∈ raceEvents ∧ .opened 1 ∈ raceEvents := by decide

/-- The rules differ in what `lax_fails` shows only. -/
example : ¬ ClientOk (next true) (start 3) laxEvents := by decide +kernel
example : ¬ ClientOk (next false) (start 2) [.call 0, .owned 0 true, .destroyed] := by decide +kernel
example : ¬ ClientOk (next false) (start 2) [.call 0, .owned 0 true, .call 1, .release 0, .done 0, .destroyed] := by decide +kernel

end Verif.WinMutexLife
