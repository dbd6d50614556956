import Verif.MutexLife.Sim
/-! # C80: destruction of the POSIX mutexes -/

namespace Verif.MutexLife

/-- The recursive mutexes are the ones that a thread can lock again. -/
theorem recur_eq (k : Kind) : k.recur = decide (k = .recursive) := by cases k <;> rfl

/-- C80: every history of a mutex of any of the kinds conforms to the specification. -/
theorem conforms (k : Kind) (n : Nat) {ls : List Label} {s : State} {es : List Event} (h : run (step k n) init ls = some (s, es)) :
    Accepts next (start n (decide (k = .recursive))) es :=
  simulation (R k n) (fun _ _ _ _ _ hR hs => sim hR hs) (recur_eq k ▸ R_init k n) h

theorem no_stale {σ : Spec} {es : List Event} (h : Accepts next σ es) (hc : ClientOk next σ es) : .stale ∉ es := by
  induction es generalizing σ with
  | nil => simp
  | cons e es ih =>
    intro hm
    simp only [Accepts] at h
    simp only [ClientOk] at hc
    cases hn : next σ e with
    | ok s' =>
      rw [hn] at h hc
      rcases List.mem_cons.1 hm with e' | e'
      · subst e'; cases hn
      · exact ih h hc e'
    | undefined => rw [hn] at hc; exact hc
    | illegal => rw [hn] at h; exact h

/-- C80, destruction: a program that destroys the mutex when no thread owns it or is in a call that locks it, and calls of `unlock` still running have been seen to take effect, never makes the
mutex use its members after the destruction. -/
theorem destruction_is_safe (k : Kind) (n : Nat) {ls : List Label} {s : State} {es : List Event} (h : run (step k n) init ls = some (s, es))
    (hc : ClientOk next (start n (decide (k = .recursive))) es) : .stale ∉ es :=
  no_stale (conforms k n h) hc

/-- C80, put for one thread: while a thread has the mutex to itself, every call of `unlock` of another thread, however far its own thread has got, will not use the mutex
any more: all it still does is return. -/
theorem owner_is_alone (k : Kind) (n : Nat) {ls : List Label} {s : State} {es : List Event} (h : run (step k n) init ls = some (s, es))
    (hc : ClientOk next (start n (decide (k = .recursive))) es) {t d : Nat} (ho : s.held t = some (.exclusive, d)) {u : Nat} (hu : u ≠ t) :
    s.held u = none ∧ ∀ x r, s.pc u ≠ .unlocking (x :: r) := by
  obtain ⟨σ, hσ⟩ := (conforms k n h).specState_isSome hc
  have hR := simulation_state (R k n) (fun _ _ _ _ _ hR hs => sim hR hs) (recur_eq k ▸ R_init k n) h hσ
  have h1 : s.held u = none := by
    cases e : s.held u with
    | none => rfl
    | some x => obtain ⟨m, d'⟩ := x; have := hR.excl t u _ _ _ _ (Ne.symm hu) ho e; cases m <;> cases this
  refine ⟨h1, fun x r e => ?_⟩
  have hth := hR.th u
  rw [e] at hth
  obtain ⟨h', m, p, e', -, -⟩ := hth.unlocking_inv
  have := hR.seen t u _ _ _ _ _ (Ne.symm hu) ho e' rfl
  rw [e] at this
  cases this

/-- A thread in `unlock`, all operations on members. -/
def leaveAll (t k : Nat) : List Label := List.replicate k (.go t)

/-- Thread 0 has the mutex; thread 1 waits for it. Thread 0 unlocks and is stopped before it returns. Thread 1 gets the mutex, unlocks and destroys it; thread 0 returns. -/
def handover (m : Mode) (k k' : Nat) : List Label :=
  [.call 0 m, .go 0, .grant 0, .go 0, .go 0, .call 1 .exclusive, .go 1, .sleep 1, .unlock 0 true true] ++ leaveAll 0 k ++
  [.go 1, .grant 1, .go 1, .go 1, .unlock 1 true true] ++ leaveAll 1 k' ++ [.go 1, .destroy, .go 0]

def handoverEvents (m : Mode) : List Event :=
  [.call 0 m, .owned 0 true, .call 1 .exclusive, .callUnlock 0, .owned 1 true, .callUnlock 1, .done 1, .destroyed, .done 0]

/-- The rule allows it, and it can happen with each kind. -/
example : (run (step .timed 2) init (handover .exclusive 4 4)).map (·.2) = some (handoverEvents .exclusive) ∧ ClientOk next (start 2 false) (handoverEvents .exclusive) := by decide +kernel
example : (run (step .recursive 2) init (handover .exclusive 4 4)).map (·.2) = some (handoverEvents .exclusive) ∧ ClientOk next (start 2 true) (handoverEvents .exclusive) := by decide +kernel
example : (run (step .sharedV1 2) init (handover .shared 6 5)).map (·.2) = some (handoverEvents .shared) ∧ ClientOk next (start 2 false) (handoverEvents .shared) := by decide +kernel
example : (run (step .sharedV2 2) init (handover .upgrade 4 4)).map (·.2) = some (handoverEvents .upgrade) ∧ ClientOk next (start 2 false) (handoverEvents .upgrade) := by decide +kernel

/-- The rule is needed: a thread that only knows that the others will not use the mutex any more, because they have all called `unlock`, must not destroy it. -/
theorem must_be_seen : ∃ s, run (step .timed 1) init [.call 0 .exclusive, .go 0, .grant 0, .go 0, .go 0, .unlock 0 false false, .go 0, .go 0, .destroy, .go 0]
    = some (s, [.call 0 .exclusive, .owned 0 true, .callUnlock 0, .destroyed, .stale]) ∧ s.held 0 = none := ⟨_, rfl, rfl⟩

/-- Nor is a shared ownership of one's own enough to know that another reader has left. -/
theorem readers_do_not_tell : ∃ s, run (step .sharedV2 2) init [.call 0 .shared, .go 0, .grant 0, .go 0, .go 0, .unlock 0 true false,
    .call 1 .shared, .go 1, .grant 1, .go 1, .go 1, .unlock 1 false false, .go 1, .go 1, .go 1, .go 1, .destroy, .go 0]
    = some (s, [.call 0 .shared, .owned 0 true, .callUnlock 0, .call 1 .shared, .owned 1 true, .callUnlock 1, .done 1, .destroyed, .stale]) := ⟨_, rfl⟩

/-- A recursive mutex is not free after one of two calls of `unlock`: the other thread cannot have it. -/
example : (run (step .recursive 2) init [.call 0 .exclusive, .go 0, .grant 0, .go 0, .go 0, .call 0 .exclusive, .go 0, .grant 0, .go 0, .go 0, .unlock 0 false false,
    .go 0, .go 0, .go 0, .go 0, .go 0, .call 1 .exclusive, .go 1, .grant 1]).isNone := by decide +kernel

end Verif.MutexLife
