import Verif.Guards.Sim
/-!
# Scoped locks: the properties
-/
set_option linter.unusedSimpArgs false

namespace Verif.Guards

/-- C63. Every history of scoped locks and lock objects, by any number of threads, is one that the specification allows: a scope holds its mutex from its beginning to its end and gives back exactly
what it has taken, on every path out; a `nested_strict_lock` takes the ownership from its lock, locking if it has to, and gives it back; a `reverse_lock` takes it away and restores it; `get` of
an `externally_locked` object gives access exactly with a strict lock on the object's mutex; no mutex is ever unlocked by a thread that does not hold it. Partial: not for `reverse_lock` with
`shared_lock` (`reverse_lock_of_shared_lock`), and with checks of preconditions off `get` gives access with any strict lock (`unchecked_access`). -/
theorem conforms_partial (c : Cfg) {ls : List Label} {s : State} {es : List Event} (h : run (step c) (init c) ls = some (s, es)) : Accepts (next c false) (Spec.new c) es :=
  simulation (R c) (fun _ _ _ _ _ hR hs => sim hR hs) (R.init c) h

theorem state_partial (c : Cfg) {ls : List Label} {s : State} {es : List Event} {σ : Spec} (h : run (step c) (init c) ls = some (s, es)) (hσ : specState (next c false) (Spec.new c) es = some σ) : R c s σ :=
  simulation_state (R c) (fun _ _ _ _ _ hR hs => sim hR hs) (R.init c) h hσ

/-- C63. What one thread holds exclusively, by scopes, lock objects or directly, no other thread holds in any way, and nobody holds it shared. -/
theorem mutual_exclusion (c : Cfg) {ls : List Label} {s : State} {es : List Event} {σ : Spec} (h : run (step c) (init c) ls = some (s, es))
    (hσ : specState (next c false) (Spec.new c) es = some σ) {t m : Nat} (ht : 0 < σ.excl t m) (u : Nat) : σ.shared u m = 0 ∧ (0 < σ.excl u m → u = t) := by
  have hR := state_partial c h hσ
  rw [hR.m.x] at ht
  unfold depth at ht
  cases he : s.excl m with
  | none => simp [he] at ht
  | some p =>
    obtain ⟨v, d⟩ := p
    have hd := hR.m.pos m v d he
    refine ⟨by rw [hR.m.sh, hd.2]; rfl, fun hu => ?_⟩
    rw [hR.m.x] at hu
    unfold depth at hu
    simp only [he] at hu ht
    split at hu <;> split at ht <;> simp_all

/-! ## Access to externally locked objects -/

/-- The objects to which access has been given with this scope. -/
def Scope.acc : Scope → List Nat
  | .strict _ acc => acc
  | .nested _ _ _ acc => acc
  | _ => []

/-- The scope keeps its mutex shared only. -/
def Scope.isShared : Scope → Bool
  | .sguard _ => true
  | .nested _ sh _ _ => sh
  | _ => false

def Acc (c : Cfg) (σ : Spec) : Prop := ∀ t sc, sc ∈ σ.scopes t → ∀ x ∈ sc.acc, sc.strictOn = some (c.mx x)

theorem Acc.open {c : Cfg} {σ : Spec} {t : Nat} {sc : Scope} (h : Acc c σ) (hs : sc.acc = []) : Acc c (σ.open t sc) := by
  intro u sc' hm x hx
  simp only [Spec.open, upd_apply] at hm
  split at hm
  · rename_i hu; subst hu
    rcases List.mem_cons.mp hm with rfl | hm
    · rw [hs] at hx; cases hx
    · exact h u sc' hm x hx
  · exact h u sc' hm x hx

theorem Acc.close {c : Cfg} {σ σ' : Spec} {t : Nat} (h : Acc c σ) (hn : Guards.close c σ t = .ok σ') : Acc c σ' := by
  have hsc : ∃ sc rest, σ.scopes t = sc :: rest ∧ σ'.scopes = upd σ.scopes t rest := by
    unfold Guards.close at hn
    cases hsc : σ.scopes t with
    | nil => simp only [hsc] at hn; cases hn
    | cons sc rest =>
      refine ⟨sc, rest, rfl, ?_⟩
      simp only [hsc] at hn
      repeat' split at hn
      all_goals cases hn
      all_goals rfl
  obtain ⟨sc, rest, h1, h2⟩ := hsc
  intro u sc' hm x hx
  rw [h2] at hm
  simp only [upd_apply] at hm
  split at hm
  · rename_i hu; subst hu; exact h u sc' (by rw [h1]; exact List.mem_cons_of_mem _ hm) x hx
  · exact h u sc' hm x hx

theorem Acc.next {c : Cfg} {b : Bool} {σ σ' : Spec} {e : Event} (h : Acc c σ) (hn : Guards.next c b σ e = .ok σ') : Acc c σ' := by
  cases e <;> simp only [Guards.next] at hn
  case left t => exact h.close hn
  case got t x d =>
    cases hd : (σ.scopes t)[d]? with
    | none => simp only [hd] at hn; cases hn
    | some sc =>
      simp only [hd] at hn
      split at hn
      · rename_i hso
        cases hn
        intro u sc' hm y hy
        simp only [upd_apply] at hm
        split at hm
        · rename_i hu
          subst hu
          rcases List.mem_or_eq_of_mem_set hm with hm | rfl
          · exact h u sc' hm y hy
          · have := h u sc (List.mem_of_getElem? hd)
            cases sc <;> simp_all [Scope.give, Scope.acc, Scope.strictOn]
            all_goals rcases hy with rfl | hy
            all_goals first | rfl | exact this y hy
        · exact h u sc' hm y hy
      · split at hn <;> cases hn
  all_goals repeat' split at hn
  all_goals cases hn
  all_goals first
    | exact h
    | exact Acc.open (σ := σ) h rfl
    | exact Acc.open (σ := Spec.setLk _ _ _ _) h rfl
    | exact Acc.open (σ := Spec.setRaw _ _ _ _) h rfl

theorem specState_inv {c : Cfg} {b : Bool} {es : List Event} {σ σ' : Spec} (h : Acc c σ) (hs : specState (next c b) σ es = some σ') : Acc c σ' := by
  induction es generalizing σ with
  | nil => simp only [specState, Option.some.injEq] at hs; exact hs ▸ h
  | cons e es ih =>
    simp only [specState] at hs
    cases hn : next c b σ e with
    | ok σ1 => simp only [hn] at hs; exact ih (h.next hn) hs
    | undefined => simp [hn] at hs
    | illegal => simp [hn] at hs

theorem Scope.holds_of_strictOn {sc : Scope} {m : Nat} (h : sc.strictOn = some m) : sc.holds sc.isShared m = true := by
  cases sc <;> simp_all [Scope.strictOn, Scope.holds, Scope.isShared]

/-- C63. Two threads do not have access to the same `externally_locked` object at the same time: if `get` has given access to `x` with scopes of `t` and of `u` that have not ended, and one of them
holds its mutex exclusively, then `t = u`. -/
theorem exclusive_access (c : Cfg) {ls : List Label} {s : State} {es : List Event} {σ : Spec} (h : run (step c) (init c) ls = some (s, es))
    (hσ : specState (next c false) (Spec.new c) es = some σ) {t u x : Nat} {sc sc' : Scope} (ht : sc ∈ σ.scopes t) (hu : sc' ∈ σ.scopes u) (hx : x ∈ sc.acc) (hy : x ∈ sc'.acc)
    (he : sc.isShared = false) : t = u := by
  have hA : Acc c σ := specState_inv (σ := Spec.new c) (fun t sc hm => by cases hm) hσ
  have h1 := Scope.holds_of_strictOn (hA t sc ht x hx)
  have h2 := Scope.holds_of_strictOn (hA u sc' hu x hy)
  rw [he] at h1
  have hp : 0 < σ.excl t (c.mx x) := by
    have := List.countP_pos_iff.mpr ⟨sc, ht, h1⟩
    simp only [Spec.excl]
    omega
  have hm := mutual_exclusion c h hσ hp u
  cases hs : sc'.isShared with
  | true =>
    rw [hs] at h2
    have := List.countP_pos_iff.mpr ⟨sc', hu, h2⟩
    have h0 := hm.1
    simp only [Spec.shared] at h0
    omega
  | false =>
    rw [hs] at h2
    have := List.countP_pos_iff.mpr ⟨sc', hu, h2⟩
    exact (hm.2 (by simp only [Spec.excl]; omega)).symm

/-! ## Waiting -/

theorem step_some {c : Cfg} {s : State} {l : Label} (hu : s.ub = false) (ht : l.thread < c.n) : (step c s l).isSome = (act c s l).isSome := by
  unfold step
  rw [if_pos ⟨hu, ht⟩]
  cases act c s l with
  | none => rfl
  | some p => rfl

/-- C63. The end of a scope waits for nothing, whatever the other threads do; only a `reverse_lock` has to get its mutex back, and does so when nobody else holds it. -/
theorem scopes_end (c : Cfg) {ls : List Label} {s : State} {es : List Event} {σ : Spec} (h : run (step c) (init c) ls = some (s, es))
    (hσ : specState (next c false) (Spec.new c) es = some σ) {t : Nat} (ht : t < c.n) {sc : Scope} {rest : List Scope} (hs : σ.scopes t = sc :: rest) :
    (step c s (.leave t)).isSome ↔ ∀ i m, sc = .reverse i (some m) → mayLock c σ t m := by
  have hR := state_partial c h hσ
  rw [step_some (l := .leave t) hR.ub ht]
  have hk := hR.stk t
  rw [hs, List.map_cons] at hk
  simp only [act, leave, hk]
  cases sc with
  | reverse i mo =>
    cases mo with
    | none => simp [Scope.frame]
    | some m =>
      have hf := hR.fits t _ (by rw [hs]; exact List.mem_cons_self)
      have hlen : i < (s.lk t).length := by
        have := (List.getElem?_eq_some_iff.mp hf).1
        rw [← hR.ty t] at this
        rw [hR.lk]
        simpa using this
      simp only [Scope.frame, List.getElem?_eq_getElem hlen, Scope.reverse.injEq, Option.some.injEq, and_imp]
      have hm := hR.may (m := m) ht
      constructor
      · rintro h1 i' m' rfl rfl
        split at h1
        · exact hm.mpr ‹_›
        · cases h1
      · intro h1
        rw [if_pos (hm.mp (h1 i m rfl rfl))]
        rfl
  | _ => simp [Scope.frame]

/-- C63. Locking waits exactly as long as somebody else holds the mutex, or as the thread itself does and the mutex is not recursive. -/
theorem waits_only_for_holders (c : Cfg) {ls : List Label} {s : State} {es : List Event} {σ : Spec} (h : run (step c) (init c) ls = some (s, es))
    (hσ : specState (next c false) (Spec.new c) es = some σ) {t : Nat} (ht : t < c.n) (m : Nat) :
    ((step c s (.guard t m)).isSome ↔ mayLock c σ t m) ∧ ((step c s (.strict t m)).isSome ↔ mayLock c σ t m) ∧ ((step c s (.sguard t m)).isSome ↔ mayShare c σ m) := by
  have hR := state_partial c h hσ
  rw [step_some (l := .guard t m) hR.ub ht, step_some (l := .strict t m) hR.ub ht, step_some (l := .sguard t m) hR.ub ht]
  simp only [act, hR.may ht, hR.mayS]
  refine ⟨?_, ?_, ?_⟩ <;> split <;> simp_all

/-! ## The specification has teeth -/

def cfg : Cfg := { n := 2, recur := fun _ => false, sh := fun _ => [false, true], mx := fun _ => 0, checked := true }

example : ¬ Accepts (next cfg false) (Spec.new cfg) [.guarded 0 0, .guarded 1 0] := by decide +kernel
example : ¬ Accepts (next cfg false) (Spec.new cfg) [.guarded 0 0, .left 0, .guarded 1 0, .tryLocked 0 0 true] := by decide +kernel
example : ¬ Accepts (next cfg false) (Spec.new cfg) [.stricted 0 1, .got 0 7 0] := by decide +kernel
example : ¬ Accepts (next cfg false) (Spec.new cfg) [.stricted 0 0, .refused 0 7 0] := by decide +kernel
example : ¬ Accepts (next cfg false) (Spec.new cfg) [.lkSet 0 0 (some 3), .lkLocked 0 0, .reversed 0 0, .left 0, .lkOwns 0 0 false] := by decide +kernel
example : ¬ Accepts (next cfg false) (Spec.new cfg) [.guarded 0 0, .left 0, .tryLocked 1 0 false] := by decide +kernel

def history (c : Cfg) (ls : List Label) : Option (List Event) := (run (step c) (init c) ls).map Prod.snd

/-- Two threads use strict locks, a nested strict lock and a reverse lock. -/
def program : List Label :=
  [.strict 0 0, .get 0 7 0, .leave 0, .lkSet 1 0 (some 0), .lkLock 1 0, .nested 1 0, .get 1 7 0, .get 1 8 0, .leave 1, .lkOwns 1 0, .reverse 1 0, .guard 0 0, .leave 0, .leave 1, .lkOwns 1 0, .lkUnlock 1 0,
    .sguard 0 0, .sguard 1 0, .leave 1, .leave 0]

example : history cfg program = some [.stricted 0 0, .got 0 7 0, .left 0, .lkSet 1 0 (some 0), .lkLocked 1 0, .nested 1 0, .got 1 7 0, .got 1 8 0, .left 1, .lkOwns 1 0 true, .reversed 1 0, .guarded 0 0,
    .left 0, .left 1, .lkOwns 1 0 true, .lkUnlocked 1 0, .sguarded 0 0, .sguarded 1 0, .left 1, .left 0] := by decide +kernel

/-- The hypotheses of `mutual_exclusion`, `exclusive_access` and `scopes_end` are met. -/
example : (specState (next cfg false) (Spec.new cfg) [.lkSet 1 0 (some 0), .lkLocked 1 0, .nested 1 0, .got 1 7 0]).map (fun σ => (σ.scopes 1, σ.excl 1 0)) = some ([.nested 0 false 0 [7]], 1) := by
  decide +kernel

/-! ## What does not hold -/

/-- `reverse_lock` with a `shared_lock`: the destructor locks the mutex exclusively and lets the `shared_lock` adopt it (reverse_lock.hpp 33-39). It waits although nobody else holds the mutex
exclusively, and when it gets the mutex, other readers are locked out, and the unlock of the `shared_lock` is undefined. -/
theorem reverse_lock_of_shared_lock :
    -- thread 1 reads; thread 0's `shared_lock` wants to go back to reading and waits
    ((run (step cfg) (init cfg) [.lkSet 0 1 (some 0), .lkLock 0 1, .sguard 1 0, .reverse 0 1]).map fun p => ((step cfg p.1 (.leave 0)).isSome, canShare p.1 0)) = some (false, true) ∧
    -- nobody else is there; afterwards thread 1 cannot read, and `unlock` is undefined
    ((run (step cfg) (init cfg) [.lkSet 0 1 (some 0), .lkLock 0 1, .reverse 0 1, .leave 0, .lkOwns 0 1]).map fun p => (p.2, (step cfg p.1 (.sguard 1 0)).isSome, (step cfg p.1 (.lkUnlock 0 1)).map Prod.snd)) =
      some ([.lkSet 0 1 (some 0), .lkLocked 0 1, .reversed 0 1, .left 0, .lkOwns 0 1 true], false, some [.lkUnlocked 0 1, .undefinedBehaviour]) ∧
    ¬ Accepts (next cfg true) (Spec.new cfg) [.lkSet 0 1 (some 0), .lkLocked 0 1, .reversed 0 1, .left 0, .lkOwns 0 1 true, .lkUnlocked 0 1, .undefinedBehaviour] := by
  decide +kernel

/-- `nested_strict_lock<shared_lock>` is a strict lock too: two threads get mutable access to the same `externally_locked` object at the same time. -/
theorem shared_lock_gives_access :
    history cfg [.lkSet 0 1 (some 0), .nested 0 1, .get 0 7 0, .lkSet 1 1 (some 0), .nested 1 1, .get 1 7 0] =
      some [.lkSet 0 1 (some 0), .nested 0 1, .got 0 7 0, .lkSet 1 1 (some 0), .nested 1 1, .got 1 7 0] := by
  decide +kernel

/-- With checks of preconditions off, strict locks on any mutexes of the right type give access. -/
theorem unchecked_access :
    history { cfg with checked := false } [.strict 0 1, .get 0 7 0, .strict 1 2, .get 1 7 0] = some [.stricted 0 1, .got 0 7 0, .stricted 1 2, .got 1 7 0] := by
  decide +kernel

/-- `reverse_lock` and `nested_strict_lock` of a lock that is not locked leave it locked. -/
theorem left_locked :
    history cfg [.lkSet 0 0 (some 0), .lkOwns 0 0, .reverse 0 0, .leave 0, .lkOwns 0 0, .tryLock 1 0, .lkUnlock 0 0, .nested 0 0, .leave 0, .lkOwns 0 0] =
      some [.lkSet 0 0 (some 0), .lkOwns 0 0 false, .reversed 0 0, .left 0, .lkOwns 0 0 true, .tryLocked 1 0 false, .lkUnlocked 0 0, .nested 0 0, .left 0, .lkOwns 0 0 true] := by
  decide +kernel

end Verif.Guards
