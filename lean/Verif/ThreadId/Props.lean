import Verif.ThreadId.Sim
/-! # C82: thread ids -/

namespace Verif.ThreadId

/-- C82: without `BOOST_THREAD_PROVIDES_BASIC_THREAD_ID`, in every history two ids compare equal exactly if they stand for the same thread or both for none, for ever,
and `join` refuses exactly if a thread joins itself. -/
theorem conforms (nk nv : Nat) {ls : List Label} {s : State} {es : List Event} (h : run (step false nk nv) init ls = some (s, es)) : Accepts (next true) start es :=
  simulation (R false nk nv) (fun _ _ _ _ _ hR hs => sim hR hs) (R_init false nk nv) h

/-- C82, partial: with the default, the same for ids of threads that run or have still to be joined or detached. Missing: ids of threads that are gone; see `id_reused`. -/
theorem conforms_partial (nk nv : Nat) {ls : List Label} {s : State} {es : List Event} (h : run (step true nk nv) init ls = some (s, es)) : Accepts (next false) start es :=
  simulation (R true nk nv) (fun _ _ _ _ _ hR hs => sim hR hs) (R_init true nk nv) h

/-- C82: with the default, an id kept after the thread was joined can be equal to that of another thread. -/
theorem id_reused : ∃ (ls : List Label) (s : State) (es : List Event), run (step true 2 2) init ls = some (s, es) ∧ ¬ Accepts (next true) start es ∧
    .compared 0 1 .eq true ∈ es ∧ .started 0 1 ∈ es ∧ .got 0 0 ∈ es ∧ .started 1 2 ∈ es ∧ .got 1 1 ∈ es :=
  ⟨[.foreign 5, .start 0 7, .get 0 0, .fin 1, .join 0 0, .start 1 7, .get 1 1, .compare 0 1 .eq], _, _, rfl, by decide +kernel, by decide +kernel, by decide +kernel, by decide +kernel, by decide +kernel, by decide +kernel⟩

/-- Not so without it: the system cannot choose the address again. -/
example : run (step false 2 2) init [.foreign 0, .make 0 5, .start 0 7, .get 0 0, .fin 1, .join 0 0, .start 1 7] = none := by decide +kernel
/-- When the last id is gone, it can. -/
example : (run (step false 2 2) init [.foreign 0, .make 0 5, .start 0 7, .get 0 0, .fin 1, .join 0 0, .reset 0, .start 1 7, .get 1 1, .compare 0 1 .eq]).map (·.2) =
    some [.foreign 0, .started 0 1, .got 0 0, .ended 1, .joined 0 0, .reset 0, .started 1 2, .got 1 1, .compared 0 1 .eq false] := by decide +kernel
/-- The id of an object and the one its thread sees of itself are the same; a thread that joins itself is refused. -/
example : (run (step true 2 3) init [.start 0 7, .start 1 3, .get 0 0, .self 1 0, .self 2 1, .compare 0 1 .eq, .compare 0 2 .eq, .compare 0 2 .gt, .join 0 0]).map (·.2) =
    some [.started 0 0, .started 1 1, .got 0 0, .self 1 0, .self 2 1, .compared 0 1 .eq true, .compared 0 2 .eq false, .compared 0 2 .gt true, .refused 0 0] := by decide +kernel

/-- C82: a running thread that calls `join` for the object that stands for it is always refused, and nothing changes; so it cannot wait for itself. -/
theorem self_join_refused (basic : Bool) (nk nv : Nat) {ls : List Label} {s : State} {es : List Event} {σ : Spec} (h : run (step basic nk nv) init ls = some (s, es))
    (hσ : specState (next (!basic)) start es = some σ) {c k : Nat} (hk : σ.obj k = some c) (hc : σ.run c = true) : step basic nk nv s (.join c k) = some (s, [.refused c k]) := by
  have hR := simulation_state (R basic nk nv) (fun _ _ _ _ _ hR hs => sim hR hs) (R_init basic nk nv) h hσ
  rw [hR.obj] at hk
  rw [hR.run] at hc
  simp [step, hc, hk, (hR.objs k c hk).2.1, objId]

/-- C82: a thread that joins another one which has ended is never refused. -/
theorem join_other (basic : Bool) (nk nv : Nat) {ls : List Label} {s : State} {es : List Event} {σ : Spec} (h : run (step basic nk nv) init ls = some (s, es))
    (hσ : specState (next (!basic)) start es = some σ) {c k t : Nat} (hk : σ.obj k = some t) (hc : σ.run c = true) (hv : s.val c ≠ 0) (hne : t ≠ c) (ht : σ.run t = false) :
    ∃ s', step basic nk nv s (.join c k) = some (s', [.joined c k]) := by
  have hR := simulation_state (R basic nk nv) (fun _ _ _ _ _ hR hs => sim hR hs) (R_init basic nk nv) h hσ
  rw [hR.obj] at hk
  rw [hR.run] at hc ht
  have := self_iff hR hc hk
  have e : s.val c ≠ s.val t := fun e => hne (this.1 e)
  exact ⟨{ s with obj := upd s.obj k none, freed := upd s.freed t true }, by simp [step, hc, hv, hk, objId, e, ht]⟩

theorem val_stable {basic : Bool} {nk nv : Nat} {s s' : State} {ls : List Label} {es : List Event} (h : run (step basic nk nv) s ls = some (s', es)) (t : Nat) (ht : t < s.cnt) (h0 : s.val t ≠ 0) :
    s'.val t = s.val t := by
  have := run_inv (step := step basic nk nv) (fun m => t < m.cnt ∧ m.val t = s.val t) (by
    intro m l m' es ⟨hc, hv⟩ hs
    have hm : m.val t ≠ 0 := by rw [hv]; exact h0
    cases l <;> simp only [step] at hs
    case start => split at hs <;> cases hs; exact ⟨by simp only; omega, by simp only; rw [upd_ne _ _ (by omega)]; exact hv⟩
    case foreign => split at hs <;> cases hs; exact ⟨by simp only; omega, by simp only; rw [upd_ne _ _ (by omega)]; exact hv⟩
    case make =>
      split at hs <;> cases hs
      next hx => exact ⟨hc, by simp only; rw [upd_ne _ _ (fun e => hm (by rw [e]; exact hx.2.1))]; exact hv⟩
    all_goals (repeat' split at hs) <;> cases hs <;> exact ⟨hc, hv⟩) ⟨ht, rfl⟩ h
  exact this.2

/-- C82: the order of the ids of two threads never changes: whenever and through whichever variables they are compared, the result is the same. -/
theorem order_stable (basic : Bool) (nk nv : Nat) {ls ls' : List Label} {s s' : State} {es es' : List Event} {σ σ' : Spec} (h : run (step basic nk nv) init ls = some (s, es))
    (hσ : specState (next (!basic)) start es = some σ) (h' : run (step basic nk nv) s ls' = some (s', es')) (hσ' : specState (next (!basic)) start (es ++ es') = some σ')
    {i j k l : Nat} (hi : σ.var i = σ'.var k) (hj : σ.var j = σ'.var l) (o : Op) {r r' : Bool}
    (h1 : ∃ x, step basic nk nv s (.compare i j o) = some (x, [.compared i j o r])) (h2 : ∃ x, step basic nk nv s' (.compare k l o) = some (x, [.compared k l o r'])) : r = r' := by
  have hR := simulation_state (R basic nk nv) (fun _ _ _ _ _ hR hs => sim hR hs) (R_init basic nk nv) h hσ
  have hR' := simulation_state (R basic nk nv) (fun _ _ _ _ _ hR hs => sim hR hs) (R_init basic nk nv) (run_append h h') hσ'
  have key : ∀ a b, σ.var a = σ'.var b → s.var a = s'.var b := by
    intro a b e
    rw [hR.var a, hR'.var b, ← e]
    cases ha : σ.var a with
    | none => rfl
    | some t => exact (val_stable h' t (hR.pos a t ha).1 (hR.pos a t ha).2).symm
  obtain ⟨x, h1⟩ := h1
  obtain ⟨y, h2⟩ := h2
  simp only [step, Option.some.injEq, Prod.mk.injEq, List.cons.injEq, Event.compared.injEq, true_and, and_true] at h1 h2
  rw [← h1.2, ← h2.2, key i k hi, key j l hj]

/-- C82: `<` is a strict total order that agrees with `==`, and the other operators follow from the two. -/
theorem order_total (x y z : Nat) :
    (cmp x y .eq = true ↔ x = y) ∧ (cmp x y .ne = !cmp x y .eq) ∧ cmp x x .lt = false ∧ (cmp x y .lt = true → cmp y z .lt = true → cmp x z .lt = true) ∧
      (cmp x y .lt = true ∨ cmp x y .eq = true ∨ cmp y x .lt = true) ∧ (cmp x y .lt = true → cmp x y .eq = false ∧ cmp y x .lt = false) ∧
      cmp x y .gt = cmp y x .lt ∧ cmp x y .le = (cmp x y .lt || cmp x y .eq) ∧ cmp x y .ge = (cmp x y .gt || cmp x y .eq) := by
  refine ⟨by simp [cmp], by simp [cmp], by simp [cmp], ?_, ?_, ?_, rfl, ?_, ?_⟩
  · simp only [cmp, decide_eq_true_eq]; omega
  · simp only [cmp, decide_eq_true_eq]; omega
  · simp only [cmp, decide_eq_true_eq, decide_eq_false_iff_not]; omega
  · rw [Bool.eq_iff_iff]; simp only [cmp, Bool.or_eq_true, Bool.not_eq_true', decide_eq_true_eq, decide_eq_false_iff_not]; omega
  · rw [Bool.eq_iff_iff]; simp only [cmp, Bool.or_eq_true, Bool.not_eq_true', decide_eq_true_eq, decide_eq_false_iff_not]; omega

/-- The hypotheses of `self_join_refused`, `join_other` and `order_stable` are met. -/
example : ∃ s es σ, run (step true 2 2) init [.start 0 7, .start 1 3, .get 0 0, .get 1 1, .fin 1] = some (s, es) ∧ specState (next false) start es = some σ ∧ σ.obj 0 = some 0 ∧ σ.run 0 = true ∧
    σ.obj 1 = some 1 ∧ σ.run 1 = false ∧ s.val 0 ≠ 0 ∧ ∃ x, step true 2 2 s (.compare 0 1 .lt) = some (x, [.compared 0 1 .lt false]) :=
  ⟨_, _, _, rfl, rfl, rfl, rfl, rfl, rfl, by decide, _, rfl⟩

end Verif.ThreadId
