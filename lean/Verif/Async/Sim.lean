import Verif.Async.Step
/-!
# Calls of the user
-/

set_option linter.unusedSimpArgs false

namespace Verif.Async

theorem async_ok {s : State} {σ : Nat → Call} {t : Nat} {th : Thread} {kd : Kind} (h : Inv s σ) (ht : s.th[t]? = some th) (hpc : th.pc = .idle) :
    Inv (State.setTh { s with n := s.n + 1, node := upd s.node s.n { kind := kd, refs := 1 } } t { th with pc := .start s.n }) (set σ s.n { σ s.n with phase := .called }) := by
  have hu := (h.ok s.n).unused (Nat.lt_irrefl _)
  constructor
  · intro u x hx
    simp only [State.setTh] at hx
    rw [getElem?_set_eq ht] at hx
    split at hx
    · cases hx; simpa [Wf, hpc] using h.wf t th ht
    · exact h.wf u x hx
  · intro j
    simp only [State.setTh, upd, set]
    have hT := fun k => tot_set (wt k j) { th with pc := .start s.n } ht
    by_cases hj : j = s.n
    · subst hj
      simp only [if_true]
      have hz := hu.2.2
      revert hT
      simp only [hu.1]
      generalize s.th.set t { th with pc := .start s.n } = l
      intro hT
      simp only [hz] at hT
      counts hT [hpc]
      constructor <;> grind [b2n]
    · simp only [if_neg hj]
      have : (fun k => tot (wt k j) (s.th.set t { th with pc := .start s.n })) = fun k => tot (wt k j) s.th := by
        funext k
        have := hT k
        cases k <;> simp [wt, PC.wt, hpc, hj] at this ⊢ <;> omega
      rw [this]
      have hlt : (j < s.n + 1) = (j < s.n) := propext (by omega)
      rw [hlt]
      exact h.ok j

theorem give_ok {s : State} {σ : Nat → Call} {t u i : Nat} {th tu : Thread} (h : Inv s σ) (ht : s.th[t]? = some th) (htu : s.th[u]? = some tu) (hne : u ≠ t)
    (ho : 0 < th.own i) : Inv ((s.setTh t { th with own := upd th.own i (th.own i - 1) }).setTh u { tu with own := upd tu.own i (tu.own i + 1) }) σ := by
  have htu' : (s.th.set t { th with own := upd th.own i (th.own i - 1) })[u]? = some tu := by rw [getElem?_set_eq ht]; simp [hne.symm, htu]
  constructor
  · intro v x hx
    simp only [State.setTh] at hx
    rw [getElem?_set_eq htu'] at hx
    split at hx
    · cases hx; exact h.wf u tu htu
    · rw [getElem?_set_eq ht] at hx
      split at hx
      · cases hx; exact h.wf t th ht
      · exact h.wf v x hx
  · intro j
    simp only [State.setTh]
    have : (fun k => tot (wt k j) ((s.th.set t { th with own := upd th.own i (th.own i - 1) }).set u { tu with own := upd tu.own i (tu.own i + 1) })) =
        fun k => tot (wt k j) s.th := by
      funext k
      have a := tot_set (wt k j) { th with own := upd th.own i (th.own i - 1) } ht
      have b := tot_set (wt k j) { tu with own := upd tu.own i (tu.own i + 1) } htu'
      cases k <;> simp only [wt, upd] at a b ⊢ <;> grind
    rw [this]
    exact h.ok j

theorem own_alive {s : State} {σ : Nat → Call} {t i : Nat} {th : Thread} (h : Inv s σ) (ht : s.th[t]? = some th) (ho : 0 < th.own i) :
    access s i = [] ∧ 0 < (σ i).futs ∧ (σ i).destroyed = false := by
  have a := h.alive (i := i) ht (.inl (by simp only [wt]; omega))
  refine ⟨access_nil a.1, ?_, (h.ok i).dead.trans a.1⟩
  have g := le_tot (wt .fut i) ht
  have := (h.ok i).futs
  simp only [wt] at g
  omega

set_option maxHeartbeats 2000000 in
theorem stepOp_ok {m : Mode} {s s' : State} {σ : Nat → Call} {t : Nat} {th : Thread} {o : Op} {es : List Event} (h : Inv s σ) (ht : s.th[t]? = some th)
    (hf : th.free = true) (hs : stepOp m s t th o = some (s', es)) : Follows next (Inv s') σ es := by
  have hpc := free_idle hf
  cases o with
  | async k =>
    simp only [stepOp, Option.some.injEq, Prod.mk.injEq] at hs
    obtain ⟨rfl, rfl⟩ := hs
    have hph : (σ s.n).phase = .none := by rw [((h.ok s.n).unused (Nat.lt_irrefl _)).1]
    simp only [Follows, next, hph, if_true]
    exact async_ok h ht hpc
  | copy i =>
    simp only [stepOp] at hs
    split at hs
    · rename_i ho
      simp only [Option.some.injEq, Prod.mk.injEq] at hs
      obtain ⟨rfl, rfl⟩ := hs
      obtain ⟨a, b, c⟩ := own_alive h ht ho
      have a' := h.alive (i := i) ht (.inl (by simp only [wt]; omega))
      simp only [a, List.nil_append, Follows, next, b, c, and_self, if_true]
      same h ht [hpc]
    · cases hs
  | give i u =>
    simp only [stepOp] at hs
    split at hs
    · cases hs
    · rename_i tu htu
      split at hs
      · rename_i ho
        simp only [Option.some.injEq, Prod.mk.injEq] at hs
        obtain ⟨rfl, rfl⟩ := hs
        exact give_ok h ht htu ho.2.1 ho.1
      · cases hs
  | drop i =>
    simp only [stepOp] at hs
    split at hs
    · rename_i ho
      simp only [Option.some.injEq, Prod.mk.injEq] at hs
      obtain ⟨rfl, rfl⟩ := hs
      obtain ⟨a, b, c⟩ := own_alive h ht ho
      simp only [Follows, next, b, if_true]
      same h ht [hpc]
    · cases hs
  | wait i =>
    simp only [stepOp] at hs
    split at hs
    · rename_i ho
      obtain ⟨a, b, c⟩ := own_alive h ht ho
      simp only [a, List.nil_append] at hs
      split at hs
      · split at hs
        · simp only [Option.some.injEq, Prod.mk.injEq] at hs
          obtain ⟨rfl, rfl⟩ := hs
          apply race_ok
          simp only [Follows, next, b, c, and_self, if_true]
          rw [← set_self σ i]
          same h ht [hpc]
        · split at hs
          · simp only [Option.some.injEq, Prod.mk.injEq] at hs
            obtain ⟨rfl, rfl⟩ := hs
            apply race_ok
            simp only [Follows, next, b, c, and_self, if_true]
            rw [← set_self σ i]
            same h ht [hpc]
          · simp only [Option.some.injEq, Prod.mk.injEq] at hs
            obtain ⟨rfl, rfl⟩ := hs
            apply race_ok
            simp only [Follows, next, b, c, and_self, if_true]
            rw [← set_self σ i]
            same h ht [hpc]
      · simp only [Option.some.injEq, Prod.mk.injEq] at hs
        obtain ⟨rfl, rfl⟩ := hs
        simp only [Follows, next, b, c, and_self, if_true]
        rw [← set_self σ i]
        same h ht [hpc]
    · cases hs
  | get i =>
    simp only [stepOp] at hs
    split at hs
    · rename_i ho
      simp only [Option.some.injEq, Prod.mk.injEq] at hs
      obtain ⟨rfl, rfl⟩ := hs
      obtain ⟨a, b, c⟩ := own_alive h ht ho
      simp only [a, List.nil_append, Follows, next, b, c, and_self, if_true]
      rw [← set_self σ i]
      same h ht [hpc]
    · cases hs
  | poll i =>
    simp only [stepOp] at hs
    split at hs
    · rename_i ho
      simp only [Option.some.injEq, Prod.mk.injEq] at hs
      obtain ⟨rfl, rfl⟩ := hs
      obtain ⟨a, b, c⟩ := own_alive h ht ho
      have : (s.node i).out.isSome = true → (σ i).phase.isEnded = true := by
        intro hx
        obtain ⟨o, ho⟩ := Option.isSome_iff_exists.mp hx
        rw [(h.ok i).out o ho]; rfl
      simp only [a, List.nil_append, Follows, next, c, true_and, if_pos this]
      exact h
    · cases hs

theorem step_ok {m : Mode} {s s' : State} {σ : Nat → Call} {l : Label} {es : List Event} (h : Inv s σ) (hs : step m s l = some (s', es)) :
    Follows next (Inv s') σ es := by
  cases l with
  | op t o =>
    simp only [step] at hs
    split at hs
    · cases hs
    · rename_i th ht
      split at hs
      · rename_i hf; exact stepOp_ok h ht hf hs
      · cases hs
  | go t =>
    simp only [step] at hs
    split at hs
    · cases hs
    · rename_i th ht; exact stepGo_ok h ht hs
  | fail t =>
    simp only [step] at hs
    split at hs
    · cases hs
    · rename_i th ht; exact stepFail_ok h ht hs
  | discard t =>
    simp only [step] at hs
    split at hs
    · cases hs
    · rename_i th ht; exact stepDiscard_ok h ht hs
  | finish t o =>
    simp only [step] at hs
    split at hs
    · cases hs
    · rename_i th ht; exact stepFinish_ok h ht hs

/-- Every state that can be reached fits the history. -/
theorem reach_inv {m : Mode} {k : Nat} {ls : List Label} {s : State} {es : List Event} (h : run (step m) (init k) ls = some (s, es)) :
    ∃ σ, specState next start es = some σ ∧ Inv s σ := by
  have hgen : ∀ (ls : List Label) (s₀ : State) (σ₀ : Nat → Call) (s : State) (es : List Event), Inv s₀ σ₀ → run (step m) s₀ ls = some (s, es) →
      ∃ σ, specState next σ₀ es = some σ ∧ Inv s σ := by
    intro ls
    induction ls with
    | nil => intro s₀ σ₀ s es h0 h; simp only [run_nil, Option.some.injEq, Prod.mk.injEq] at h; obtain ⟨rfl, rfl⟩ := h; exact ⟨σ₀, rfl, h0⟩
    | cons l ls ih =>
      intro s₀ σ₀ s es h0 h
      obtain ⟨x, es₁, es₂, h1, h2, rfl⟩ := run_cons h
      have hf := step_ok h0 h1
      have hne : ∀ (σ : Nat → Call) (e : Event), next σ e ≠ .undefined := by
        intro σ e; cases e <;> simp only [next] <;> (try split) <;> simp
      have : ∀ (es₁ : List Event) (σ₀ : Nat → Call), Follows next (Inv x) σ₀ es₁ → ∃ σ, specState next σ₀ (es₁ ++ es₂) = some σ ∧ Inv s σ := by
        intro es₁
        induction es₁ with
        | nil => intro σ₀ hf; exact ih x σ₀ s es₂ hf h2
        | cons e es₁ ihe =>
          intro σ₀ hf
          simp only [Follows] at hf
          simp only [List.cons_append, specState]
          cases hn : next σ₀ e with
          | ok σ' => simp only [hn] at hf ⊢; exact ihe σ' hf
          | undefined => exact absurd hn (hne _ _)
          | illegal => simp [hn] at hf
      exact this es₁ σ₀ hf
  exact hgen ls _ _ _ _ (Inv.init k) h

end Verif.Async
