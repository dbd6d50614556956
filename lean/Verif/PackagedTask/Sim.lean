import Verif.PackagedTask.Spec
/-! # Every history is allowed -/

set_option linter.unusedSimpArgs false

namespace Verif.PackagedTask

def Run.out : Run → Option Out
  | .over o => some o
  | .ready o => some o
  | _ => none

/-- How a shared state looks from outside. -/
structure Sees (x : SS) (r : Run) : Prop where
  started : x.started = (r != .fresh)
  done : x.done = r.isReady
  out : x.outcome = r.out

structure R (s : State) (σ : Spec) : Prop where
  n : σ.n = s.n
  nt : σ.nt = s.nt
  task : σ.task = s.task
  nf : σ.nf = s.nf
  fut : σ.fut = s.fut
  runs : σ.runs = s.stk
  exit : σ.exit = s.exit
  gone : σ.gone = s.gone
  owned : ∀ k x i, s.task k = some x → x.st = some i → i < s.n
  futn : ∀ f, f < s.nf → s.fut f < s.n
  ss : ∀ i, (σ.fn i).spoiled = false → Sees (s.ss i) (σ.fn i).run
  frame : ∀ t f, f ∈ s.stk t → f.1 < s.n ∧ ((σ.fn f.1).spoiled = false → (σ.fn f.1).run = .running)
  each : ∀ t i, (σ.fn i).spoiled = false → (s.stk t).countP (fun f => f.1 = i) ≤ 1
  apart : ∀ t u i, (σ.fn i).spoiled = false → (∃ f ∈ s.stk t, f.1 = i) → (∃ f ∈ s.stk u, f.1 = i) → t = u
  pub : ∀ t i, i ∈ s.exit t → i < s.n ∧ ((σ.fn i).spoiled = false → ∃ o, (σ.fn i).run = .over o)
  eachPub : ∀ t i, (σ.fn i).spoiled = false → (s.exit t).count i ≤ 1
  apartPub : ∀ t u i, (σ.fn i).spoiled = false → i ∈ s.exit t → i ∈ s.exit u → t = u

theorem rel_init : R init Spec.init := by
  constructor <;> simp [init, Spec.init, Sees, SS.outcome, Run.out]
  constructor <;> simp [Run.isReady, SS.outcome, Run.out]

variable {lib : Nat → Bool} {s s' : State} {σ : Spec} {es : List Event}

/-- The function `i` changes without being begun, ended or published. -/
theorem R.change (h : R s σ) {i : Nat} {x : SS} {f : Fn} {task : Nat → Option Task} (hs : f.spoiled = false → (σ.fn i).spoiled = false ∧ Sees x f.run)
    (hrun : f.spoiled = false → (σ.fn i).run = .running → f.run = .running) (hover : f.spoiled = false → ∀ o, (σ.fn i).run = .over o → f.run = .over o)
    (ht : ∀ k x i, task k = some x → x.st = some i → i < s.n) : R { s with ss := upd s.ss i x, task := task } { σ with fn := upd σ.fn i f, task := task } := by
  refine { h with task := rfl, owned := ht, ss := ?_, frame := ?_, each := ?_, apart := ?_, pub := ?_, eachPub := ?_, apartPub := ?_ } <;> simp only [upd_apply]
  · have := h.ss; grind
  · have := h.frame; grind
  · intro t j; have := h.each t j; grind
  · intro t u j; have := h.apart t u j; grind
  · intro t j hj; have := h.pub t j hj; grind
  · intro t j; have := h.eachPub t j; grind
  · intro t u j; have := h.apartPub t u j; grind

theorem R.tasks (h : R s σ) {task : Nat → Option Task} {nt : Nat} (ht : ∀ k x i, task k = some x → x.st = some i → i < s.n) :
    R { s with task := task, nt := nt } { σ with task := task, nt := nt } :=
  { h with task := rfl, nt := rfl, owned := ht }

theorem sees_abandon {x : SS} {f : Fn} (h : f.spoiled = false → Sees x f.run) :
    f.abandon.spoiled = false → f.spoiled = false ∧ Sees x.abandon f.abandon.run := by
  intro hs
  unfold Fn.abandon at hs ⊢
  unfold SS.abandon
  split at hs
  · rename_i hc
    obtain ⟨h1, h2, h3⟩ := h hc.2
    rw [hc.1] at h1
    simp only [bne_self_eq_false] at h1
    refine ⟨hc.2, ?_⟩
    rw [if_pos hc, if_neg (by simp [h1])]
    exact ⟨rfl, rfl, rfl⟩
  · rename_i hc
    refine ⟨hs, ?_⟩
    obtain ⟨h1, h2, h3⟩ := h hs
    rw [if_neg hc]
    have : (f.run != .fresh) = true := by simp only [bne_iff_ne, ne_eq]; exact fun e => hc ⟨e, hs⟩
    rw [this] at h1
    rw [if_pos h1]
    exact h hs

theorem R.abandon (h : R s σ) {o : Option Nat} {task : Nat → Option Task} (ht : ∀ k x i, task k = some x → x.st = some i → i < s.n) :
    R { s with ss := abandon s.ss o, task := task } { σ with fn := giveUp σ.fn o, task := task } := by
  cases o with
  | none => exact { h with task := rfl, owned := ht }
  | some i =>
    refine h.change (sees_abandon (h.ss i)) ?_ ?_ ht
    · intro _ e; simp [Fn.abandon, e]
    · intro _ o e; simp [Fn.abandon, e]

theorem sim_op (h : R s σ) {t : Nat} {op : Op} (hs : doOp s t op = some (s', es)) (hg : s.gone t = false) : Follows (next lib) (R s') σ es := by
  have hg' : σ.gone t = false := by rw [h.gone]; exact hg
  have ho := h.owned
  cases op with
  | new =>
    cases hs
    simp only [Follows, next, hg', Bool.false_eq_true, ↓reduceIte, nextRet, h.n, h.nt, h.task]
    refine { h with n := rfl, nt := rfl, task := rfl, owned := ?_, futn := ?_, ss := ?_, frame := ?_, each := ?_, apart := ?_, pub := ?_, eachPub := ?_, apartPub := ?_ } <;> simp only [upd_apply]
    · grind
    · have := h.futn; grind
    · have := h.ss
      intro i hi
      split at hi
      · rename_i e
        subst e
        simp only [↓reduceIte]
        exact ⟨rfl, rfl, rfl⟩
      · rename_i e
        simp only [e, ↓reduceIte]
        exact this i hi
    · have := h.frame; grind
    · intro u i hi
      have h1 := h.each u i
      by_cases e : i = s.n
      · subst e
        have : (s.stk u).countP (fun f => f.1 = s.n) = 0 := by
          simp only [List.countP_eq_zero, decide_eq_true_eq]
          intro f hf e
          have := (h.frame u f hf).1
          omega
        omega
      · simp only [e, ↓reduceIte] at hi
        exact h1 hi
    · intro t u i hi
      have := h.apart t u i
      have := h.frame
      grind
    · have := h.pub; grind
    · intro u i hi
      have h1 := h.eachPub u i
      by_cases e : i = s.n
      · subst e
        have : (s.exit u).count s.n = 0 := by
          rw [List.count_eq_zero]
          intro hm
          have := (h.pub u _ hm).1
          omega
        omega
      · simp only [e, ↓reduceIte] at hi
        exact h1 hi
    · intro t u i hi
      have := h.apartPub t u i
      have := h.pub
      grind
  | empty =>
    cases hs
    simp only [Follows, next, hg', Bool.false_eq_true, ↓reduceIte, nextRet, h.nt, h.task]
    refine h.tasks ?_
    intro k x i
    simp only [upd_apply]
    grind
  | move k =>
    simp only [doOp, Option.map_eq_some_iff] at hs
    obtain ⟨x, hx, hs⟩ := hs
    cases hs
    simp only [Follows, next, hg', Bool.false_eq_true, ↓reduceIte, nextRet, h.nt, h.task, hx]
    refine h.tasks ?_
    intro k x i
    simp only [upd_apply]
    grind
  | assign k j =>
    simp only [doOp, Option.bind_eq_some_iff, Option.map_eq_some_iff] at hs
    obtain ⟨x, hx, y, hy, hs⟩ := hs
    split at hs <;> cases hs
    · rename_i e
      subst e
      simp only [Follows, next, hg', Bool.false_eq_true, ↓reduceIte, nextRet, h.task, hx]
      exact h
    · rename_i e
      simp only [Follows, next, hg', Bool.false_eq_true, ↓reduceIte, nextRet, h.task, hx, hy, e]
      refine h.abandon ?_
      intro k x i
      simp only [upd_apply]
      grind
  | swap k j =>
    simp only [doOp, Option.bind_eq_some_iff, Option.map_eq_some_iff] at hs
    obtain ⟨x, hx, y, hy, hs⟩ := hs
    cases hs
    simp only [Follows, next, hg', Bool.false_eq_true, ↓reduceIte, nextRet, h.task, hx, hy]
    refine h.tasks (nt := s.nt) ?_ |> fun h' => { h' with nt := h.nt }
    intro k x i
    simp only [upd_apply]
    grind
  | destroy k =>
    simp only [doOp, Option.map_eq_some_iff] at hs
    obtain ⟨x, hx, hs⟩ := hs
    cases hs
    simp only [Follows, next, hg', Bool.false_eq_true, ↓reduceIte, nextRet, h.task, hx]
    refine h.abandon ?_
    intro k x i
    simp only [upd_apply]
    grind
  | reset k =>
    simp only [doOp, Option.map_eq_some_iff] at hs
    obtain ⟨x, hx, hs⟩ := hs
    split at hs <;> cases hs
    · rename_i hst
      simp only [Follows, next, hg', Bool.false_eq_true, ↓reduceIte, nextRet, h.task, hx, hst]
      exact h
    · rename_i i hst
      simp only [Follows, next, hg', Bool.false_eq_true, ↓reduceIte, nextRet, h.task, hx, hst]
      refine h.change ?_ (fun _ e => e) (fun _ _ e => e) ?_
      · intro hsp
        simp only [Bool.or_eq_false_iff] at hsp
        refine ⟨hsp.1.1, ?_⟩
        have hr : (σ.fn i).run = .fresh := by simpa using hsp.2
        have := h.ss i hsp.1.1
        obtain ⟨h1, h2, h3⟩ := this
        exact ⟨by simp [SS.reset, hr], h2, h3⟩
      · intro k x i
        simp only [upd_apply]
        grind
  | getFuture k =>
    simp only [doOp, Option.map_eq_some_iff] at hs
    obtain ⟨x, hx, hs⟩ := hs
    split at hs
    · rename_i hst
      cases hs
      simp only [Follows, next, hg', Bool.false_eq_true, ↓reduceIte, nextRet, h.task, hx, hst]
      exact h
    · rename_i i hst
      split at hs <;> cases hs <;> rename_i hgot
      · simp only [Follows, next, hg', Bool.false_eq_true, ↓reduceIte, nextRet, h.task, hx, hst, hgot]
        exact h
      · simp only [Follows, next, hg', Bool.false_eq_true, ↓reduceIte, nextRet, h.task, hx, hst, hgot, h.nf, h.fut]
        refine { h with task := rfl, nf := rfl, fut := rfl, owned := ?_, futn := ?_ } <;> simp only [upd_apply]
        · grind
        · have := h.futn; grind
  | valid k =>
    simp only [doOp, Option.map_eq_some_iff] at hs
    obtain ⟨x, hx, hs⟩ := hs
    cases hs
    simp only [Follows, next, hg', Bool.false_eq_true, ↓reduceIte, nextRet, h.task, hx]
    exact h
  | call k m =>
    simp only [doOp, Option.map_eq_some_iff] at hs
    obtain ⟨x, hx, hs⟩ := hs
    split at hs
    · rename_i hst
      cases hs
      simp only [Follows, next, hg', Bool.false_eq_true, ↓reduceIte, nextRet, h.task, hx, hst]
      exact h
    · rename_i i hst
      have hss := h.ss i
      split at hs
      · rename_i hv
        cases hs
        simp only [Follows, next, hg', Bool.false_eq_true, ↓reduceIte, nextRet, h.task, hx, hst]
        cases hsp : (σ.fn i).spoiled with
        | true => exact h
        | false =>
          simp only [Bool.false_eq_true, ↓reduceIte]
          obtain ⟨h1, h2, h3⟩ := hss hsp
          have hd : (s.ss i).done = true ∧ (s.ss i).exc = none := by simpa [SS.hasValue] using hv.2
          rw [hd.1] at h2
          cases hr : (σ.fn i).run with
          | ready o =>
            rw [hr] at h3
            simp only [SS.outcome, hd.2, Run.out, Option.map_eq_some_iff] at h3
            obtain ⟨v, _, rfl⟩ := h3
            simp only [hv.1, ↓reduceIte]
            exact h
          | _ => simp [hr, Run.isReady] at h2
      · rename_i hv
        split at hs <;> cases hs
        · rename_i hstart
          simp only [Follows, next, hg', Bool.false_eq_true, ↓reduceIte, nextRet, h.task, hx, hst]
          cases hsp : (σ.fn i).spoiled with
          | true => exact h
          | false =>
            simp only [Bool.false_eq_true, ↓reduceIte]
            obtain ⟨h1, h2, h3⟩ := hss hsp
            cases hr : (σ.fn i).run with
            | fresh => simp [hr, hstart] at h1
            | running => exact h
            | over o => exact h
            | ready o =>
              cases o with
              | exc e => exact h
              | value v =>
                rw [hr] at h2 h3
                have hm : m ≠ .atExit := by
                  intro hm
                  refine hv ⟨hm, ?_⟩
                  have he : (s.ss i).exc = none := by
                    cases he : (s.ss i).exc with
                    | none => rfl
                    | some e => simp [SS.outcome, he, Run.out] at h3
                  simp [SS.hasValue, h2, he, Run.isReady]
                simp only [hm, ↓reduceIte]
                exact h
        · rename_i hstart
          have hfr : (σ.fn i).run = .fresh ∨ (σ.fn i).spoiled = true := by
            cases hsp : (σ.fn i).spoiled with
            | true => exact .inr rfl
            | false =>
              left
              have := (hss hsp).started
              simp only [Bool.not_eq_true] at hstart
              rw [hstart] at this
              simpa using this.symm
          have hno : (σ.fn i).spoiled = false → ∀ u, ∀ f ∈ s.stk u, f.1 ≠ i := by
            intro hsp u f hf e
            have := (h.frame u f hf).2 (by rw [e]; exact hsp)
            rw [e] at this
            rcases hfr with hfr | hfr
            · rw [hfr] at this; cases this
            · rw [hfr] at hsp; cases hsp
          have hnp : (σ.fn i).spoiled = false → ∀ u, i ∉ s.exit u := by
            intro hsp u hm
            obtain ⟨o, this⟩ := (h.pub u i hm).2 hsp
            rcases hfr with hfr | hfr
            · rw [hfr] at this; cases this
            · rw [hfr] at hsp; cases hsp
          simp only [Follows, next, hg', Bool.false_eq_true, ↓reduceIte, h.task, hx, hst, hfr, and_self]
          refine { h with task := rfl, runs := by simp only [h.runs], ss := ?_, frame := ?_, each := ?_, apart := ?_, pub := ?_, eachPub := ?_, apartPub := ?_ } <;> simp only [upd_apply]
          · intro j hj
            split at hj
            · rename_i e
              subst e
              simp only [↓reduceIte]
              obtain ⟨h1, h2, h3⟩ := hss hj
              have hf := hfr.resolve_right (by simp only at hj; simp [hj])
              rw [hf] at h1 h2 h3
              exact ⟨rfl, h2, h3⟩
            · rename_i e
              simp only [e, ↓reduceIte]
              exact h.ss j hj
          · have := h.frame
            have := h.owned k x i hx hst
            intro u f hf
            split at hf
            · rcases List.mem_cons.mp hf with rfl | hf
              · grind
              · have := h.frame t f hf; grind
            · have := h.frame u f hf; grind
          · intro u j hj
            have h1 := h.each u j
            by_cases e : j = i
            · subst e
              simp only [↓reduceIte] at hj
              have h0 : ∀ v, (s.stk v).countP (fun f => f.1 = j) = 0 := by
                intro v
                simp only [List.countP_eq_zero, decide_eq_true_eq]
                exact fun f hf => hno hj v f hf
              split
              · rw [List.countP_cons, h0]; split <;> omega
              · rw [h0]; omega
            · simp only [e, ↓reduceIte] at hj
              split
              · rename_i hu
                subst hu
                rw [List.countP_cons]
                have : ¬ (i = j) := fun h => e h.symm
                simp only [this, decide_false, Bool.false_eq_true, ↓reduceIte]
                exact h1 hj
              · exact h1 hj
          · intro u v j hj hu hv
            by_cases e : j = i
            · subst e
              simp only [↓reduceIte] at hj
              have := hno hj
              grind
            · simp only [e, ↓reduceIte] at hj
              refine h.apart u v j hj ?_ ?_
              · obtain ⟨f, hf, hfe⟩ := hu
                refine ⟨f, ?_, hfe⟩
                split at hf
                · rename_i hut
                  subst hut
                  rcases List.mem_cons.mp hf with rfl | hf
                  · exact absurd hfe.symm e
                  · exact hf
                · exact hf
              · obtain ⟨f, hf, hfe⟩ := hv
                refine ⟨f, ?_, hfe⟩
                split at hf
                · rename_i hut
                  subst hut
                  rcases List.mem_cons.mp hf with rfl | hf
                  · exact absurd hfe.symm e
                  · exact hf
                · exact hf
          · intro u j hj
            have h1 := h.pub u j hj
            refine ⟨h1.1, ?_⟩
            split
            · rename_i e
              subst e
              intro hsp
              exact absurd hj (hnp hsp u)
            · exact h1.2
          · intro u j hj
            have h1 := h.eachPub u j
            grind
          · intro u v j hj
            have h1 := h.apartPub u v j
            grind
  | isReady f =>
    simp only [doOp] at hs
    split at hs <;> cases hs
    rename_i hf
    simp only [Follows, next, hg', Bool.false_eq_true, ↓reduceIte, nextRet, h.nf, h.fut, hf]
    have := h.ss (s.fut f)
    rw [if_pos]
    · exact h
    · cases hsp : (σ.fn (s.fut f)).spoiled with
      | true => rfl
      | false => simp [(this hsp).done]
  | get f =>
    simp only [doOp] at hs
    split at hs
    · rename_i hf
      simp only [Option.map_eq_some_iff] at hs
      obtain ⟨o, ho, hs⟩ := hs
      cases hs
      simp only [Follows, next, hg', Bool.false_eq_true, ↓reduceIte, nextRet, h.nf, h.fut, hf.1]
      cases hsp : (σ.fn (s.fut f)).spoiled with
      | true => exact h
      | false =>
        obtain ⟨h1, h2, h3⟩ := h.ss _ hsp
        simp only [Bool.false_eq_true, ↓reduceIte]
        rw [hf.2] at h2
        rw [ho] at h3
        cases hr : (σ.fn (s.fut f)).run with
        | ready o' =>
          rw [hr] at h3
          simp only [Run.out, Option.some.injEq] at h3
          simp only [h3, ↓reduceIte]
          exact h
        | _ => simp [hr, Run.isReady] at h2
    · cases hs

theorem sees_put {x : SS} {o : Out} (h : Sees x .running) : (x.put o).started = true ∧ (x.put o).done = false ∧ (x.put o).outcome = some o := by
  obtain ⟨h1, h2, h3⟩ := h
  have he : x.exc = none := by
    cases he : x.exc with
    | none => rfl
    | some e => simp [SS.outcome, he, Run.out] at h3
  cases o with
  | value v => exact ⟨h1, h2, by simp [SS.put, SS.outcome, he]⟩
  | exc e => exact ⟨h1, h2, by simp [SS.put, SS.outcome]⟩

theorem sim_finish (h : R s σ) {t : Nat} {o : Out} (ho : o ≠ .exc .broken) (hs : finish lib s t o = some (s', es)) : Follows (next lib) (R s') σ es := by
  have key : ∀ i m fs, s.stk t = (i, m) :: fs → (σ.fn i).spoiled = false →
      (σ.fn i).run = .running ∧ Sees (s.ss i) .running ∧ (∀ u, ∀ f ∈ upd s.stk t fs u, f.1 ≠ i) ∧ ∀ u, i ∉ s.exit u := by
    intro i m fs hst hsp
    have hrun := (h.frame t (i, m) (by simp [hst])).2 hsp
    have hss := h.ss i hsp
    rw [hrun] at hss
    refine ⟨hrun, hss, ?_, ?_⟩
    · intro u f hf e
      simp only [upd_apply] at hf
      split at hf
      · have := h.each t i hsp
        rw [hst, List.countP_cons] at this
        simp only [decide_true, ↓reduceIte] at this
        have h0 : fs.countP (fun f => f.1 = i) = 0 := by omega
        simp only [List.countP_eq_zero, decide_eq_true_eq] at h0
        exact h0 f hf e
      · rename_i hu
        exact hu (h.apart u t i hsp ⟨f, hf, e⟩ ⟨(i, m), by simp [hst], rfl⟩)
    · intro u hm
      obtain ⟨o, this⟩ := (h.pub u i hm).2 hsp
      rw [hrun] at this
      cases this
  have hframe : ∀ i m fs, s.stk t = (i, m) :: fs → ∀ u f, f ∈ upd s.stk t fs u → f ∈ s.stk u := by
    intro i m fs hst u f hf
    simp only [upd_apply] at hf
    split at hf
    · rename_i e; subst e; rw [hst]; exact List.mem_cons_of_mem _ hf
    · exact hf
  have hcount : ∀ i m fs, s.stk t = (i, m) :: fs → ∀ u j, (upd s.stk t fs u).countP (fun f => f.1 = j) ≤ (s.stk u).countP (fun f => f.1 = j) := by
    intro i m fs hst u j
    simp only [upd_apply]
    split
    · rename_i e; subst e; rw [hst, List.countP_cons]; omega
    · exact Nat.le_refl _
  unfold finish at hs
  split at hs
  · rename_i i fs hst
    cases hs
    simp only [Follows, next, h.runs, hst]
    have hfr := hframe i _ fs hst
    have hco := hcount i _ fs hst
    cases hsp : (σ.fn i).spoiled with
    | true =>
      simp only [↓reduceIte, reduceCtorEq, false_and]
      refine { h with runs := rfl, ss := ?_, frame := ?_, each := ?_, apart := ?_ }
      · intro j hj
        simp only [upd_apply]
        split
        · rename_i e; subst e; simp [hsp] at hj
        · exact h.ss j hj
      · exact fun u f hf => h.frame u f (hfr u f hf)
      · exact fun u j hj => Nat.le_trans (hco u j) (h.each u j hj)
      · exact fun u v j hj ⟨f, hf, e⟩ ⟨g, hg, e'⟩ => h.apart u v j hj ⟨f, hfr u f hf, e⟩ ⟨g, hfr v g hg, e'⟩
    | false =>
      obtain ⟨k1, k2, k3, k4⟩ := key i _ fs hst hsp
      have := sees_put (o := o) k2
      simp only [Bool.false_eq_true, ↓reduceIte, k1, ho, ne_eq, not_false_eq_true, and_self]
      refine { h with runs := rfl, ss := ?_, frame := ?_, each := ?_, apart := ?_, pub := ?_, eachPub := ?_, apartPub := ?_ }
      · intro j hj
        simp only [upd_apply] at hj ⊢
        split
        · exact ⟨this.1, rfl, this.2.2⟩
        · rename_i e
          simp only [e, ↓reduceIte] at hj
          exact h.ss j hj
      · intro u f hf
        have h1 := h.frame u f (hfr u f hf)
        have h2 := k3 u f hf
        simp only [upd_apply, h2, ↓reduceIte]
        exact h1
      · intro u j hj
        refine Nat.le_trans (hco u j) (h.each u j ?_)
        simp only [upd_apply] at hj
        split at hj
        · rename_i e; subst e; exact hsp
        · exact hj
      · intro u v j hj ⟨f, hf, e⟩ ⟨g, hg, e'⟩
        refine h.apart u v j ?_ ⟨f, hfr u f hf, e⟩ ⟨g, hfr v g hg, e'⟩
        simp only [upd_apply] at hj
        split at hj
        · rename_i e; subst e; exact hsp
        · exact hj
      · intro u j hj
        have h1 := h.pub u j hj
        refine ⟨h1.1, ?_⟩
        simp only [upd_apply]
        split
        · rename_i e; subst e; exact absurd hj (k4 u)
        · exact h1.2
      · intro u j hj
        have h1 := h.eachPub u j
        simp only [upd_apply] at hj
        grind
      · intro u v j hj
        have h1 := h.apartPub u v j
        simp only [upd_apply] at hj
        grind
  · rename_i i fs hst
    have hfr := hframe i _ fs hst
    have hco := hcount i _ fs hst
    cases hsp : (σ.fn i).spoiled with
    | true =>
      split at hs <;> cases hs
      · simp only [Follows, next, h.runs, hst, hsp, ↓reduceIte, reduceCtorEq, false_and, and_false]
        refine { h with runs := rfl, ss := ?_, frame := ?_, each := ?_, apart := ?_ }
        · exact h.ss
        · exact fun u f hf => h.frame u f (hfr u f hf)
        · exact fun u j hj => Nat.le_trans (hco u j) (h.each u j hj)
        · exact fun u v j hj ⟨f, hf, e⟩ ⟨g, hg, e'⟩ => h.apart u v j hj ⟨f, hfr u f hf, e⟩ ⟨g, hfr v g hg, e'⟩
      · simp only [Follows, next, h.runs, hst, hsp, ↓reduceIte, true_and]
        have hlt := (h.frame t (i, .atExit) (by simp [hst])).1
        have hss : ∀ j, (σ.fn j).spoiled = false → Sees (upd s.ss i ((s.ss i).put o) j) (σ.fn j).run := by
          intro j hj
          simp only [upd_apply]
          split
          · rename_i e; subst e; simp [hsp] at hj
          · exact h.ss j hj
        cases hl : lib t with
        | false =>
          simp only [Bool.false_eq_true, ↓reduceIte]
          exact { h with runs := rfl, ss := hss, frame := fun u f hf => h.frame u f (hfr u f hf), each := fun u j hj => Nat.le_trans (hco u j) (h.each u j hj), apart := fun u v j hj ⟨f, hf, e⟩ ⟨g, hg, e'⟩ => h.apart u v j hj ⟨f, hfr u f hf, e⟩ ⟨g, hfr v g hg, e'⟩ }
        | true =>
          simp only [↓reduceIte, h.exit]
          refine { h with runs := rfl, exit := rfl, ss := hss, frame := fun u f hf => h.frame u f (hfr u f hf), each := fun u j hj => Nat.le_trans (hco u j) (h.each u j hj), apart := fun u v j hj ⟨f, hf, e⟩ ⟨g, hg, e'⟩ => h.apart u v j hj ⟨f, hfr u f hf, e⟩ ⟨g, hfr v g hg, e'⟩, pub := ?_, eachPub := ?_, apartPub := ?_ } <;> simp only [upd_apply]
          · intro u j hj
            have h1 := h.pub u j
            split at hj
            · rename_i e
              subst e
              rcases List.mem_append.mp hj with hj | hj
              · exact h1 hj
              · simp only [List.mem_singleton] at hj
                subst hj
                exact ⟨hlt, fun e => by simp [hsp] at e⟩
            · exact h1 hj
          · intro u j hj
            have h1 := h.eachPub u j hj
            split
            · rename_i e
              subst e
              rw [List.count_append]
              have : List.count j [i] = 0 := by
                rw [List.count_eq_zero]
                simp only [List.mem_singleton]
                rintro rfl
                simp [hsp] at hj
              omega
            · exact h1
          · intro u v j hj
            have hne : j ≠ i := by rintro rfl; simp [hsp] at hj
            have := h.apartPub u v j hj
            grind
    | false =>
      obtain ⟨k1, k2, k3, k4⟩ := key i _ fs hst hsp
      have hput := sees_put (o := o) k2
      have hv : (s.ss i).hasValue = false := by simp [SS.hasValue, k2.done, Run.isReady]
      have hlt := (h.frame t (i, .atExit) (by simp [hst])).1
      simp only [hv, Bool.false_eq_true, ↓reduceIte] at hs
      cases hs
      simp only [Follows, next, h.runs, hst, hsp, Bool.false_eq_true, ↓reduceIte, k1, ho, ne_eq, not_false_eq_true, and_self]
      refine { h with runs := rfl, exit := ?_, ss := ?_, frame := ?_, each := ?_, apart := ?_, pub := ?_, eachPub := ?_, apartPub := ?_ }
      · simp only [h.exit]
      · intro j hj
        simp only [upd_apply] at hj ⊢
        split
        · exact ⟨hput.1, hput.2.1, hput.2.2⟩
        · rename_i e
          simp only [e, ↓reduceIte] at hj
          exact h.ss j hj
      · intro u f hf
        have h1 := h.frame u f (hfr u f hf)
        have h2 := k3 u f hf
        simp only [upd_apply, h2, ↓reduceIte]
        exact h1
      · intro u j hj
        refine Nat.le_trans (hco u j) (h.each u j ?_)
        simp only [upd_apply] at hj
        split at hj
        · rename_i e; subst e; exact hsp
        · exact hj
      · intro u v j hj ⟨f, hf, e⟩ ⟨g, hg, e'⟩
        refine h.apart u v j ?_ ⟨f, hfr u f hf, e⟩ ⟨g, hfr v g hg, e'⟩
        simp only [upd_apply] at hj
        split at hj
        · rename_i e; subst e; exact hsp
        · exact hj
      · intro u j hj
        have h1 := h.pub u j
        simp only [upd_apply]
        have hj' : j ∈ s.exit u ∨ j = i := by
          simp only at hj
          split at hj
          · simp only [upd_apply] at hj
            split at hj
            · rename_i e
              subst e
              rcases List.mem_append.mp hj with hj | hj
              · exact .inl hj
              · exact .inr (by simpa using hj)
            · exact .inl hj
          · exact .inl hj
        split
        · rename_i e; subst e; exact ⟨hlt, fun _ => ⟨o, rfl⟩⟩
        · rename_i e; exact h1 (hj'.resolve_right e)
      · intro u j hj
        have hj0 : (σ.fn j).spoiled = false := by
          simp only [upd_apply] at hj
          split at hj
          · rename_i e; subst e; exact hsp
          · exact hj
        have h1 := h.eachPub u j hj0
        have h2 := k4 t
        simp only
        split
        · simp only [upd_apply]
          split
          · rename_i e
            subst e
            rw [List.count_append]
            by_cases e : j = i
            · subst e
              have : List.count j (s.exit u) = 0 := List.count_eq_zero.mpr h2
              rw [this]
              simp
            · have : List.count j [i] = 0 := by
                rw [List.count_eq_zero]
                simpa using e
              omega
          · exact h1
        · exact h1
      · intro u v j hj
        have hj0 : (σ.fn j).spoiled = false := by
          simp only [upd_apply] at hj
          split at hj
          · rename_i e; subst e; exact hsp
          · exact hj
        have h1 := h.apartPub u v j hj0
        simp only
        split
        · simp only [upd_apply]
          have := k4 u
          have := k4 v
          grind
        · exact h1
  · cases hs

theorem sim {l : Label} (h : R s σ) (hs : step lib s l = some (s', es)) : Follows (next lib) (R s') σ es := by
  cases l with
  | op t o =>
    simp only [step] at hs
    split at hs
    · cases hs
    · exact sim_op h hs (by simpa using ‹¬ s.gone t = true›)
  | finish t o =>
    simp only [step] at hs
    split at hs
    · cases hs
    · exact sim_finish h (by assumption) hs
  | exit t =>
    simp only [step] at hs
    split at hs <;> cases hs
    rename_i hg
    simp only [Follows, next, h.gone, h.runs, hg, and_self, ↓reduceIte]
    exact { h with runs := rfl, gone := rfl }
  | publish t =>
    simp only [step] at hs
    split at hs
    · rename_i hg
      split at hs
      · rename_i i rest hx
        cases hs
        simp only [Follows, next, h.gone, hg, ↓reduceIte, h.exit, hx]
        have hmem : i ∈ s.exit t := by simp [hx]
        have hp := h.pub t i hmem
        have hsub : ∀ u j, j ∈ upd s.exit t rest u → j ∈ s.exit u := by
          intro u j hj
          simp only [upd_apply] at hj
          split at hj
          · rename_i e; subst e; rw [hx]; exact List.mem_cons_of_mem _ hj
          · exact hj
        have hcnt : ∀ u j, (upd s.exit t rest u).count j ≤ (s.exit u).count j := by
          intro u j
          simp only [upd_apply]
          split
          · rename_i e; subst e; rw [hx, List.count_cons]; omega
          · exact Nat.le_refl _
        cases hsp : (σ.fn i).spoiled with
        | true =>
          have base : R { s with ss := upd s.ss i { s.ss i with done := true }, exit := upd s.exit t rest } { σ with exit := upd s.exit t rest } := by
            refine { h with exit := rfl, ss := ?_, pub := fun u j hj => h.pub u j (hsub u j hj), eachPub := fun u j hj => Nat.le_trans (hcnt u j) (h.eachPub u j hj), apartPub := fun u v j hj hu hv => h.apartPub u v j hj (hsub u j hu) (hsub v j hv) }
            intro j hj
            simp only [upd_apply]
            split
            · rename_i e; subst e; simp [hsp] at hj
            · exact h.ss j hj
          cases hr : (σ.fn i).run with
          | over o =>
            have := base.change (i := i) (x := { s.ss i with done := true }) (f := { σ.fn i with run := .ready o }) (task := s.task) (by simp [hsp]) (by simp [hsp]) (by simp [hsp]) h.owned
            have e1 : upd (upd s.ss i { s.ss i with done := true }) i { s.ss i with done := true } = upd s.ss i { s.ss i with done := true } := by
              funext j; simp only [upd_apply]; split <;> rfl
            simp only [e1, hsp] at this
            exact { this with task := h.task, gone := rfl }
          | _ => exact { base with gone := rfl }
        | false =>
          obtain ⟨o, hr⟩ := hp.2 hsp
          simp only [hr]
          have hss := h.ss i hsp
          rw [hr] at hss
          have hno : ∀ u, i ∉ upd s.exit t rest u := by
            intro u hm
            have h1 := h.eachPub t i hsp
            rw [hx, List.count_cons] at h1
            simp only [beq_self_eq_true, ↓reduceIte] at h1
            have hr0 : i ∉ rest := List.count_eq_zero.mp (by omega)
            simp only [upd_apply] at hm
            split at hm
            · exact hr0 hm
            · rename_i hu
              exact hu (h.apartPub u t i hsp hm hmem)
          have hsp' : ∀ j, (upd σ.fn i ({ run := .ready o } : Fn) j).spoiled = false → (σ.fn j).spoiled = false := by
            intro j hj
            simp only [upd_apply] at hj
            split at hj
            · rename_i e; subst e; exact hsp
            · exact hj
          refine { h with exit := rfl, gone := rfl, ss := ?_, frame := ?_, each := fun u j hj => h.each u j (hsp' j hj), apart := fun u v j hj => h.apart u v j (hsp' j hj), pub := ?_, eachPub := fun u j hj => Nat.le_trans (hcnt u j) (h.eachPub u j (hsp' j hj)), apartPub := fun u v j hj hu hv => h.apartPub u v j (hsp' j hj) (hsub u j hu) (hsub v j hv) }
          · intro j hj
            have hj' := hsp' j hj
            simp only [upd_apply]
            split
            · exact ⟨hss.started, rfl, hss.out⟩
            · exact h.ss j hj'
          · intro u f hf
            have h1 := h.frame u f hf
            refine ⟨h1.1, ?_⟩
            simp only [upd_apply]
            split
            · rename_i e
              intro _
              have := h1.2 (by rw [e]; exact hsp)
              rw [e, hr] at this
              cases this
            · exact h1.2
          · intro u j hj
            have h1 := h.pub u j (hsub u j hj)
            refine ⟨h1.1, ?_⟩
            simp only [upd_apply]
            split
            · rename_i e; subst e; exact absurd hj (hno u)
            · exact h1.2
      · cases hs
    · cases hs

end Verif.PackagedTask
