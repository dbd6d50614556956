import Verif.SerialCont.Inv
/-!
# The model follows the contract
-/

set_option linter.unusedSimpArgs false
set_option linter.unusedVariables false

namespace Verif.SerialCont

structure Rel (s : State) (σ : Spec) (f : Nat) (ph : Ph) : Prop where
  fi : FInv s f ph
  n : σ.n = s.n
  st : σ.st = stOf f ph
  closed : s.dying = none → σ.closed = s.closed
  calls : ∀ k, k ∈ σ.calls ↔ s.pc k ≠ .idle
  opn : ∀ k, s.pc k = .attach → s.closed = false
  fut : s.fut = none → σ.failed = true ∨ ∃ k, (s.pc k).moved = true
  dying : σ.dying = s.dying.isSome
  gone : s.gone = true → s.dying ≠ none
  quiet : s.dying ≠ none → (∀ k, s.pc k = .idle) ∧ (ph = .idle ∨ ph = .marking ∨ ph = .stuck) ∧ s.n ≤ f + 1

def R (s : State) (σ : Spec) : Prop := ∃ f ph, Rel s σ f ph

theorem R.init : R init start :=
  ⟨0, .idle, { fi := FInv.init, n := rfl, st := (by funext d; simp [start, stOf]), closed := fun _ => rfl, calls := by simp [start, SerialCont.init], opn := by simp [SerialCont.init], fut := by simp [SerialCont.init], dying := rfl, gone := by simp [SerialCont.init], quiet := by simp [SerialCont.init] }⟩

theorem mem_without {σ : Spec} {k j : Caller} : j ∈ σ.without k ↔ j ∈ σ.calls ∧ j ≠ k := by simp [Spec.without]

/-- As long as nobody destroys the executor, the front decides. -/
theorem R.of {s : State} {σ : Spec} {f : Nat} {ph : Ph} (hf : FInv s f ph) (hd : s.dying = none) (hg : s.gone = false) (h1 : σ.n = s.n) (h2 : σ.st = stOf f ph) (h3 : σ.closed = s.closed)
    (h4 : ∀ k, k ∈ σ.calls ↔ s.pc k ≠ .idle) (h5 : s.fut = none → σ.failed = true ∨ ∃ k, (s.pc k).moved = true) (h6 : σ.dying = false) (h7 : ∀ k, s.pc k = .attach → s.closed = false) : R s σ :=
  ⟨f, ph, { fi := hf, n := h1, st := h2, closed := fun _ => h3, calls := h4, opn := h7, fut := h5, dying := by rw [h6, hd]; rfl, gone := by simp [hg], quiet := fun h => absurd hd h }⟩

theorem idle_of {s : State} {σ : Spec} {f : Nat} {ph : Ph} (h : Rel s σ f ph) : σ.idle = true ↔ s.n ≤ f + 1 ∧ (ph = .idle ∨ ph = .marking ∨ ph = .stuck) := by
  have hi := h.fi.idle; have hle := h.fi.le
  simp only [Spec.idle, h.n, h.st, List.all_eq_true, List.mem_range, Bool.or_eq_true, beq_iff_eq]
  constructor
  · intro hx
    refine ⟨?_, ?_⟩
    · rcases Nat.lt_or_ge (f + 1) s.n with h' | h'
      · have := hx (f + 1) h'; simp only [stOf] at this; rw [if_neg (by omega), if_neg (by omega)] at this; simp at this
      · exact h'
    · rcases Nat.lt_or_ge f s.n with h' | h'
      · have := hx f h'; simp only [stOf, Nat.lt_irrefl, if_false, if_true] at this
        cases ph <;> simp at this ⊢
      · exact .inl (hi.2 (by omega))
  · rintro ⟨h1, h2⟩ c hc
    simp only [stOf]
    rcases Nat.lt_trichotomy c f with h' | h' | h'
    · simp [h']
    · subst h'
      have : ph ≠ .idle := fun hx => by have := hi.1 hx; omega
      rcases h2 with h2 | h2 | h2
      · exact absurd h2 this
      · simp [h2]
      · simp [h2]
    · omega

/-- A call has returned. -/
theorem calls_ret {s : State} {σ : Spec} {k : Caller} (h : ∀ j, j ∈ σ.calls ↔ s.pc j ≠ .idle) : ∀ j, j ∈ σ.without k ↔ upd s.pc k .idle j ≠ .idle := by
  intro j; rw [mem_without, h, upd_apply]; split
  · rename_i hjk; simp [hjk]
  · rename_i hjk; simp [hjk]

/-- A caller that stays within its call. -/
theorem calls_in {s : State} {σ : Spec} {k : Caller} {q : PC} (h : ∀ j, j ∈ σ.calls ↔ s.pc j ≠ .idle) (hk : s.pc k ≠ .idle) (hq : q ≠ .idle) : ∀ j, j ∈ σ.calls ↔ upd s.pc k q j ≠ .idle := by
  intro j; rw [h, upd_apply]; split
  · rename_i hjk; subst hjk; simp [hk, hq]
  · rfl

theorem moved_keep {s : State} {k : Caller} {q : PC} (hk : (s.pc k).moved = false) {p : Prop} (h : p ∨ ∃ j, (s.pc j).moved = true) : p ∨ ∃ j, (upd s.pc k q j).moved = true := by
  rcases h with h | ⟨j, hj⟩
  · exact .inl h
  · refine .inr ⟨j, ?_⟩; rw [upd_apply]; split
    · rename_i hjk; subst hjk; rw [hk] at hj; cases hj
    · exact hj

theorem opn_keep {s : State} {k : Caller} {q : PC} (h : ∀ j, s.pc j = .attach → s.closed = false) (hq : q ≠ .attach) : ∀ j, upd s.pc k q j = .attach → s.closed = false := by
  intro j; rw [upd_apply]; split
  · exact fun hx => absurd hx hq
  · exact h j

theorem moved_other {s : State} {f : Nat} {ph : Ph} (h : FInv s f ph) {k : Caller} (hk : (s.pc k).holds = true) {q : PC} : ∀ j, (upd s.pc k q j).moved = true → j = k := by
  intro j; rw [upd_apply]; split
  · intro _; assumption
  · rename_i hjk; intro hm; have := h.others hk j hjk; rw [holds_of_moved hm] at this; cases this

theorem stepGo_ok {s s' : State} {σ : Spec} {k : Caller} {es : List Event} {f : Nat} {ph : Ph} (h : Rel s σ f ph) (hs : stepGo s k = some (s', es)) : Follows (next true) (R s') σ es := by
  obtain ⟨f', ph', hf', -, hst⟩ := stepGo_front h.fi hs
  have hcl := h.calls; have hn := h.n; have ho := h.opn
  have hdn : s.dying = none := by
    cases hd : s.dying with
    | none => rfl
    | some t => have := (h.quiet (by simp [hd])).1 k; simp [stepGo, this] at hs
  have hg : s.gone = false := by
    cases hg : s.gone with
    | false => rfl
    | true => exact absurd hdn (h.gone hg)
  have hsd : σ.dying = false := by rw [h.dying, hdn]; rfl
  have hc := h.closed hdn
  simp only [stepGo] at hs
  split at hs
  · cases hs
  · rename_i o hpc
    have hmv : (s.pc k).moved = false := by rw [hpc]; rfl
    rw [if_neg (by simp [hg])] at hs
    split at hs
    · rename_i hm
      split at hs
      · cases hs
        refine R.of hf' hdn hg hn (by rw [hst]; exact h.st) rfl (calls_ret hcl) (fun hx => moved_keep hmv (h.fut hx)) hsd ?_
        intro j; simp only [upd_apply]; split
        · simp
        · intro hx; have := h.fi.holds j (by rw [hx]; rfl); rw [hm] at this; cases this
      · cases hs
        simp only [Follows, next, if_pos hc.symm]
        exact R.of hf' hdn hg hn (by rw [hst]; exact h.st) hc (calls_ret hcl) (fun hx => moved_keep hmv (h.fut hx)) hsd (opn_keep ho (by simp))
      · split at hs
        · rename_i hcl'
          cases hs
          simp only [Follows, next, if_pos (hc.trans hcl')]
          exact R.of hf' hdn hg hn (by rw [hst]; exact h.st) hc (calls_ret hcl) (fun hx => moved_keep hmv (h.fut hx)) hsd (opn_keep ho (by simp))
        · rename_i hcl'
          cases hs
          refine R.of hf' hdn hg hn (by rw [hst]; exact h.st) hc (calls_in hcl (by rw [hpc]; simp) (by simp)) (fun hx => moved_keep hmv (h.fut hx)) hsd ?_
          intro j _; simpa using hcl'
    · cases hs
  · rename_i hpc
    have hmv : (s.pc k).moved = false := by rw [hpc]; rfl
    have hoth := h.fi.others (k := k) (by rw [hpc]; rfl)
    have hnc := ho k hpc
    split at hs
    · rename_i hfut
      cases hs
      have hfl : σ.failed = true := by
        rcases h.fut hfut with hx | ⟨j, hj⟩
        · exact hx
        · by_cases hjk : j = k
          · subst hjk; rw [hmv] at hj; cases hj
          · have := hoth j hjk; rw [holds_of_moved hj] at this; cases this
      simp only [Follows, next, if_pos hfl]
      exact R.of hf' hdn hg hn (by rw [hst]; exact h.st) hc (calls_ret hcl) (fun _ => .inl hfl) hsd (opn_keep ho (by simp))
    · split at hs <;> cases hs
      · simp only [Follows, next, if_pos (And.intro hn.symm (hc.trans hnc))]
        exact R.of hf' hdn hg (by simp only [hn]) (by rw [hst]; exact h.st) hc (calls_in hcl (by rw [hpc]; simp) (by simp)) (fun _ => .inr ⟨k, by simp [upd_apply, PC.moved]⟩) hsd (opn_keep ho (by simp))
      · simp only [Follows, next, if_pos (And.intro hn.symm (hc.trans hnc)), if_pos (show s.n < σ.n + 1 by omega)]
        exact R.of hf' hdn hg (by simp only [finishSubmit, hn]) (by rw [hst]; exact h.st) hc (calls_ret hcl) (by simp [finishSubmit]) hsd (opn_keep ho (by simp))
  · cases hs
  · rename_i c hpc
    split at hs <;> cases hs
    have hcn : c < s.n := by
      have := h.fi.le
      rcases h.fi.inline k c hpc with hx | hx <;> omega
    simp only [Follows, next, if_pos (show c < σ.n by omega)]
    exact R.of hf' hdn hg hn (by rw [hst]; exact h.st) hc (calls_ret hcl) (by simp [finishSubmit]) hsd (opn_keep ho (by simp))

/-- Nothing is left when the executor is being destroyed. -/
theorem Rel.notDying {s : State} {σ : Spec} {f : Nat} {ph : Ph} (h : Rel s σ f ph) (hq : (∃ k, s.pc k ≠ .idle) ∨ (ph ≠ .idle ∧ ph ≠ .marking ∧ ph ≠ .stuck)) : s.dying = none ∧ s.gone = false ∧ σ.dying = false ∧ σ.closed = s.closed := by
  have hdn : s.dying = none := by
    cases hd : s.dying with
    | none => rfl
    | some t =>
      have := h.quiet (by simp [hd])
      rcases hq with ⟨k, hk⟩ | hq
      · exact absurd (this.1 k) hk
      · rcases this.2.1 with hx | hx | hx
        · exact absurd hx hq.1
        · exact absurd hx hq.2.1
        · exact absurd hx hq.2.2
  refine ⟨hdn, ?_, by rw [h.dying, hdn]; rfl, h.closed hdn⟩
  cases hg : s.gone with
  | false => rfl
  | true => exact absurd hdn (h.gone hg)

theorem started_ok {σ : Spec} {f n : Nat} {ph : Ph} (hst : σ.st = stOf f ph) (hn : σ.n = n) (hf : f < n) (hp : ph = .subm ∨ ph = .handed) :
    f < σ.n ∧ σ.st f = .waiting ∧ (List.range f).all (fun d => σ.st d == .done) = true := by
  refine ⟨by omega, ?_, ?_⟩
  · rw [hst]; rcases hp with rfl | rfl <;> simp [stOf]
  · simp only [List.all_eq_true, List.mem_range, beq_iff_eq]; intro d hd; rw [hst]; simp [stOf, hd]

set_option maxHeartbeats 1000000 in
theorem step_ok {s s' : State} {σ : Spec} {l : Label} {es : List Event} (h : R s σ) (hs : step s l = some (s', es)) : Follows (next true) (R s') σ es := by
  obtain ⟨f, ph, h⟩ := h
  obtain ⟨f', ph', hf', -, hst⟩ := step_front h.fi hs
  have hcl := h.calls; have hn := h.n; have ho := h.opn
  simp only [step] at hs
  split at hs
  · cases hs
  cases l with
  | call k o =>
    simp only [stepLive] at hs
    split at hs <;> cases hs
    rename_i hm
    have hpk : s.pc k = .idle := by cases k <;> simp only [mayCall, Bool.and_eq_true, beq_iff_eq] at hm <;> exact hm.1
    have hmv : (s.pc k).moved = false := by rw [hpk]; rfl
    have hcl' : ∀ j, j ∈ k :: σ.calls ↔ upd s.pc k (.lock o) j ≠ .idle := by
      intro j; rw [List.mem_cons, hcl, upd_apply]; split
      · rename_i hjk; simp [hjk]
      · rename_i hjk; simp [hjk]
    cases k with
    | client t =>
      simp only [Follows, next]
      by_cases hd : σ.dying = true
      · rw [if_pos hd]; trivial
      · rw [if_neg hd]
        replace hd : σ.dying = false := by simpa using hd
        have hdn : s.dying = none := by have := h.dying; rw [hd] at this; cases hx : s.dying <;> simp [hx] at this; rfl
        have hg : s.gone = false := by
          cases hg : s.gone with
          | false => rfl
          | true => exact absurd hdn (h.gone hg)
        exact R.of hf' hdn hg hn (by rw [hst]; exact h.st) (h.closed hdn) hcl' (fun hx => moved_keep hmv (h.fut hx)) hd (opn_keep ho (by simp))
    | closure c =>
      simp only [mayCall, Bool.and_eq_true, beq_iff_eq] at hm
      obtain ⟨rfl, hcn, hp⟩ := job_front h.fi hm.2 (by simp) (by simp) (by simp) (by simp)
      have hph : ph = .running := by cases ph <;> simp [Ph.job] at hp <;> rfl
      subst hph
      obtain ⟨hdn, hg, hsd, hc⟩ := h.notDying (.inr (by simp))
      have hx : c < σ.n ∧ σ.st c = .running := ⟨by omega, by rw [h.st]; simp [stOf]⟩
      simp only [Follows, next, if_pos hx]
      exact R.of hf' hdn hg hn (by rw [hst]; exact h.st) hc hcl' (fun hx => moved_keep hmv (h.fut hx)) hsd (opn_keep ho (by simp))
  | go k => exact stepGo_ok h hs
  | give k =>
    simp only [stepLive, stepGive] at hs
    split at hs <;> cases hs
    rename_i c hpc
    obtain ⟨rfl, hcn, rfl⟩ := h.fi.launch k c hpc
    obtain ⟨hdn, hg, hsd, hc⟩ := h.notDying (.inr (by simp))
    have hx : c < σ.n := by omega
    simp only [Follows, next, if_pos hx]
    exact R.of hf' hdn hg hn (by rw [hst]; exact h.st) hc (calls_ret hcl) (by simp [finishSubmit]) hsd (opn_keep ho (by simp))
  | giveInline k =>
    simp only [stepLive, stepGiveInline] at hs
    split at hs <;> cases hs
    rename_i c hpc
    obtain ⟨rfl, hcn, rfl⟩ := h.fi.launch k c hpc
    obtain ⟨hdn, hg, hsd, hc⟩ := h.notDying (.inr (by simp))
    simp only [Follows, next, if_pos (started_ok h.st hn (by omega) (.inl rfl))]
    exact R.of hf' hdn hg hn (by rw [hst, ← h.st]; rfl) hc (calls_in hcl (by rw [hpc]; simp) (by simp)) (fun _ => .inr ⟨k, by simp [upd_apply, PC.moved]⟩) hsd (opn_keep ho (by simp))
  | reject k =>
    simp only [stepLive, stepReject] at hs
    split at hs <;> cases hs
    rename_i c hpc
    obtain ⟨rfl, hcn, rfl⟩ := h.fi.launch k c hpc
    obtain ⟨hdn, hg, hsd, hc⟩ := h.notDying (.inr (by simp))
    have hx : c < σ.n ∧ σ.st c = .waiting := ⟨by omega, by rw [h.st]; simp [stOf]⟩
    simp only [Follows, next, if_pos hx]
    exact R.of hf' hdn hg hn (by rw [hst, ← h.st]; rfl) hc (calls_ret hcl) (fun _ => .inl rfl) hsd (opn_keep ho (by simp))
  | begin c =>
    simp only [stepLive] at hs
    split at hs <;> cases hs
    rename_i hj
    obtain ⟨rfl, hcn, hp⟩ := job_front h.fi hj (by simp) (by simp) (by simp) (by simp)
    have hph : ph = .handed := by cases ph <;> simp [Ph.job] at hp <;> rfl
    subst hph
    obtain ⟨hdn, hg, hsd, hc⟩ := h.notDying (.inr (by simp))
    simp only [Follows, next, if_pos (started_ok h.st hn hcn (.inr rfl))]
    exact R.of hf' hdn hg hn (by rw [hst, ← h.st]; rfl) hc hcl h.fut hsd ho
  | finish c =>
    simp only [stepLive] at hs
    split at hs <;> cases hs
    rename_i hj
    obtain ⟨rfl, hcn, hp⟩ := job_front h.fi hj.1 (by simp) (by simp) (by simp) (by simp)
    have hph : ph = .running := by cases ph <;> simp [Ph.job] at hp <;> rfl
    subst hph
    obtain ⟨hdn, hg, hsd, hc⟩ := h.notDying (.inr (by simp))
    have hx : c < σ.n ∧ σ.st c = .running := ⟨by omega, by rw [h.st]; simp [stOf]⟩
    simp only [Follows, next, if_pos hx]
    exact R.of hf' hdn hg hn (by rw [hst, ← h.st]; rfl) hc hcl h.fut hsd ho
  | throw c =>
    simp only [stepLive] at hs
    split at hs <;> cases hs
    rename_i hj
    obtain ⟨rfl, hcn, hp⟩ := job_front h.fi hj.1 (by simp) (by simp) (by simp) (by simp)
    have hph : ph = .running := by cases ph <;> simp [Ph.job] at hp <;> rfl
    subst hph
    obtain ⟨hdn, hg, hsd, hc⟩ := h.notDying (.inr (by simp))
    have hx : c < σ.n ∧ σ.st c = .running := ⟨by omega, by rw [h.st]; simp [stOf]⟩
    simp only [Follows, next, if_pos hx]
    exact R.of hf' hdn hg hn (by rw [hst]; exact h.st) hc hcl h.fut hsd ho
  | mark c =>
    simp only [stepLive, stepMark] at hs
    split at hs <;> cases hs
    rename_i hj
    obtain ⟨rfl, hcn, hp⟩ := job_front h.fi hj (by simp) (by simp) (by simp) (by simp)
    have hph : ph = .marking := by cases ph <;> simp [Ph.job] at hp <;> rfl
    subst hph
    refine ⟨f', ph', { fi := hf', n := hn, st := (by rw [hst]; exact h.st), closed := h.closed, calls := hcl, opn := ho, fut := h.fut, dying := h.dying, gone := h.gone, quiet := ?_ }⟩
    intro hd
    have hq := h.quiet hd
    have hdone := hf'.done (c + 1)
    simp only [upd_apply, if_true] at hdone
    have h1 : c + 1 ≤ f' := by simpa using hdone.symm
    have h2 := hf'.le
    simp only at h2 ⊢
    exact ⟨hq.1, .inl (hf'.idle.2 (by simp only; omega)), by omega⟩
  | pass c =>
    simp only [stepLive, stepPass] at hs
    split at hs <;> cases hs
    rename_i d l hj
    obtain ⟨-, rfl, -⟩ := job_pass h.fi hj
    obtain ⟨hdn, hg, hsd, hc⟩ := h.notDying (.inr (by simp))
    rw [show accessEx s = [] by simp [accessEx, hg]] at hst ⊢
    exact R.of hf' hdn hg hn (by rw [hst]; exact h.st) hc hcl h.fut hsd ho
  | passReject c =>
    simp only [stepLive, stepPassReject] at hs
    split at hs <;> cases hs
    rename_i d l hj
    obtain ⟨hcd, rfl, hl⟩ := job_pass h.fi hj
    simp only [List.cons.injEq] at hl
    obtain ⟨rfl, rfl⟩ := hl
    obtain ⟨hdn, hg, hsd, hc⟩ := h.notDying (.inr (by simp))
    have hne : d ≠ s.n := fun hx => by have := h.fi.idle.2 hx; cases this
    have hle := h.fi.le
    have hx : d < σ.n ∧ σ.st d = .waiting := ⟨by omega, by rw [h.st]; simp [stOf]⟩
    rw [show accessEx s = [] by simp [accessEx, hg], List.nil_append] at hst ⊢
    simp only [Follows, next, if_pos hx]
    exact R.of hf' hdn hg hn (by rw [hst, ← h.st]; rfl) hc hcl h.fut hsd ho
  | destroy t =>
    simp only [stepLive] at hs
    split at hs <;> cases hs
    rename_i hx
    simp only [Follows, next]
    by_cases hu : σ.dying = true ∨ σ.calls ≠ [] ∨ (True ∧ σ.idle = false)
    · rw [if_pos hu]; trivial
    · rw [if_neg hu]
      simp only [not_or, not_and] at hu
      obtain ⟨hu1, hu2, hu3⟩ := hu
      have hid : σ.idle = true := by simpa using hu3
      have hci : σ.calls = [] := by simpa using hu2
      have := (idle_of h).1 hid
      refine ⟨f, ph, { fi := { h.fi with }, n := hn, st := h.st, closed := by simp, calls := hcl, opn := ho, fut := h.fut, dying := rfl, gone := by simp, quiet := fun _ => ⟨fun k => ?_, this.2, this.1⟩ }⟩
      have := hcl k; rw [hci] at this; simpa using this
  | destroyEnd =>
    simp only [stepLive] at hs
    split at hs
    · cases hs
    · rename_i t hd
      split at hs <;> cases hs
      have hq := h.quiet (by simp [hd])
      have hid := (idle_of h).2 ⟨hq.2.2, hq.2.1⟩
      have hy : σ.dying = true ∧ σ.idle = true := ⟨by rw [h.dying, hd]; rfl, hid⟩
      simp only [Follows, next, if_pos hy]
      refine ⟨f, ph, { fi := { h.fi with }, n := hn, st := h.st, closed := by simp [hd], calls := hcl, opn := ?_, fut := h.fut, dying := h.dying, gone := by simp [hd], quiet := fun _ => hq }⟩
      intro k hk; rw [hq.1 k] at hk; cases hk

end Verif.SerialCont
