import Verif.SerialExecutor.Sim
/-! # The serial executor can always carry on -/

set_option linter.unusedSimpArgs false

namespace Verif.SerialExecutor

/-- A step of `try_executing_one` or of the own thread, the beginning of a closure, or its normal end. -/
def Helpful (l : Label) : Prop := (∃ k, l = .go k) ∨ (∃ c, l = .exStart c) ∨ (∃ c, l = .exEnd c true)

theorem left_le_of {σ σ' : Spec} (ha : σ'.acc = σ.acc) (h : ∀ c, σ.st c = .done → σ'.st c = .done) : σ'.left ≤ σ.left := by
  unfold Spec.left
  rw [ha]
  refine length_filter_le_of_imp fun c _ => ?_
  simp only [ne_eq, decide_eq_true_eq]
  exact fun hne e => hne (h c e)

theorem left_lt_of {σ σ' : Spec} (ha : σ'.acc = σ.acc) (h : ∀ c, σ.st c = .done → σ'.st c = .done) {c : Nat} (hc : c < σ.acc) (h1 : σ.st c ≠ .done)
    (h2 : σ'.st c = .done) : σ'.left < σ.left := by
  unfold Spec.left
  rw [ha]
  refine length_filter_lt_of_imp (a := c) (fun c _ => ?_) (List.mem_range.mpr hc) (by simpa using h1) (by simpa using h2)
  simp only [ne_eq, decide_eq_true_eq]
  exact fun hne e => hne (h c e)

variable {cap : Nat}

/-- The circumstances under which progress is certain: the underlying executor is open, and no closure is itself inside `try_executing_one`. -/
structure Good (s : State) (σ : Spec) : Prop where
  rel : ∃ lo dn rel, R lo dn rel s σ
  open_ : s.exClosed = false
  free : ∀ c, s.act (.closure c) = .none

structure Helped (cap : Nat) (s : State) (σ : Spec) (ls : List Label) (s' : State) (es : List Event) (σ' : Spec) : Prop where
  helpful : ∀ l ∈ ls, Helpful l
  run : run (step cap) s ls = some (s', es)
  spec : specState next σ es = some σ'
  good : Good s' σ'
  acc : σ'.acc = σ.acc
  phase : s'.phase = s.phase
  closed : s'.closed = s.closed
  left : σ'.left ≤ σ.left

theorem Helped.refl {s : State} {σ : Spec} (h : Good s σ) : Helped cap s σ [] s [] σ := ⟨by simp, rfl, rfl, h, rfl, rfl, rfl, Nat.le_refl _⟩

theorem Helped.trans {s s' s'' : State} {σ σ' σ'' : Spec} {ls ls' : List Label} {es es' : List Event} (h : Helped cap s σ ls s' es σ')
    (h' : Helped cap s' σ' ls' s'' es' σ'') : Helped cap s σ (ls ++ ls') s'' (es ++ es') σ'' where
  helpful := by intro l hl; rcases List.mem_append.mp hl with e | e; exact h.helpful l e; exact h'.helpful l e
  run := run_append h.run h'.run
  spec := by rw [specState_append, h.spec]; exact h'.spec
  good := h'.good
  acc := h'.acc.trans h.acc
  phase := h'.phase.trans h.phase
  closed := h'.closed.trans h.closed
  left := Nat.le_trans h'.left h.left

theorem rel_running {s : State} {σ : Spec} (h : Rel s σ) (hr : running s = true) : ∃ lo dn rel, R lo dn rel s σ := by
  rcases h with h | h
  · rw [h] at hr; cases hr
  · exact h

/-- A step that nobody sees. -/
theorem Helped.silent {s s' : State} {σ : Spec} {k : Caller} (h : Good s σ) (hs : step cap s (.go k) = some (s', [])) (hp : s'.phase = s.phase)
    (hx : s'.exClosed = s.exClosed) (hc : s'.closed = s.closed) (hf : ∀ c, s'.act (.closure c) = .none) : Helped cap s σ [.go k] s' [] σ := by
  obtain ⟨lo, dn, rel, hR⟩ := h.rel
  have hf' := sim (.inr ⟨lo, dn, rel, hR⟩) hs
  have hrun : running s' = true := by have := hR.run; unfold running at *; rw [hp]; exact this
  exact ⟨by simp [Helpful], by simp [Verif.run, hs], rfl, ⟨rel_running hf' hrun, hx.trans h.open_, hf⟩, rfl, hp, hc, Nat.le_refl _⟩

theorem help_end {s : State} {σ : Spec} (h : Good s σ) {c : Nat} (hc : s.job c = .running) : ∃ ls s' es σ', Helped cap s σ ls s' es σ' ∧ σ'.left < σ.left := by
  obtain ⟨lo, dn, rel, hR⟩ := h.rel
  have hst : σ.st c = .running := by rw [hR.st, hc]; rfl
  have hlt : c < σ.acc := by
    have := hR.idle c
    have := hR.lo_le
    have := hR.acc
    grind
  have hd : ∀ d, σ.st d = .done → upd σ.st c .done d = .done := fun d hd => by simp only [upd_apply]; split <;> simp [hd]
  refine ⟨[.exEnd c true], { s with job := upd s.job c .set }, [.ended c true], { σ with st := upd σ.st c .done, ended := σ.ended + 1 }, ⟨?_, ?_, ?_, ?_, rfl, rfl, rfl, ?_⟩, ?_⟩
  · simp [Helpful]
  · simp [Verif.run, step, hR.run, exEnd, hc, h.free c]
  · simp [specState, next, live, hR.crash, hlt, hst]
  · exact ⟨⟨_, _, _, hR.ended hc (h.free c)⟩, h.open_, h.free⟩
  · exact left_le_of rfl hd
  · exact left_lt_of rfl hd hlt (by simp [hst]) (by simp [upd_apply])

theorem help_start {s : State} {σ : Spec} (h : Good s σ) (hcap : 0 < cap) (hno : ∀ d, s.job d ≠ .running) {c : Nat} (hc : s.job c = .handed) :
    ∃ ls s' es σ', Helped cap s σ ls s' es σ' ∧ σ'.left < σ.left := by
  obtain ⟨lo, dn, rel, hR⟩ := h.rel
  have hst : σ.st c = .waiting := by rw [hR.st, hc]; rfl
  obtain ⟨h1, h2⟩ := hR.before_le hc
  have hb : busy s = 0 := by
    unfold busy
    rw [List.length_eq_zero_iff, List.filter_eq_nil_iff]
    intro d _
    simpa using hno d
  have hh : Helped cap s σ [.exStart c] { s with job := upd s.job c .running } [.started c] { σ with st := upd σ.st c .running } := by
    refine ⟨?_, ?_, ?_, ⟨⟨_, _, _, hR.started hc⟩, h.open_, h.free⟩, rfl, rfl, rfl, ?_⟩
    · simp [Helpful]
    · simp [Verif.run, step, hR.run, exStart, hc, hb, hcap]
    · simp [specState, next, live, hR.crash, h1, h2, hst]
    · refine left_le_of rfl fun d hd => ?_
      simp only [upd_apply]
      split
      · subst d; rw [hst] at hd; cases hd
      · exact hd
  obtain ⟨ls, s', es, σ', hh', hl⟩ := help_end (cap := cap) hh.good (c := c) (by simp [upd_apply])
  exact ⟨_, _, _, _, hh.trans hh', Nat.lt_of_lt_of_le hl hh.left⟩

theorem help_hand {s : State} {σ : Spec} (h : Good s σ) (hcap : 0 < cap) (hno : ∀ d, s.job d ≠ .running) {k : Caller} {c : Nat} (hk : s.act k = .pulled c)
    (hw : k = .worker → s.pc = .first ∨ s.pc = .second) : ∃ ls s' es σ', Helped cap s σ ls s' es σ' ∧ σ'.left < σ.left := by
  obtain ⟨lo, dn, rel, hR⟩ := h.rel
  have hs : step cap s (.go k) = some ({ s with job := upd s.job c .handed, act := upd s.act k (.waiting c) }, []) := by
    by_cases e : k = .worker
    · subst e
      rcases hw rfl with e | e <;> simp [step, hR.run, worker, e, hk, tryStep, h.open_]
    · simp [step, hR.run, e, tryStep, hk, h.open_]
  have hh := Helped.silent h hs rfl rfl rfl fun d => by
    have := h.free d
    simp only [upd_apply]
    grind
  obtain ⟨ls, s', es, σ', hh', hl⟩ := help_start hh.good hcap (c := c) (fun d => by have := hno d; simp only [upd_apply]; grind) (by simp [upd_apply])
  exact ⟨_, _, _, _, hh.trans hh', Nat.lt_of_lt_of_le hl hh.left⟩

theorem help_pull {s : State} {σ : Spec} (h : Good s σ) (hcap : 0 < cap) (hno : ∀ d, s.job d ≠ .running) (hk : s.act .worker = .called)
    (hw : s.pc = .first ∨ s.pc = .second) (hq : s.q ≠ []) : ∃ ls s' es σ', Helped cap s σ ls s' es σ' ∧ σ'.left < σ.left := by
  obtain ⟨lo, dn, rel, hR⟩ := h.rel
  cases hq' : s.q with
  | nil => exact absurd hq' hq
  | cons c q =>
    have hs : step cap s (.go .worker) = some ({ s with q := q, act := upd s.act .worker (.pulled c) }, []) := by
      rcases hw with e | e <;> simp [step, hR.run, worker, e, hk, tryStep, hq']
    have hh := Helped.silent h hs rfl rfl rfl fun d => by
      have := h.free d
      simp only [upd_apply]
      grind
    obtain ⟨ls, s', es, σ', hh', hl⟩ := help_hand hh.good hcap (k := .worker) (c := c) hno (by simp [upd_apply]) (fun _ => hw)
    exact ⟨_, _, _, _, hh.trans hh', Nat.lt_of_lt_of_le hl hh.left⟩

/-- The own thread, between two `try_executing_one`s, enters the next one. -/
theorem help_call {s : State} {σ : Spec} (h : Good s σ) (hk : s.act .worker = .none) (hw : s.pc = .test ∨ s.pc = .second) :
    ∃ p, (p = .first ∨ p = .second) ∧ (s.closed = true → p = .second) ∧
      Helped cap s σ [.go .worker] { s with pc := p, act := upd s.act .worker .called } [] σ := by
  obtain ⟨lo, dn, rel, hR⟩ := h.rel
  have hfree : ∀ d, upd s.act .worker Act.called (.closure d) = .none := fun d => by have := h.free d; simp only [upd_apply]; grind
  rcases hw with e | e
  · cases hcl : s.closed with
    | true =>
      refine ⟨.second, .inr rfl, fun _ => rfl, Helped.silent h ?_ rfl rfl hcl.symm hfree⟩
      simp [step, hR.run, worker, e, hcl]
    | false =>
      refine ⟨.first, .inl rfl, nofun, Helped.silent h ?_ rfl rfl hcl.symm hfree⟩
      simp [step, hR.run, worker, e, hcl]
  · refine ⟨.second, .inr rfl, fun _ => rfl, Helped.silent h ?_ rfl rfl rfl hfree⟩
    simp [step, hR.run, worker, e, hk]

/-- The own thread, waiting for a closure that has ended, returns. -/
theorem help_return {s : State} {σ : Spec} (h : Good s σ) {c : Nat} (hk : s.act .worker = .waiting c) (hset : s.job c = .set) (hw : s.pc = .first ∨ s.pc = .second) :
    ∃ p, (p = .test ∨ p = .second) ∧ Helped cap s σ [.go .worker] { s with pc := p, act := upd s.act .worker .none } [] σ := by
  obtain ⟨lo, dn, rel, hR⟩ := h.rel
  have hfree : ∀ d, upd s.act .worker Act.none (.closure d) = .none := fun d => by have := h.free d; simp only [upd_apply]; grind
  rcases hw with e | e
  · refine ⟨.test, .inl rfl, Helped.silent h ?_ rfl rfl rfl hfree⟩
    simp [step, hR.run, worker, e, hk, tryStep, hset, after, seen]
  · refine ⟨.second, .inr rfl, Helped.silent h ?_ rfl rfl rfl hfree⟩
    simp [step, hR.run, worker, e, hk, tryStep, hset, after, seen]

theorem R.busy_pc {lo : Nat} {dn rel : List Nat} {s : State} {σ : Spec} (h : R lo dn rel s σ) (hk : s.act .worker ≠ .none) : s.pc = .first ∨ s.pc = .second := by
  have h1 := h.test
  have h2 := h.exited
  cases hp : s.pc <;> grind

theorem R.idle_pc {lo : Nat} {dn rel : List Nat} {s : State} {σ : Spec} (h : R lo dn rel s σ) (hk : s.act .worker = .none) (hx : s.pc ≠ .exited) :
    s.pc = .test ∨ s.pc = .second := by
  have h1 := h.first
  cases hp : s.pc <;> grind

/-- As long as something is left, something can be carried out. -/
theorem help_one {s : State} {σ : Spec} (h : Good s σ) (hcap : 0 < cap) (hl : σ.left ≠ 0) : ∃ ls s' es σ', Helped cap s σ ls s' es σ' ∧ σ'.left < σ.left := by
  obtain ⟨lo, dn, rel, hR⟩ := h.rel
  by_cases h1 : ∃ c, s.job c = .running
  · obtain ⟨c, hc⟩ := h1
    exact help_end h hc
  have hno : ∀ d, s.job d ≠ .running := fun d hd => h1 ⟨d, hd⟩
  by_cases h2 : ∃ c, s.job c = .handed
  · obtain ⟨c, hc⟩ := h2
    exact help_start h hcap hno hc
  have hnh : ∀ d, s.job d ≠ .handed := fun d hd => h2 ⟨d, hd⟩
  by_cases h3 : ∃ k c, s.act k = .pulled c
  · obtain ⟨k, c, hk⟩ := h3
    exact help_hand h hcap hno hk fun e => hR.busy_pc (by rw [← e, hk]; simp)
  have hset : ∀ d, d < lo → s.job d = .set := by
    intro d hd
    by_cases e : s.job d = .set
    · exact e
    · obtain ⟨k, hk⟩ := hR.held d hd e
      cases ha : s.act k with
      | none => rw [ha] at hk; exact hk.elim
      | called => rw [ha] at hk; exact hk.elim
      | pulled c => exact absurd ⟨k, c, ha⟩ h3
      | waiting c =>
        rw [ha] at hk
        cases hk
        have := (hR.waiting k d ha).2
        have := hno d
        have := hnh d
        cases hj : s.job d <;> simp_all
  have hq : s.q ≠ [] := by
    intro hq
    apply hl
    have hlo : lo = s.next := by
      have h1 := hR.q
      have h2 := hR.lo_le
      rw [hq] at h1
      have := congrArg List.length h1
      simp at this
      omega
    exact left_zero fun c hc => by rw [hR.st, hset c (by have := hR.acc; omega)]; rfl
  have hx : s.pc ≠ .exited := fun e => hq (hR.exited e).2.1
  have fromNone : ∀ {s : State}, Good s σ → (∀ d, s.job d ≠ .running) → s.act .worker = .none → (s.pc = .test ∨ s.pc = .second) → s.q ≠ [] →
      ∃ ls s' es σ', Helped cap s σ ls s' es σ' ∧ σ'.left < σ.left := by
    intro s h hno hk hw hq
    obtain ⟨p, hp, _, hh⟩ := help_call (cap := cap) h hk hw
    obtain ⟨ls, s', es, σ', hh', hl⟩ := help_pull hh.good hcap hno (by simp [upd_apply]) hp hq
    exact ⟨_, _, _, _, hh.trans hh', hl⟩
  cases ha : s.act .worker with
  | none => exact fromNone h hno ha (hR.idle_pc ha hx) hq
  | called => exact help_pull h hcap hno ha (hR.busy_pc (by simp [ha])) hq
  | pulled c => exact absurd ⟨_, c, ha⟩ h3
  | waiting c =>
    obtain ⟨p, hp, hh⟩ := help_return (cap := cap) h ha (hset c (hR.waiting _ c ha).1) (hR.busy_pc (by simp [ha]))
    obtain ⟨ls, s', es, σ', hh', hl⟩ := fromNone hh.good hno (by simp [upd_apply]) hp hq
    exact ⟨_, _, _, _, hh.trans hh', hl⟩

theorem help_all {s : State} {σ : Spec} (h : Good s σ) (hcap : 0 < cap) : ∃ ls s' es σ', Helped cap s σ ls s' es σ' ∧ σ'.left = 0 := by
  induction hk : σ.left using Nat.strongRecOn generalizing s σ with
  | ind k ih =>
    by_cases hz : σ.left = 0
    · exact ⟨_, _, _, _, Helped.refl h, hz⟩
    · obtain ⟨ls, s', es, σ', hh, hlt⟩ := help_one h hcap hz
      obtain ⟨ls', s'', es', σ'', hh', he⟩ := ih σ'.left (hk ▸ hlt) hh.good rfl
      exact ⟨_, _, _, _, hh.trans hh', he⟩

theorem done_of_left {σ : Spec} (h : σ.left = 0) {c : Nat} (hc : c < σ.acc) : σ.st c = .done := by
  unfold Spec.left at h
  rw [List.length_eq_zero_iff, List.filter_eq_nil_iff] at h
  simpa using h c (List.mem_range.mpr hc)

/-- With nothing left to do and the executor closed, the own thread can leave. -/
theorem help_exit {s : State} {σ : Spec} (h : Good s σ) (hcl : s.closed = true) (hl : σ.left = 0) : ∃ ls s', Helped cap s σ ls s' [] σ ∧ s'.pc = .exited := by
  obtain ⟨lo, dn, rel, hR⟩ := h.rel
  have hset : ∀ c, c < s.next → s.job c = .set := fun c hc => by
    have h1 := done_of_left hl (c := c) (by have := hR.acc; omega)
    rw [hR.st] at h1
    cases hj : s.job c <;> simp_all [Job.st]
  have hlo : lo = s.next := by
    have h2 := hR.lo_le
    rcases Nat.lt_or_ge lo s.next with h | h
    · have := hset lo h
      rw [hR.idle lo (Nat.le_refl _)] at this
      cases this
    · omega
  have hq : s.q = [] := by rw [hR.q, hlo]; simp
  have hnp : ∀ c, s.act .worker ≠ .pulled c := fun c e => by
    have := hR.pulled _ c e
    have := hset c (by omega)
    grind
  have fromCalled : ∀ {s : State}, Good s σ → s.act .worker = .called → s.pc = .second → s.q = [] → ∃ ls s', Helped cap s σ ls s' [] σ ∧ s'.pc = .exited := by
    intro s h hk hp hq
    obtain ⟨lo, dn, rel, hR⟩ := h.rel
    refine ⟨[.go .worker], { s with pc := .exited, act := upd s.act .worker .none }, Helped.silent h ?_ rfl rfl rfl (fun d => ?_), rfl⟩
    · simp [step, hR.run, worker, hp, hk, tryStep, hq, after, seen]
    · have := h.free d
      simp only [upd_apply]
      grind
  have fromNone : ∀ {s : State}, Good s σ → s.closed = true → s.act .worker = .none → (s.pc = .test ∨ s.pc = .second) → s.q = [] →
      ∃ ls s', Helped cap s σ ls s' [] σ ∧ s'.pc = .exited := by
    intro s h hcl hk hw hq
    obtain ⟨p, _, hp, hh⟩ := help_call (cap := cap) h hk hw
    obtain ⟨ls, s', hh', hl⟩ := fromCalled hh.good (by simp [upd_apply]) (hp hcl) hq
    exact ⟨_, _, hh.trans hh', hl⟩
  by_cases hx : s.pc = .exited
  · exact ⟨_, _, Helped.refl h, hx⟩
  cases ha : s.act .worker with
  | none => exact fromNone h hcl ha (hR.idle_pc ha hx) hq
  | pulled c => exact absurd ha (hnp c)
  | waiting c =>
    obtain ⟨p, hp, hh⟩ := help_return (cap := cap) h ha (hset c (by have := (hR.waiting _ c ha).1; omega)) (hR.busy_pc (by simp [ha]))
    obtain ⟨ls, s', hh', hl⟩ := fromNone hh.good hcl (by simp [upd_apply]) hp hq
    exact ⟨_, _, hh.trans hh', hl⟩
  | called =>
    rcases hR.busy_pc (by simp [ha]) with hp | hp
    · have hs : step cap s (.go .worker) = some ({ s with pc := .test, act := upd s.act .worker .none }, []) := by
        simp [step, hR.run, worker, hp, ha, tryStep, hq, after, seen]
      have hh := Helped.silent h hs rfl rfl rfl (fun d => by have := h.free d; simp only [upd_apply]; grind)
      obtain ⟨ls, s', hh', hl⟩ := fromNone hh.good hcl (by simp [upd_apply]) (.inl rfl) hq
      exact ⟨_, _, hh.trans hh', hl⟩
    · exact fromCalled h ha hp hq

end Verif.SerialExecutor
