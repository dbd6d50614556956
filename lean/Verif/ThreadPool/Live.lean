import Verif.ThreadPool.Sim
/-! # The workers can always carry on -/

set_option linter.unusedSimpArgs false

namespace Verif.ThreadPool

/-- A step of a worker's loop, the invocation of a closure, or the normal end of one. -/
def Helpful (l : Label) : Prop := ∃ t, l = .work t ∨ l = .start t ∨ l = .finish t .ok

variable {n lo : Nat}

theorem left_le {σ σ' : Spec} (ha : σ'.acc = σ.acc) (h : ∀ c, σ.st c = .done → σ'.st c = .done) : σ'.left ≤ σ.left := by
  unfold Spec.left
  rw [ha]
  refine length_filter_le_of_imp fun c _ => ?_
  simp only [ne_eq, decide_eq_true_eq]
  exact fun hne e => hne (h c e)

theorem left_lt {σ σ' : Spec} (ha : σ'.acc = σ.acc) (h : ∀ c, σ.st c = .done → σ'.st c = .done) {c : Nat} (hc : c < σ.acc) (h1 : σ.st c ≠ .done)
    (h2 : σ'.st c = .done) : σ'.left < σ.left := by
  unfold Spec.left
  rw [ha]
  refine length_filter_lt_of_imp (a := c) (fun c _ => ?_) (List.mem_range.mpr hc) (by simpa using h1) (by simpa using h2)
  simp only [ne_eq, decide_eq_true_eq]
  exact fun hne e => hne (h c e)

/-- What a bit of help leads to. -/
structure Helped (n : Nat) (s : State) (σ : Spec) (ls : List Label) (s' : State) (es : List Event) (σ' : Spec) : Prop where
  helpful : ∀ l ∈ ls, Helpful l
  run : run (step n) s ls = some (s', es)
  spec : specState (next false n) σ es = some σ'
  rel : ∃ lo, R n lo s' σ'
  up : s'.phase = .up
  acc : σ'.acc = σ.acc
  clean : σ'.clean = σ.clean
  op : s'.op = s.op
  closed : s'.closed = s.closed
  left : σ'.left ≤ σ.left

theorem Helped.refl {s : State} {σ : Spec} (h : R n lo s σ) (hu : s.phase = .up) : Helped n s σ [] s [] σ :=
  ⟨by simp, rfl, rfl, ⟨lo, h⟩, hu, rfl, rfl, rfl, rfl, Nat.le_refl _⟩

theorem Helped.trans {s s' s'' : State} {σ σ' σ'' : Spec} {ls ls' : List Label} {es es' : List Event} (h : Helped n s σ ls s' es σ')
    (h' : Helped n s' σ' ls' s'' es' σ'') : Helped n s σ (ls ++ ls') s'' (es ++ es') σ'' where
  helpful := by intro l hl; rcases List.mem_append.mp hl with e | e; exact h.helpful l e; exact h'.helpful l e
  run := run_append h.run h'.run
  spec := by rw [specState_append, h.spec]; exact h'.spec
  rel := h'.rel
  up := h'.up
  acc := h'.acc.trans h.acc
  clean := h'.clean.trans h.clean
  op := h'.op.trans h.op
  closed := h'.closed.trans h.closed
  left := Nat.le_trans h'.left h.left

theorem Helped.one {s s' : State} {σ σ' : Spec} {l : Label} {es : List Event} (hl : Helpful l) (hs : step n s l = some (s', es))
    (hp : specState (next false n) σ es = some σ') (hr : ∃ lo, R n lo s' σ') (hu : s'.phase = .up) (ha : σ'.acc = σ.acc) (hc : σ'.clean = σ.clean)
    (ho : s'.op = s.op) (hcl : s'.closed = s.closed) (hle : σ'.left ≤ σ.left) : Helped n s σ [l] s' es σ' :=
  ⟨by simpa using hl, by simp [Verif.run, hs], hp, hr, hu, ha, hc, ho, hcl, hle⟩

theorem rel_up {s : State} {σ : Spec} (h : Rel n s σ) (hu : s.phase = .up) : ∃ lo, R n lo s σ := by
  rcases h with h | h
  · rw [h] at hu; cases hu
  · exact h

/-- Invoke the closure in hand. -/
theorem help_start {s : State} {σ : Spec} (h : R n lo s σ) (hu : s.phase = .up) {t c : Nat} {rest : List Frame} (hs : s.stk t = ⟨c, false⟩ :: rest) :
    ∃ ls s' es σ', Helped n s σ ls s' es σ' ∧ s'.stk t = ⟨c, true⟩ :: rest := by
  have hst : step n s (.start t) = some ({ s with stk := upd s.stk t (⟨c, true⟩ :: rest) }, [.started t c]) := by simp [step, hu, start, hs]
  have hf := sim (.inr ⟨lo, h⟩) hst
  have hw : σ.st c = .waiting := (h.f.wait c).mpr (.inr ⟨t, by rw [hs]; exact List.mem_cons_self ..⟩)
  simp only [Follows, next, h.crash, h.due, Bool.false_eq_true, ↓reduceIte] at hf
  by_cases hc : c < σ.acc ∧ σ.st c = .waiting ∧ σ.behind c ≤ σ.hands n t ∧ (σ.joined → n ≤ t) ∧ (t ∈ σ.pend ∨ t < n ∧ σ.idle t)
  · rw [if_pos hc] at hf
    refine ⟨[.start t], _, _, _, Helped.one ⟨t, .inr (.inl rfl)⟩ hst ?_ (rel_up hf hu) hu rfl rfl rfl rfl (left_le rfl ?_), by simp [upd_apply]⟩
    · simp only [specState, next, h.crash, h.due, Bool.false_eq_true, ↓reduceIte]
      rw [if_pos hc]
    · intro d hd
      simp only [upd_apply]
      split
      · subst d; rw [hw] at hd; cases hd
      · exact hd
  · rw [if_neg hc] at hf
    exact hf.elim

/-- Let the running closure return. -/
theorem help_finish {s : State} {σ : Spec} (h : R n lo s σ) (hu : s.phase = .up) {t c : Nat} {rest : List Frame} (hs : s.stk t = ⟨c, true⟩ :: rest) :
    ∃ ls s' es σ', Helped n s σ ls s' es σ' ∧ σ'.left < σ.left := by
  have hmem : (⟨c, true⟩ : Frame) ∈ s.stk t := by rw [hs]; exact List.mem_cons_self ..
  have hw : σ.st c = .running t := (h.f.run c t).mpr hmem
  have hlt : c < σ.acc := by have := h.f.lt t _ hmem; have := h.f.lo_le; have := h.acc; simp only at *; omega
  obtain ⟨_, hpend⟩ := h.f.pop hs
  have hst : step n s (.finish t .ok) =
      some ({ s with stk := upd s.stk t rest }, .ended t c .ok :: if viaTry n t rest then [.tryDone t] else []) := by simp [step, hu, finish, hs]
  have hf := sim (.inr ⟨lo, h⟩) hst
  obtain ⟨σ', h1, h2, h3, h4, h5⟩ : ∃ σ', specState (next false n) σ (.ended t c .ok :: if viaTry n t rest then [.tryDone t] else []) = some σ' ∧
      Rel n { s with stk := upd s.stk t rest } σ' ∧ σ'.acc = σ.acc ∧ σ'.clean = σ.clean ∧ σ'.st = upd σ.st c .done := by
    cases hv : viaTry n t rest
    · simp only [hv, specState, Follows, next, h.crash, h.due, hw, Bool.false_eq_true, ↓reduceIte] at hf ⊢
      exact ⟨_, rfl, hf, rfl, rfl, rfl⟩
    · simp only [hv, specState, Follows, next, h.crash, h.due, hw, Bool.false_eq_true, ↓reduceIte, Spec.due, Event.by, upd_apply, h.owe] at hf ⊢
      split at hf
      · rename_i σ₁ h₁
        split at h₁
        · cases h₁
          exact ⟨_, rfl, hf, rfl, rfl, rfl⟩
        · cases h₁
      · rename_i h₁
        (repeat' split at h₁) <;> cases h₁
      · cases hf
  have hdone : ∀ d, σ.st d = .done → upd σ.st c .done d = .done := fun d hd => by simp only [upd_apply]; split <;> simp [hd]
  rw [← h5] at hdone
  exact ⟨[.finish t .ok], _, _, _, Helped.one ⟨t, .inr (.inr rfl)⟩ hst h1 (rel_up h2 hu) hu h3 h4 rfl rfl (left_le h3 hdone),
    left_lt h3 hdone hlt (by simp [hw]) (by simp [h5, upd_apply])⟩

/-- Let a worker make a step of its loop. -/
theorem help_work {s s' : State} {σ : Spec} (h : R n lo s σ) (hu : s.phase = .up) {w : Nat} (hs : work n s w = some (s', [])) (ho : s'.op = s.op)
    (hc : s'.closed = s.closed) (hu' : s'.phase = .up) : Helped n s σ [.work w] s' [] σ := by
  have hst : step n s (.work w) = some (s', []) := by simp [step, hu, hs]
  have hf := sim (.inr ⟨lo, h⟩) hst
  exact Helped.one ⟨w, .inl rfl⟩ hst rfl (rel_up hf hu') hu' rfl rfl ho hc (Nat.le_refl _)

/-- As long as something is left, something can be carried out. -/
theorem help_one {s : State} {σ : Spec} (h : R n lo s σ) (hu : s.phase = .up) (hn : 0 < n) (hc : σ.clean = true) (hl : σ.left ≠ 0) :
    ∃ ls s' es σ', Helped n s σ ls s' es σ' ∧ σ'.left < σ.left := by
  have run_frame : ∀ {lo : Nat} {s : State} {σ : Spec}, R n lo s σ → s.phase = .up → ∀ t f rest, s.stk t = f :: rest →
      ∃ ls s' es σ', Helped n s σ ls s' es σ' ∧ σ'.left < σ.left := by
    intro lo s σ h hu t f rest hs
    obtain ⟨c, b⟩ := f
    cases b with
    | true => exact help_finish h hu hs
    | false =>
      obtain ⟨ls, s', es, σ', hh, hs'⟩ := help_start h hu hs
      obtain ⟨lo', h'⟩ := hh.rel
      obtain ⟨ls', s'', es', σ'', hh', hlt⟩ := help_finish h' hh.up hs'
      exact ⟨_, _, _, _, hh.trans hh', Nat.lt_of_lt_of_le hlt hh.left⟩
  by_cases hex : ∃ t f rest, s.stk t = f :: rest
  · obtain ⟨t, f, rest, hs⟩ := hex
    exact run_frame h hu t f rest hs
  · have hnil : ∀ t, s.stk t = [] := fun t => by
      cases hs : s.stk t with
      | nil => rfl
      | cons f rest => exact absurd ⟨t, f, rest, hs⟩ hex
    have hq : s.q ≠ [] := by
      intro hq
      apply hl
      unfold Spec.left
      rw [List.length_eq_zero_iff, List.filter_eq_nil_iff]
      intro c hc
      have hlen := congrArg List.length h.f.q
      rw [hq] at hlen
      simp only [List.length_nil, List.length_range'] at hlen
      have hacc := h.acc
      simp only [List.mem_range] at hc
      have h1 := h.f.run c
      have h2 := h.f.wait c
      simp only [hnil, List.not_mem_nil, iff_false, exists_false, or_false] at h1 h2
      cases hst : σ.st c with
      | done => simp
      | waiting => have := h2.mp hst; omega
      | running t => exact absurd hst (h1 t)
    have pull : ∀ {lo : Nat} {s : State} {σ : Spec}, R n lo s σ → s.phase = .up → s.q ≠ [] → s.stk 0 = [] → s.loop 0 = .loop →
        ∃ ls s' es σ', Helped n s σ ls s' es σ' ∧ σ'.left < σ.left := by
      intro lo s σ h hu hq hnil hlp
      cases hqc : s.q with
      | nil => exact absurd hqc hq
      | cons c q =>
        have hh := help_work h hu (w := 0) (s' := { s with q := q, stk := upd s.stk 0 [⟨c, false⟩] }) (by simp [work, hn, hnil, hlp, hqc]) rfl rfl hu
        obtain ⟨lo', h'⟩ := hh.rel
        obtain ⟨ls', s'', es', σ'', hh', hlt⟩ := run_frame h' hh.up 0 ⟨c, false⟩ [] (by simp [upd_apply])
        exact ⟨_, _, _, _, hh.trans hh', hlt⟩
    have hcl := h.clean hc 0 hn
    cases hlp : s.loop 0 with
    | unborn => exact absurd hlp ((h.up hu).2 0 hn)
    | exited => exact absurd (hcl.2 hlp).2 hq
    | loop => exact pull h hu hq (hnil 0) hlp
    | blocked =>
      have hh := help_work h hu (w := 0) (s' := { s with loop := upd s.loop 0 .loop }) (by simp [work, hn, hnil, hlp, hcl.1]) rfl rfl hu
      obtain ⟨lo', h'⟩ := hh.rel
      obtain ⟨ls', s'', es', σ'', hh', hlt⟩ := pull h' hh.up hq (hnil 0) (by simp [upd_apply])
      exact ⟨_, _, _, _, hh.trans hh', hlt⟩

theorem help_all {s : State} {σ : Spec} (h : R n lo s σ) (hu : s.phase = .up) (hn : 0 < n) (hc : σ.clean = true) :
    ∃ ls s' es σ', Helped n s σ ls s' es σ' ∧ σ'.left = 0 := by
  induction hk : σ.left using Nat.strongRecOn generalizing s σ lo with
  | ind k ih =>
    by_cases hz : σ.left = 0
    · exact ⟨_, _, _, _, Helped.refl h hu, hz⟩
    · obtain ⟨ls, s', es, σ', hh, hlt⟩ := help_one h hu hn hc hz
      obtain ⟨lo', h'⟩ := hh.rel
      obtain ⟨ls', s'', es', σ'', hh', he⟩ := ih σ'.left (hk ▸ hlt) h' hh.up (hh.clean.trans hc) rfl
      exact ⟨_, _, _, _, hh.trans hh', he⟩

theorem done_of_left {σ : Spec} (h : σ.left = 0) {c : Nat} (hc : c < σ.acc) : σ.st c = .done := by
  unfold Spec.left at h
  rw [List.length_eq_zero_iff, List.filter_eq_nil_iff] at h
  simpa using h c (List.mem_range.mpr hc)

/-- With nothing left to do and the pool closed, a worker can leave. -/
theorem help_exit {s : State} {σ : Spec} (h : R n lo s σ) (hu : s.phase = .up) (hc : σ.clean = true) (hcl : s.closed = true) (hl : σ.left = 0) {w : Nat}
    (hw : w < n) : ∃ ls s', Helped n s σ ls s' [] σ ∧ s'.loop w = .exited ∧ ∀ v, s.loop v = .exited → s'.loop v = .exited := by
  have hdone : ∀ c, c < s.next → σ.st c = .done := fun c hc => done_of_left hl (h.acc ▸ hc)
  have hnil : s.stk w = [] := by
    cases hs : s.stk w with
    | nil => rfl
    | cons f rest =>
      obtain ⟨c, b⟩ := f
      have hm : (⟨c, b⟩ : Frame) ∈ s.stk w := by rw [hs]; exact List.mem_cons_self ..
      have hlt := h.f.lt w _ hm
      have hlo := h.f.lo_le
      have hd := hdone c (by simp only at hlt; omega)
      cases b with
      | true => rw [(h.f.run c w).mpr hm] at hd; cases hd
      | false => rw [(h.f.wait c).mpr (.inr ⟨w, hm⟩)] at hd; cases hd
  have hq : s.q = [] := by
    have hq := h.f.q
    have hlo := h.f.lo_le
    by_cases e : lo = s.next
    · rw [hq, e]; simp
    · have := hdone lo (by omega)
      rw [(h.f.wait lo).mpr (.inl (Nat.le_refl _))] at this
      cases this
  have leave : ∀ {lo : Nat} {s : State}, R n lo s σ → s.phase = .up → s.stk w = [] → s.q = [] → s.closed = true → s.loop w = .loop →
      ∃ ls s', Helped n s σ ls s' [] σ ∧ s'.loop w = .exited ∧ ∀ v, s.loop v = .exited → s'.loop v = .exited := by
    intro lo s h hu hnil hq hcl hlp
    refine ⟨_, _, help_work h hu (w := w) (s' := { s with loop := upd s.loop w .exited }) (by simp [work, hw, hnil, hlp, hq, hcl]) rfl rfl hu, ?_, ?_⟩ <;>
      simp only [upd_apply] <;> grind
  have hcw := h.clean hc w hw
  cases hlp : s.loop w with
  | unborn => exact absurd hlp ((h.up hu).2 w hw)
  | exited => exact ⟨_, _, Helped.refl h hu, hlp, fun _ h => h⟩
  | loop => exact leave h hu hnil hq hcl hlp
  | blocked =>
    have hh := help_work h hu (w := w) (s' := { s with loop := upd s.loop w .loop }) (by simp [work, hw, hnil, hlp, hcw.1]) rfl rfl hu
    obtain ⟨lo', h'⟩ := hh.rel
    obtain ⟨ls', s'', hh', h1, h2⟩ := leave h' hh.up hnil hq hcl (by simp [upd_apply])
    refine ⟨_, _, hh.trans hh', h1, fun v hv => h2 v ?_⟩
    simp only [upd_apply]
    split
    · subst v; rw [hlp] at hv; cases hv
    · exact hv

theorem help_exits {s : State} {σ : Spec} (h : R n lo s σ) (hu : s.phase = .up) (hc : σ.clean = true) (hcl : s.closed = true) (hl : σ.left = 0) (k : Nat)
    (hk : k ≤ n) : ∃ ls s', Helped n s σ ls s' [] σ ∧ ∀ w, w < k → s'.loop w = .exited := by
  induction k with
  | zero => exact ⟨_, _, Helped.refl h hu, by simp⟩
  | succ k ih =>
    obtain ⟨ls, s', hh, he⟩ := ih (by omega)
    obtain ⟨lo', h'⟩ := hh.rel
    obtain ⟨ls', s'', hh', h1, h2⟩ := help_exit h' hh.up hc (hh.closed.trans hcl) hl (w := k) (by omega)
    refine ⟨_, _, hh.trans hh', fun w hw => ?_⟩
    rcases Nat.lt_succ_iff_lt_or_eq.mp hw with e | e
    · exact h2 w (he w e)
    · exact e ▸ h1

/-- Once the workers have left, `join` can run to its end. -/
theorem go_join {s : State} (hu : s.phase = .up) (he : ∀ w, w < n → s.loop w = .exited) {t i : Nat} (hop : s.op t = .join i) (hi : i ≤ n) :
    ∃ ls s', (∀ l ∈ ls, l = .go t) ∧ run (step n) s ls = some (s', [.joinReturned t]) := by
  induction hk : n - i generalizing s i with
  | zero =>
    exact ⟨[.go t], _, by simp, by simp [Verif.run, step, hu, go, hop, show ¬ i < n by omega]; rfl⟩
  | succ k ih =>
    obtain ⟨ls, s', h1, h2⟩ := ih (s := { s with op := upd s.op t (.join (i + 1)) }) (i := i + 1) hu he (by simp [upd_apply]) (by omega) (by omega)
    refine ⟨.go t :: ls, s', by simpa using h1, ?_⟩
    have hst : step n s (.go t) = some ({ s with op := upd s.op t (.join (i + 1)) }, []) := by
      simp [step, hu, go, hop, show i < n by omega, he i (by omega)]
    exact run_step hst h2

end Verif.ThreadPool
