import Verif.TickCount.Spec
/-! # The emulation refines the clock -/

set_option linter.unusedSimpArgs false

namespace Verif.TickCount

theorem combine_exact {old off rd now : Nat} (h1 : off + old = rd) (h2 : off % W = 0) (h3 : rd ≤ now) (h4 : now < rd + W) : off + combine old (now % W) = now := by
  unfold combine
  simp only [W] at *
  split <;> omega

/-- The registration. -/
structure Reg (s : State) : Prop where
  inst : s.installed = true → s.busy = true
  reg : ∀ t, s.pc t = .register → s.busy = true ∧ s.installed = false
  uniq : ∀ t u, s.pc t = .register → s.pc u = .register → t = u

/-- The times. -/
structure Tm (c : Cfg) (s : State) : Prop where
  called : s.called = false → s.ticks = 0 ∧ (∀ t, s.pc t = .out) ∧ s.installed = false
  out : ∀ t, c.n + 1 ≤ t → s.pc t = .out
  wi : s.warm = true → s.installed = true
  off : s.off % W = 0
  val : s.called = true → s.off + s.ticks = s.rd ∧ s.rd ≤ s.now ∧ s.off ≤ s.rd
  old : ∀ t o r, s.pc t = .read o r → s.off + o = r ∧ r ≤ s.now ∧ s.off ≤ r
  new : ∀ t v r, s.pc t = .store v r → s.off + v = r ∧ r ≤ s.now ∧ s.beg t ≤ r
  act : ∀ t, s.pc t ≠ .out → s.beg t ≤ s.now ∧ s.now ≤ s.beg t + c.D ∧ s.called = true
  coldw : ∀ t, s.pc t ≠ .out → s.cold t = false → s.warm = true
  cold : s.called = true → (s.warm = false ∨ ∃ t, s.pc t ≠ .out ∧ s.cold t = true) → s.now < s.off + W
  lastB : s.installed = true → s.lastB ≤ s.now ∧ s.now ≤ s.lastB + c.P
  warm : s.warm = true → s.st ≤ s.now ∧ s.st ≤ s.rd + c.D ∧ (s.pc 0 = .out → s.lastB ≤ s.st) ∧ (s.pc 0 ≠ .out → s.lastB ≤ s.st + c.P)
  refr : s.pc 0 ≠ .out → s.installed = true ∧ s.lastB = s.beg 0
  ld : ∀ t o r, s.pc t = .read o r → s.cold t = false → s.beg t ≤ r + c.P + 2 * c.D

structure R (c : Cfg) (s : State) (σ : Spec) : Prop where
  off : σ.off = if s.called then some s.off else none
  beg : ∀ t, σ.beg t = if s.pc t = .out then none else some (s.beg t)
  clock : σ.clock ≤ s.now
  registered : σ.registered = s.installed
  g : Reg s
  m : Tm c s

variable {c : Cfg} {s s' : State} {σ : Spec} {t : Nat}

theorem Reg.step (h : Reg s) {l : Label} {es : List Event} (hs : step c s l = some (s', es)) : Reg s' := by
  obtain ⟨h1, h2, h3⟩ := h
  cases l with
  | advance k => simp only [TickCount.step] at hs; split at hs <;> cases hs; exact ⟨h1, h2, h3⟩
  | call t =>
    simp only [TickCount.step] at hs
    split at hs <;> cases hs
    refine ⟨h1, fun u hu => ?_, fun u v hu hv => ?_⟩
    · simp only [call, upd_apply] at hu ⊢
      split at hu
      · split at hu <;> cases hu
      · exact h2 u hu
    · simp only [call, upd_apply] at hu hv
      split at hu
      · split at hu <;> cases hu
      · split at hv
        · split at hv <;> cases hv
        · exact h3 u v hu hv
  | go t =>
    simp only [TickCount.step] at hs
    split at hs
    rotate_left
    · cases hs
    unfold go at hs
    cases hp : s.pc t with
    | out => simp only [hp] at hs; cases hs
    | register => simp only [hp] at hs; cases hs
    | init =>
      simp only [hp] at hs
      split at hs
      · cases hs
        refine ⟨h1, fun u hu => ?_, fun u v hu hv => ?_⟩ <;> grind
      · rename_i hb
        cases hs
        refine ⟨fun _ => rfl, fun u hu => ?_, fun u v hu hv => ?_⟩ <;> grind
    | load => simp only [hp] at hs; cases hs; refine ⟨h1, fun u hu => ?_, fun u v hu hv => ?_⟩ <;> grind
    | read o r => simp only [hp] at hs; cases hs; refine ⟨h1, fun u hu => ?_, fun u v hu hv => ?_⟩ <;> grind
    | store v r => simp only [hp] at hs; cases hs; refine ⟨h1, fun u hu => ?_, fun u v hu hv => ?_⟩ <;> grind
  | regOk t =>
    simp only [TickCount.step] at hs
    split at hs <;> cases hs
    refine ⟨fun _ => ?_, fun u hu => ?_, fun u v hu hv => ?_⟩ <;> grind
  | regFail t =>
    simp only [TickCount.step] at hs
    split at hs <;> cases hs
    refine ⟨fun hi => ?_, fun u hu => ?_, fun u v hu hv => ?_⟩ <;> grind

/-- How old the stored value can be. -/
theorem Tm.age (h : Tm c s) (hw : s.warm = true) : s.now ≤ s.rd + c.P + 2 * c.D := by
  have h1 := h.warm hw
  have h2 := h.lastB (h.wi hw)
  by_cases hp : s.pc 0 = .out
  · have := h1.2.2.1 hp; omega
  · have := h1.2.2.2 hp
    have h3 := h.act 0 hp
    have h4 := h.refr hp
    omega

/-- Reading the clock. -/
theorem Tm.exact (h : Tm c s) (hP : c.P + 3 * c.D < W) {o r : Nat} (hp : s.pc t = .read o r) : s.off + combine o (getTickCount s) = s.now := by
  have h1 := h.old t o r hp
  have hne : s.pc t ≠ .out := by rw [hp]; simp
  have h2 := h.act t hne
  refine combine_exact h1.1 h.off h1.2.1 ?_
  cases hc : s.cold t with
  | true => have := h.cold h2.2.2 (.inr ⟨t, hne, hc⟩); omega
  | false => have := h.ld t o r hp hc; omega

theorem Tm.advance (h : Tm c s) {k : Nat} (hk : timely c s k) : Tm c { s with now := s.now + k } := by
  obtain ⟨k1, k2, k3⟩ := hk
  have lt : ∀ t, s.pc t ≠ .out → t < c.n + 1 := fun t ht => Nat.lt_of_not_le fun hn => ht (h.out t hn)
  exact {
    called := h.called
    out := h.out
    wi := h.wi
    off := h.off
    val := fun hc => by have := h.val hc; simp only; omega
    old := fun t o r hp => by have := h.old t o r hp; simp only; omega
    new := fun t o r hp => by have := h.new t o r hp; simp only; omega
    act := fun t ht => by have := h.act t ht; have := k1 t (lt t ht) ht; simp only; exact ⟨by omega, by omega, (h.act t ht).2.2⟩
    coldw := h.coldw
    cold := fun hc hor => by
      refine k3 hc (hor.imp id fun ⟨t, ht, hcd⟩ => ⟨t, lt t ht, ht, hcd⟩)
    lastB := fun hi => by have := h.lastB hi; have := k2 hi; simp only; omega
    warm := fun hw => by have := h.warm hw; refine ⟨by simp only; omega, this.2⟩
    refr := h.refr
    ld := h.ld }

theorem Tm.call (h : Tm c s) (ht : t < c.n + 1) (hp : s.pc t = .out) (h0 : t = 0 → s.installed = true) : Tm c (call s t) := by
  have hoff : (TickCount.call s t).off % W = 0 := by
    simp only [TickCount.call]
    split
    · exact h.off
    · exact Nat.mul_mod_left _ _
  have hnc : s.called = false → s.warm = false := fun hc => by
    cases hw : s.warm with
    | false => rfl
    | true => have := h.wi hw; rw [(h.called hc).2.2] at this; cases this
  have hpc : ∀ u, u ≠ t → (TickCount.call s t).pc u = s.pc u := fun u hu => by simp only [TickCount.call, upd_apply, if_neg hu]
  have hpt : (TickCount.call s t).pc t = .load ∨ (TickCount.call s t).pc t = .init := by simp only [TickCount.call, upd_apply, ↓reduceIte]; split <;> simp
  have hca : ∀ u, s.pc u ≠ .out → s.called = true := fun u hu => (h.act u hu).2.2
  have hoc : s.called = true → (TickCount.call s t).off = s.off ∧ (TickCount.call s t).rd = s.rd := fun hc => by simp [TickCount.call, hc]
  have hdiv : s.now / W * W ≤ s.now ∧ s.now < s.now / W * W + W := by simp only [W]; omega
  refine ⟨?_, ?_, ?_, hoff, ?_, ?_, ?_, ?_, ?_, ?_, ?_, ?_, ?_, ?_⟩
  · intro hc; cases hc
  · intro u hu; rw [hpc u (by omega)]; exact h.out u hu
  · exact h.wi
  · intro _
    cases hc : s.called with
    | true => rw [(hoc hc).1, (hoc hc).2]; exact h.val hc
    | false =>
      have := (h.called hc).1
      simp only [TickCount.call, hc, Bool.false_eq_true, ↓reduceIte, this]
      omega
  · intro u o r hu
    by_cases hut : u = t
    · subst hut; rcases hpt with h1 | h1 <;> rw [h1] at hu <;> cases hu
    · rw [hpc u hut] at hu
      rw [(hoc (hca u (by rw [hu]; simp))).1]
      exact h.old u o r hu
  · intro u o r hu
    by_cases hut : u = t
    · subst hut; rcases hpt with h1 | h1 <;> rw [h1] at hu <;> cases hu
    · rw [hpc u hut] at hu
      rw [(hoc (hca u (by rw [hu]; simp))).1]
      have := h.new u o r hu
      simp only [TickCount.call, upd_apply, if_neg hut]
      exact this
  · intro u hu
    simp only [TickCount.call, upd_apply] at hu ⊢
    split
    · exact ⟨Nat.le_refl _, by omega, trivial⟩
    · rename_i hut
      rw [if_neg hut] at hu
      have := h.act u hu
      exact ⟨this.1, this.2.1, trivial⟩
  · intro u hu hc
    simp only [TickCount.call, upd_apply] at hu hc ⊢
    split at hc
    · simpa using hc
    · rename_i hut
      rw [if_neg hut] at hu
      exact h.coldw u hu hc
  · intro _ hor
    show s.now < _
    cases hc : s.called with
    | false => simp only [TickCount.call, hc, Bool.false_eq_true, ↓reduceIte]; exact hdiv.2
    | true =>
      rw [(hoc hc).1]
      refine h.cold hc ?_
      rcases hor with hw | ⟨u, hu, hcd⟩
      · exact .inl hw
      · simp only [TickCount.call, upd_apply] at hu hcd
        split at hcd
        · left; simpa using hcd
        · rename_i hut
          rw [if_neg hut] at hu
          exact .inr ⟨u, hu, hcd⟩
  · intro hi
    have := h.lastB hi
    simp only [TickCount.call]
    split <;> omega
  · intro hw
    have hw' : s.warm = true := hw
    have hc : s.called = true := by cases hc : s.called with
      | true => rfl
      | false => rw [hnc hc] at hw'; cases hw'
    have h1 := h.warm hw'
    have h2 := h.lastB (h.wi hw')
    rw [(hoc hc).2]
    refine ⟨h1.1, h1.2.1, fun hz => ?_, fun hz => ?_⟩
    · simp only [TickCount.call, upd_apply] at hz ⊢
      split at hz
      · rename_i he; split at hz <;> cases hz
      · rename_i he; rw [if_neg (fun e => he e.symm)]; exact h1.2.2.1 hz
    · simp only [TickCount.call, upd_apply] at hz ⊢
      split at hz
      · rename_i he
        rw [if_pos he.symm]
        have := h1.2.2.1 (he ▸ hp)
        omega
      · rename_i he; rw [if_neg (fun e => he e.symm)]; exact h1.2.2.2 hz
  · intro hz
    simp only [TickCount.call, upd_apply] at hz ⊢
    split at hz
    · rename_i he
      rw [if_pos he.symm, if_pos he]
      exact ⟨h0 he.symm, rfl⟩
    · rename_i he
      rw [if_neg (fun e => he e.symm), if_neg he]
      exact h.refr hz
  · intro u o r hu hcd
    by_cases hut : u = t
    · subst hut; rcases hpt with h1 | h1 <;> rw [h1] at hu <;> cases hu
    · rw [hpc u hut] at hu
      simp only [TickCount.call, upd_apply, if_neg hut] at hcd ⊢
      exact h.ld u o r hu hcd

/-- Another place in the same call. -/
theorem Tm.place (h : Tm c s) {q : PC} {b i : Bool} {l : Nat} (hp : s.pc t ≠ .out) (hq : q ≠ .out) (hi : s.installed = true → i = true ∧ l = s.lastB) (hi' : s.installed = false → i = true → l = s.now)
    (hold : ∀ o r, q = .read o r → s.off + o = r ∧ r ≤ s.now ∧ s.off ≤ r ∧ (s.cold t = false → s.beg t ≤ r + c.P + 2 * c.D))
    (hnew : ∀ o r, q = .store o r → s.off + o = r ∧ r ≤ s.now ∧ s.beg t ≤ r) : Tm c { s with pc := upd s.pc t q, busy := b, installed := i, lastB := l } := by
  have hout : ∀ u, upd s.pc t q u = .out ↔ s.pc u = .out := fun u => by
    simp only [upd_apply]
    split
    · rename_i he; subst he; simp [hp, hq]
    · exact Iff.rfl
  have hcl := (h.act t hp).2.2
  exact {
    called := fun hc => by rw [hcl] at hc; cases hc
    out := fun u hu => (hout u).mpr (h.out u hu)
    wi := fun hw => (hi (h.wi hw)).1
    off := h.off
    val := h.val
    old := fun u o r hu => by
      simp only [upd_apply] at hu
      split at hu
      · have := hold o r hu; exact ⟨this.1, this.2.1, this.2.2.1⟩
      · exact h.old u o r hu
    new := fun u o r hu => by
      simp only [upd_apply] at hu
      split at hu
      · rename_i he; subst he; exact hnew o r hu
      · exact h.new u o r hu
    act := fun u hu => h.act u fun e => hu ((hout u).mpr e)
    coldw := fun u hu => h.coldw u fun e => hu ((hout u).mpr e)
    cold := fun hc hor => h.cold hc (hor.imp id fun ⟨u, hu, hcd⟩ => ⟨u, fun e => hu ((hout u).mpr e), hcd⟩)
    lastB := fun hii => by
      cases hx : s.installed with
      | true => have := h.lastB hx; have := (hi hx).2; simp only; omega
      | false => have := hi' hx hii; simp only; omega
    warm := fun hw => by
      have h1 := h.warm hw
      have h2 := (hi (h.wi hw)).2
      refine ⟨h1.1, h1.2.1, fun hz => ?_, fun hz => ?_⟩
      · show l ≤ s.st; rw [h2]; exact h1.2.2.1 ((hout 0).mp hz)
      · show l ≤ s.st + c.P; rw [h2]; exact h1.2.2.2 fun e => hz ((hout 0).mpr e)
    refr := fun hz => by
      have := h.refr fun e => hz ((hout 0).mpr e)
      exact ⟨(hi this.1).1, (hi this.1).2.trans this.2⟩
    ld := fun u o r hu hcd => by
      simp only [upd_apply] at hu
      split at hu
      · rename_i he; subst he; exact (hold o r hu).2.2.2 hcd
      · exact h.ld u o r hu hcd }

/-- The end of a call. -/
theorem Tm.store (h : Tm c s) {v r : Nat} (hp : s.pc t = .store v r) : Tm c { s with ticks := v, rd := r, st := s.now, warm := s.warm || s.installed, pc := upd s.pc t .out } := by
  have hne : s.pc t ≠ .out := by rw [hp]; simp
  have hv := h.new t v r hp
  have ha := h.act t hne
  have hpc : ∀ u, upd s.pc t .out u ≠ .out → s.pc u ≠ .out := fun u hu => by
    simp only [upd_apply] at hu
    split at hu
    · exact absurd rfl hu
    · exact hu
  have hof : s.off ≤ r := by omega
  exact {
    called := fun hc => by rw [ha.2.2] at hc; cases hc
    out := fun u hu => by simp only [upd_apply]; split; · rfl
                          · exact h.out u hu
    wi := fun hw => by
      simp only [Bool.or_eq_true] at hw
      exact hw.elim h.wi id
    off := h.off
    val := fun _ => ⟨hv.1, hv.2.1, hof⟩
    old := fun u o r' hu => by
      simp only [upd_apply] at hu
      split at hu
      · cases hu
      · exact h.old u o r' hu
    new := fun u o r' hu => by
      simp only [upd_apply] at hu
      split at hu
      · cases hu
      · exact h.new u o r' hu
    act := fun u hu => h.act u (hpc u hu)
    coldw := fun u hu hc => by simp only [h.coldw u (hpc u hu) hc, Bool.true_or]
    cold := fun hc hor => by
      refine h.cold hc ?_
      rcases hor with hw | ⟨u, hu, hcd⟩
      · simp only [Bool.or_eq_false_iff] at hw; exact .inl hw.1
      · exact .inr ⟨u, hpc u hu, hcd⟩
    lastB := h.lastB
    warm := fun hw => by
      simp only [Bool.or_eq_true] at hw
      have hi : s.installed = true := hw.elim h.wi id
      have := h.lastB hi
      simp only
      exact ⟨Nat.le_refl _, by omega, fun _ => this.1, fun _ => by omega⟩
    refr := fun hz => h.refr (hpc 0 hz)
    ld := fun u o r' hu => by
      simp only [upd_apply] at hu
      split at hu
      · cases hu
      · exact h.ld u o r' hu }

theorem sim (hT : c.timed = true) (hP : c.P + 3 * c.D < W) (h : R c s σ) {l : Label} {es : List Event} (hs : step c s l = some (s', es)) : Follows next (R c s') σ es := by
  have hg := h.g.step hs
  -- a step inside a call
  have inside : ∀ {t : Nat} {q : PC} {b : Bool}, s.pc t ≠ .out → q ≠ .out → s' = { s with pc := upd s.pc t q, busy := b } →
      (∀ o r, q = .read o r → s.off + o = r ∧ r ≤ s.now ∧ s.off ≤ r ∧ (s.cold t = false → s.beg t ≤ r + c.P + 2 * c.D)) →
      (∀ o r, q = .store o r → s.off + o = r ∧ r ≤ s.now ∧ s.beg t ≤ r) → R c s' σ := by
    intro t q b hp hq he ho hn
    subst he
    refine ⟨h.off, fun u => ?_, h.clock, h.registered, hg, h.m.place (i := s.installed) (l := s.lastB) hp hq (fun h => ⟨h, rfl⟩) (fun h1 h2 => by rw [h1] at h2; cases h2) ho hn⟩
    rw [h.beg u]
    simp only [upd_apply]
    by_cases hu : u = t
    · subst hu; simp [hp, hq]
    · simp [hu]
  cases l with
  | advance k =>
    simp only [step] at hs
    split at hs <;> cases hs
    rename_i hk
    exact ⟨h.off, h.beg, Nat.le_trans h.clock (Nat.le_add_right _ _), h.registered, hg, h.m.advance (hk hT)⟩
  | call t =>
    simp only [step] at hs
    split at hs <;> cases hs
    rename_i hc
    obtain ⟨ht, hp, h0⟩ := hc
    have hb : σ.beg t = none := by rw [h.beg t, if_pos hp]
    simp only [Follows, next]
    rw [if_pos ⟨hb, h.clock⟩]
    refine ⟨?_, fun u => ?_, Nat.le_refl _, h.registered, hg, h.m.call ht hp h0⟩
    · simp only [call, h.off]
      cases s.called <;> simp
    · simp only [call, upd_apply]
      split
      · rename_i he
        have : (if s.installed = true then PC.load else PC.init) ≠ .out := by split <;> simp
        rw [if_neg this]
      · exact h.beg u
  | go t =>
    simp only [step] at hs
    split at hs
    rotate_left
    · cases hs
    unfold go at hs
    cases hp : s.pc t with
    | out => simp only [hp] at hs; cases hs
    | register => simp only [hp] at hs; cases hs
    | init =>
      simp only [hp] at hs
      split at hs <;> cases hs
      · exact inside (b := s.busy) (by rw [hp]; simp) (q := .load) (by simp) rfl (by simp) (by simp)
      · exact inside (b := true) (by rw [hp]; simp) (q := .register) (by simp) rfl (by simp) (by simp)
    | load =>
      simp only [hp] at hs
      cases hs
      have hne : s.pc t ≠ .out := by rw [hp]; simp
      have ha := h.m.act t hne
      refine inside (b := s.busy) (q := .read s.ticks s.rd) hne (by simp) rfl (fun o r he => ?_) (by simp)
      cases he
      have := h.m.val ha.2.2
      refine ⟨this.1, this.2.1, this.2.2, fun hc => ?_⟩
      have := h.m.age (h.m.coldw t hne hc)
      omega
    | read o r =>
      simp only [hp] at hs
      cases hs
      have hne : s.pc t ≠ .out := by rw [hp]; simp
      have ha := h.m.act t hne
      refine inside (b := s.busy) (q := .store _ _) hne (by simp) rfl (by simp) fun o' r' he => ?_
      cases he
      exact ⟨h.m.exact hP hp, Nat.le_refl _, ha.1⟩
    | store v r =>
      simp only [hp] at hs
      cases hs
      have hne : s.pc t ≠ .out := by rw [hp]; simp
      have hv := h.m.new t v r hp
      have ha := h.m.act t hne
      have hb : σ.beg t = some (s.beg t) := by rw [h.beg t, if_neg hne]
      have ho : σ.off = some s.off := by rw [h.off, ha.2.2]; rfl
      simp only [Follows, next, ho, hb]
      rw [if_pos ⟨by omega, by omega, h.clock⟩]
      refine ⟨by rw [ha.2.2]; simp [ho], fun u => ?_, Nat.le_refl _, h.registered, hg, h.m.store hp⟩
      simp only [upd_apply]
      split
      · simp
      · exact h.beg u
  | regOk t =>
    simp only [step] at hs
    split at hs <;> cases hs
    rename_i hc
    have hi := (h.g.reg t hc.2).2
    have hr : σ.registered = false := by rw [h.registered, hi]
    have hne : s.pc t ≠ .out := by rw [hc.2]; simp
    simp only [Follows, next, hr, Bool.false_eq_true, ↓reduceIte]
    refine ⟨h.off, fun u => ?_, h.clock, rfl, hg, h.m.place (b := s.busy) (i := true) (l := s.now) (q := .load) hne (by simp) (fun h1 => by rw [hi] at h1; cases h1) (fun _ _ => rfl) (by simp) (by simp)⟩
    rw [h.beg u]
    simp only [upd_apply]
    by_cases hu : u = t
    · subst hu; simp [hne]
    · simp [hu]
  | regFail t =>
    simp only [step] at hs
    split at hs <;> cases hs
    rename_i hc
    exact inside (b := false) (by rw [hc.2]; simp) (q := .load) (by simp) rfl (by simp) (by simp)

theorem R.init (start : Nat) : R c (init start) {} where
  off := rfl
  beg _ := rfl
  clock := Nat.zero_le _
  registered := rfl
  g := ⟨by simp [TickCount.init], by simp [TickCount.init], by simp [TickCount.init]⟩
  m := {
    called := fun _ => ⟨rfl, fun _ => rfl, rfl⟩
    out := fun _ _ => rfl
    wi := fun h => by cases h
    off := rfl
    val := fun h => by cases h
    old := fun _ _ _ h => by cases h
    new := fun _ _ _ h => by cases h
    act := fun _ h => absurd rfl h
    coldw := fun _ h => absurd rfl h
    cold := fun h => by cases h
    lastB := fun h => by cases h
    warm := fun h => by cases h
    refr := fun h => absurd rfl h
    ld := fun _ _ _ h => by cases h }

end Verif.TickCount
