import Verif.FutureHandle.Model
/-!
# Futures: the simulation relation
-/

set_option linter.unusedSimpArgs false

namespace Verif.FutureHandle

attribute [grind =] upd_apply
attribute [grind] Ref.target
attribute [grind cases] Ref

def PC.on : PC → Option (Nat × Op)
  | .idle => none
  | .waiting h op _ => some (h, op)
  | .orCheck h d _ | .orGet h d _ => some (h, .getOr d)

/-- A shared state and what the specification knows of it. -/
def CellRel (ty : Ty) (x : SS) (y : Cell) : Prop :=
  match y.out with
  | none => x.done = false ∧ x.exception = none ∧ x.result = .null ∧ y.taken = false
  | some (.value v) => x.done = true ∧ x.exception = none ∧
    x.result = (match ty with | .void => .null | .ref => .val v | .object => if y.taken then .moved else .val v)
  | some (.exn e) => x.done = true ∧ x.exception = e ∧ e ≠ none

structure R (c : Cfg) (s : State) (σ : Spec) : Prop where
  ptr : ∀ h, s.ptr h = (σ.ref h).target
  cell : ∀ k, CellRel c.ty (s.st k) (σ.cell k)
  given : ∀ k, (s.st k).obtained = (σ.cell k).given
  fresh : ∀ h k, (σ.ref h).target = some k → (σ.cell k).given = true
  freshValid : ∀ k, (σ.cell k).given = false → (s.st k).isValid = true
  lt : ∀ h k, (σ.ref h).target = some k → h < c.handles
  uniq : ∀ h h' k, c.shared h = false → (σ.ref h).target = some k → (σ.ref h').target = some k → h' = h
  spent : ∀ h k, σ.ref h = .spent k → c.shared h = false ∧ (s.st k).isValid = false
  valid : ∀ h k, σ.ref h = .ref k → (s.st k).isValid = true ∨ ∃ t, s.pc t = .waiting h .get k ∧ c.shared h = false
  busy : ∀ t h op, (t, h, op) ∈ σ.busy ↔ (s.pc t).on = some (h, op)
  excl : ∀ t t' h op op', (t, h, op) ∈ σ.busy → (t', h, op') ∈ σ.busy → op.consumes c h = true → t = t'
  pcw : ∀ t h op k, s.pc t = .waiting h op k → (σ.ref h).target = some k ∧ (op.consumes c h = true → σ.ref h = .ref k) ∧ op.hasForm c.ty = true ∧
    (op = .get → c.shared h = false → c.invalidates = true → (s.st k).isValid = false)
  pco : ∀ t h d k, s.pc t = .orCheck h d k ∨ s.pc t = .orGet h d k → c.shared h = true ∧ σ.ref h = .ref k ∧ c.ty = .object ∧ ∃ v, (σ.cell k).out = some (.value v)
  always : c.invalidates = false → ∀ k, (s.st k).isValid = true

variable {c : Cfg} {s : State} {σ : Spec}

theorem R_init (c : Cfg) : R c init {} := by
  constructor <;> simp [init, CellRel, Ref.target, PC.on]

theorem quiet_iff {h : Nat} : σ.quiet h = true ↔ ∀ t op, (t, h, op) ∉ σ.busy := by
  simp only [Spec.quiet, List.all_eq_true, bne_iff_ne]
  constructor
  · intro H t op hm; exact H _ hm rfl
  · rintro H ⟨t, h', op⟩ hm rfl; exact H t op hm

theorem readable_iff {h : Nat} : σ.readable c h = true ↔ ∀ t op, (t, h, op) ∈ σ.busy → op.consumes c h = false := by
  simp only [Spec.readable, List.all_eq_true, Bool.or_eq_true, bne_iff_ne, Bool.not_eq_true']
  constructor
  · intro H t op hm; exact (H _ hm).resolve_left (by simp)
  · rintro H ⟨t, h', op⟩ hm
    by_cases e : h' = h
    · subst e; exact .inr (H t op hm)
    · exact .inl e

theorem R.quiet (h : R c s σ) {x : Nat} (hq : σ.quiet x = true) : ∀ t op, (s.pc t).on ≠ some (x, op) := by
  intro t op hp
  exact quiet_iff.1 hq t op ((h.busy t x op).2 hp)

theorem R.busy_congr (h : R c s σ) {b : List (Nat × Nat × Op)} (hb : ∀ x, x ∈ b ↔ x ∈ σ.busy) : R c s { σ with busy := b } := by
  obtain ⟨a1, a2, a3, a4, a5, a6, a7, a8, a9, a10, a11, a12, a13, a14⟩ := h
  exact ⟨a1, a2, a3, a4, a5, a6, a7, a8, a9, fun t h op => (hb _).trans (a10 t h op), fun t t' h op op' h1 h2 => a11 t t' h op op' ((hb _).1 h1) ((hb _).1 h2), a12, a13, a14⟩

theorem mem_drop {b : List (Nat × Nat × Op)} {t : Nat} {x : Nat × Nat × Op} : x ∈ b.filter (fun y => y.1 != t) ↔ x ∈ b ∧ x.1 ≠ t := by
  simp

/-- The handles change, nothing is in progress on those that do. -/
theorem R.setRef (h : R c s σ) {p : Nat → Option Nat} {r : Nat → Ref} (hp : ∀ x, p x = (r x).target)
    (hb : ∀ x, r x ≠ σ.ref x → σ.quiet x = true)
    (h1 : ∀ x k, (r x).target = some k → (σ.cell k).given = true) (h2 : ∀ x k, (r x).target = some k → x < c.handles)
    (h3 : ∀ x x' k, c.shared x = false → (r x).target = some k → (r x').target = some k → x' = x)
    (h4 : ∀ x k, r x = .spent k → c.shared x = false ∧ (s.st k).isValid = false)
    (h5 : ∀ x k, r x = .ref k → r x ≠ σ.ref x → (s.st k).isValid = true) : R c { s with ptr := p } { σ with ref := r } := by
  obtain ⟨a1, a2, a3, a4, a5, a6, a7, a8, a9, a10, a11, a12, a13, a14⟩ := h
  have hb' : ∀ x t op, (s.pc t).on = some (x, op) → r x = σ.ref x := by
    intro x t op hq
    by_cases e : r x = σ.ref x
    · exact e
    · exact absurd ((a10 t x op).2 hq) (quiet_iff.1 (hb x e) t op)
  refine ⟨hp, a2, a3, h1, a5, h2, h3, h4, fun x k hk => ?_, a10, a11, fun t x op k hq => ?_, fun t x d k hq => ?_, a14⟩
  · by_cases e : r x = σ.ref x
    · exact a9 x k (e ▸ hk)
    · exact .inl (h5 x k hk e)
  · have hq : s.pc t = _ := hq
    have := hb' x t op (by simp [hq, PC.on])
    simp only at this ⊢
    rw [this]; exact a12 t x op k hq
  · have hq : s.pc t = _ ∨ s.pc t = _ := hq
    have := hb' x t (.getOr d) (by rcases hq with hq | hq <;> simp [hq, PC.on])
    simp only at this ⊢
    rw [this]; exact a13 t x d k hq

theorem R.idle (h : R c s σ) {t : Nat} (hp : s.pc t = .idle) : ∀ x ∈ σ.busy, x.1 ≠ t := by
  rintro ⟨t', h', op⟩ hm rfl
  rw [h.busy] at hm
  simp [hp, PC.on] at hm

/-- A call begins. -/
theorem R.enter (h : R c s σ) {t x k : Nat} {op : Op} (hi : s.pc t = .idle) (hp : (σ.ref x).target = some k) (hf : op.hasForm c.ty = true)
    (hq : (if op.consumes c x then σ.quiet x else σ.readable c x) = true) (hv : op.consumes c x = true → σ.ref x = .ref k) {y : SS}
    (hy : y = if op == .get && op.consumes c x && c.invalidates then { s.st k with isValid := false } else s.st k) :
    R c { s with st := upd s.st k y, pc := upd s.pc t (.waiting x op k) } { σ with busy := (t, x, op) :: σ.busy } := by
  have hid := h.idle hi
  have hon : ∀ t' op', (s.pc t').on = some (x, op') → op.consumes c x = false ∧ op'.consumes c x = false := by
    intro t' op' he
    have hm := (h.busy t' x op').2 he
    cases hc : op.consumes c x with
    | true => rw [hc] at hq; exact absurd hm (quiet_iff.1 hq t' op')
    | false => rw [hc] at hq; exact ⟨rfl, readable_iff.1 hq t' op' hm⟩
  obtain ⟨a1, a2, a3, a4, a5, a6, a7, a8, a9, a10, a11, a12, a13, a14⟩ := h
  have yo : y.obtained = (s.st k).obtained := by subst hy; split <;> rfl
  have yd : y.done = (s.st k).done := by subst hy; split <;> rfl
  have ye : y.exception = (s.st k).exception := by subst hy; split <;> rfl
  have yr : y.result = (s.st k).result := by subst hy; split <;> rfl
  have yc : ∀ z, CellRel c.ty y z ↔ CellRel c.ty (s.st k) z := by intro z; simp only [CellRel, yd, ye, yr]
  have yv : y.isValid = true → (s.st k).isValid = true := by subst hy; split <;> simp
  have yv' : (s.st k).isValid = true → y.isValid = true ∨ (op = .get ∧ op.consumes c x = true ∧ c.invalidates = true) := by
    subst hy; split
    · rename_i hb; simp only [Bool.and_eq_true, beq_iff_eq] at hb; intro; exact .inr ⟨hb.1.1, hb.1.2, hb.2⟩
    · intro h; exact .inl h
  have hg := a4 x k hp
  refine ⟨a1, ?_, ?_, a4, ?_, a6, a7, ?_, ?_, ?_, ?_, ?_, ?_, ?_⟩
  · intro k'; simp only [upd_apply]; split
    · rename_i e; subst e; exact (yc _).2 (a2 _)
    · exact a2 k'
  · intro k'; simp only [upd_apply]; split
    · rename_i e; subst e; rw [yo]; exact a3 _
    · exact a3 k'
  · intro k' hk'; simp only [upd_apply]; split
    · rename_i e; subst e; simp only at hk'; rw [hg] at hk'; cases hk'
    · exact a5 k' hk'
  · intro h' k' hk'
    refine ⟨(a8 h' k' hk').1, ?_⟩
    simp only [upd_apply]; split
    · rename_i e; subst e
      cases hv' : y.isValid with
      | false => rfl
      | true => have := yv hv'; rw [(a8 h' _ hk').2] at this; cases this
    · exact (a8 h' k' hk').2
  · intro h' k' hk'
    simp only [upd_apply]
    rcases a9 h' k' hk' with hv' | ⟨t', ht', hs'⟩
    · split
      · rename_i e; subst e
        rcases yv' hv' with h1 | ⟨h1, h2, h3⟩
        · exact .inl h1
        · refine .inr ⟨t, ?_⟩
          have hsx : c.shared x = false := by subst h1; simpa [Op.consumes] using h2
          have : h' = x := a7 x h' k' hsx hp (by simp only at hk'; rw [hk']; rfl)
          subst this h1
          simp [hsx]
      · exact .inl hv'
    · refine .inr ⟨t', ?_, hs'⟩
      rw [if_neg]
      · exact ht'
      · rintro rfl; rw [hi] at ht'; cases ht'
  · intro t' h' op'
    simp only [List.mem_cons, Prod.mk.injEq, upd_apply]
    by_cases e : t' = t
    · subst e
      simp only [true_and, if_true, PC.on, Option.some.injEq, Prod.mk.injEq]
      constructor
      · rintro (⟨rfl, rfl⟩ | hm)
        · exact ⟨rfl, rfl⟩
        · exact absurd rfl (hid _ hm)
      · rintro ⟨rfl, rfl⟩; exact .inl ⟨rfl, rfl⟩
    · simp only [e, false_and, false_or, if_false]; exact a10 t' h' op'
  · intro t1 t2 h' op1 op2 h1 h2 hc
    simp only [List.mem_cons, Prod.mk.injEq] at h1 h2
    rcases h1 with ⟨rfl, rfl, rfl⟩ | h1 <;> rcases h2 with ⟨e1, e2, e3⟩ | h2
    · exact e1.symm
    · have := (hon _ _ ((a10 _ _ _).1 h2)).1; rw [hc] at this; cases this
    · subst e2; have := (hon _ _ ((a10 _ _ _).1 h1)).2; rw [hc] at this; cases this
    · exact a11 _ _ _ _ _ h1 h2 hc
  · intro t' h' op' k' hw
    simp only [upd_apply] at hw ⊢
    split at hw
    · cases hw
      refine ⟨hp, hv, hf, ?_⟩
      rintro rfl hs hi
      simp [hy, Op.consumes, hs, hi]
    · obtain ⟨b1, b2, b3, b4⟩ := a12 t' h' op' k' hw
      refine ⟨b1, b2, b3, ?_⟩
      intro e1 e2 e3
      split
      · rename_i e; subst e
        cases hv' : y.isValid with
        | false => rfl
        | true => have := yv hv'; rw [b4 e1 e2 e3] at this; cases this
      · exact b4 e1 e2 e3
  · intro t' h' d k' hw
    simp only [upd_apply] at hw
    split at hw
    · rcases hw with hw | hw <;> cases hw
    · exact a13 t' h' d k' hw
  · intro hi k'
    simp only [upd_apply]; split
    · subst hy; simp [hi, a14 hi]
    · exact a14 hi k'

/-- A call that does not change the handle ends. -/
theorem R.leave (h : R c s σ) {t x : Nat} {op : Op} (ho : (s.pc t).on = some (x, op)) (hc : op = .get → c.shared x = true) :
    R c { s with pc := upd s.pc t .idle } { σ with busy := σ.busy.filter fun y => y.1 != t } := by
  obtain ⟨a1, a2, a3, a4, a5, a6, a7, a8, a9, a10, a11, a12, a13, a14⟩ := h
  refine ⟨a1, a2, a3, a4, a5, a6, a7, a8, ?_, ?_, ?_, ?_, ?_, a14⟩
  · intro h' k' hk'
    rcases a9 h' k' hk' with hv' | ⟨t', ht', hs'⟩
    · exact .inl hv'
    · refine .inr ⟨t', ?_, hs'⟩
      simp only [upd_apply]
      rw [if_neg]
      · exact ht'
      · rintro rfl
        simp only [ht', PC.on, Option.some.injEq, Prod.mk.injEq] at ho
        obtain ⟨rfl, rfl⟩ := ho
        rw [hc rfl] at hs'; cases hs'
  · intro t' h' op'
    simp only [mem_drop, upd_apply]
    by_cases e : t' = t
    · subst e; simp [PC.on]
    · simp only [e, ne_eq, not_false_eq_true, and_true, if_false]; exact a10 t' h' op'
  · intro t1 t2 h' op1 op2 h1 h2 hc
    simp only [mem_drop] at h1 h2
    exact a11 _ _ _ _ _ h1.1 h2.1 hc
  · intro t' h' op' k' hw
    simp only [upd_apply] at hw
    split at hw
    · cases hw
    · exact a12 t' h' op' k' hw
  · intro t' h' d k' hw
    simp only [upd_apply] at hw
    split at hw
    · rcases hw with hw | hw <;> cases hw
    · exact a13 t' h' d k' hw

/-- A call that takes the result ends. -/
theorem R.consume (h : R c s σ) {t x k : Nat} {op : Op} (ho : (s.pc t).on = some (x, op)) (hc : op.consumes c x = true) (hr : σ.ref x = .ref k) {y : SS} {z : Cell}
    (hy : y.obtained = (s.st k).obtained) (hv : y.isValid = !c.invalidates) (hz : z.given = (σ.cell k).given) (hzo : z.out = (σ.cell k).out) (hcell : CellRel c.ty y z) :
    R c { s with st := upd s.st k y, pc := upd s.pc t .idle }
      { cell := upd σ.cell k z, ref := if c.invalidates then upd σ.ref x (.spent k) else σ.ref, busy := σ.busy.filter fun y => y.1 != t } := by
  have hsx : c.shared x = false := by cases op <;> simp_all [Op.consumes]
  have hm := (h.busy t x op).2 ho
  obtain ⟨a1, a2, a3, a4, a5, a6, a7, a8, a9, a10, a11, a12, a13, a14⟩ := h
  have hx : (σ.ref x).target = some k := by rw [hr]; rfl
  have hg := a4 x k hx
  have htg : ∀ h', ((if c.invalidates then upd σ.ref x (.spent k) else σ.ref) h').target = (σ.ref h').target := by
    intro h'; split
    · simp only [upd_apply]; split
      · rename_i e; subst e; rw [hr]; rfl
      · rfl
    · rfl
  have hother : ∀ h' k', h' ≠ x → (σ.ref h').target = some k' → k' ≠ k := by
    rintro h' k' hne hk' rfl
    exact hne (a7 x h' k' hsx hx hk')
  have hpc : ∀ t' h' op', t' ≠ t → (s.pc t').on = some (h', op') → h' ≠ x := by
    rintro t' h' op' hne hon rfl
    exact hne (a11 t t' h' op op' hm ((a10 _ _ _).2 hon) hc).symm
  refine ⟨?_, ?_, ?_, ?_, ?_, ?_, ?_, ?_, ?_, ?_, ?_, ?_, ?_, ?_⟩
  · intro h'; simp only [htg]; exact a1 h'
  · intro k'; simp only [upd_apply]; split
    · exact hcell
    · exact a2 k'
  · intro k'; simp only [upd_apply]; split
    · rename_i e; subst e; rw [hy, hz]; exact a3 _
    · exact a3 k'
  · intro h' k'; simp only [htg, upd_apply]; intro hk'; split
    · rw [hz]; exact hg
    · exact a4 h' k' hk'
  · intro k' hk'; simp only [upd_apply] at hk' ⊢; split
    · rename_i e; subst e; simp only [if_true] at hk'; rw [hz, hg] at hk'; cases hk'
    · rename_i e; rw [if_neg e] at hk'; exact a5 k' hk'
  · intro h' k'; simp only [htg]; exact a6 h' k'
  · intro h1 h2 k'; simp only [htg]; exact a7 h1 h2 k'
  · intro h' k' hk'
    by_cases e : h' = x
    · subst e
      refine ⟨hsx, ?_⟩
      cases hi : c.invalidates with
      | false => rw [hi] at hk'; simp only [Bool.false_eq_true, if_false] at hk'; rw [hr] at hk'; cases hk'
      | true => rw [hi] at hk'; simp only [if_true, upd_apply] at hk'; cases hk'; simp [upd_apply, hv, hi]
    · have hk' : σ.ref h' = .spent k' := by
        simp only at hk'; split at hk'
        · simpa [upd_apply, e] using hk'
        · exact hk'
      have hne := hother h' k' e (by rw [hk']; rfl)
      simp only [upd_apply, if_neg hne]
      exact a8 h' k' hk'
  · intro h' k' hk'
    by_cases e : h' = x
    · subst e
      left
      cases hi : c.invalidates with
      | true => rw [hi] at hk'; simp [upd_apply] at hk'
      | false =>
        rw [hi] at hk'; simp only [Bool.false_eq_true, if_false] at hk'; rw [hr] at hk'; cases hk'
        simp [upd_apply, hv, hi]
    · have hk' : σ.ref h' = .ref k' := by
        simp only at hk'; split at hk'
        · simpa [upd_apply, e] using hk'
        · exact hk'
      have hne := hother h' k' e (by rw [hk']; rfl)
      simp only [upd_apply, if_neg hne]
      rcases a9 h' k' hk' with hv' | ⟨t', ht', hs'⟩
      · exact .inl hv'
      · refine .inr ⟨t', ?_, hs'⟩
        rw [if_neg]
        · exact ht'
        · rintro rfl
          simp only [ht', PC.on, Option.some.injEq, Prod.mk.injEq] at ho
          exact e ho.1
  · intro t' h' op'
    simp only [mem_drop, upd_apply]
    by_cases e : t' = t
    · subst e; simp [PC.on]
    · simp only [e, ne_eq, not_false_eq_true, and_true, if_false]; exact a10 t' h' op'
  · intro t1 t2 h' op1 op2 h1 h2 hc
    simp only [mem_drop] at h1 h2
    exact a11 _ _ _ _ _ h1.1 h2.1 hc
  · intro t' h' op' k' hw
    simp only [upd_apply] at hw
    split at hw
    · cases hw
    · rename_i hne
      have hh := hpc t' h' op' hne (by simp [hw, PC.on])
      obtain ⟨b1, b2, b3, b4⟩ := a12 t' h' op' k' hw
      have hne' := hother h' k' hh b1
      simp only [htg, upd_apply, if_neg hne']
      refine ⟨b1, fun hq => ?_, b3, b4⟩
      split
      · simp [upd_apply, hh, b2 hq]
      · exact b2 hq
  · intro t' h' d k' hw
    simp only [upd_apply] at hw
    split at hw
    · rcases hw with hw | hw <;> cases hw
    · rename_i hne
      have hh := hpc t' h' (.getOr d) hne (by rcases hw with hw | hw <;> simp [hw, PC.on])
      obtain ⟨b1, b2, b3, b4⟩ := a13 t' h' d k' hw
      have hne' := hother h' k' hh (by rw [b2]; rfl)
      refine ⟨b1, ?_, b3, ?_⟩
      · simp only; split
        · simp [upd_apply, hh, b2]
        · exact b2
      · simpa [upd_apply, hne'] using b4
  · intro hi k'
    simp only [upd_apply]; split
    · simp [hv, hi]
    · exact a14 hi k'

end Verif.FutureHandle
