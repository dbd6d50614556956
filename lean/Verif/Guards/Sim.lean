import Verif.Guards.Spec
/-! # The mutexes are held by whom the open scopes and lock objects say -/

set_option linter.unusedSimpArgs false

namespace Verif.Guards

def depth (s : State) (t m : Nat) : Nat :=
  match s.excl m with
  | some (u, d) => if u = t then d else 0
  | none => 0

def ind (t m u m' : Nat) : Nat := if u = t ∧ m' = m then 1 else 0

def obj (sh : Bool) (o : Obj) (t u m' : Nat) : Nat := if u = t ∧ o.holds sh m' = true then 1 else 0

/-- The mutexes are held as `X` (exclusively) and `S` (shared) say. -/
structure M (s : State) (X S : Nat → Nat → Nat) : Prop where
  x : ∀ t m, X t m = depth s t m
  sh : ∀ t m, S t m = (s.rd m).count t
  pos : ∀ m u d, s.excl m = some (u, d) → 0 < d ∧ s.rd m = []

variable {c : Cfg} {s s' : State} {σ : Spec} {X S X' S' : Nat → Nat → Nat} {t m i : Nat} {o : Obj}

theorem M.congr (h : M s X S) (h1 : s'.excl = s.excl) (h2 : s'.rd = s.rd) : M s' X S :=
  ⟨fun t m => by rw [h.x]; simp [depth, h1], fun t m => by rw [h.sh, h2], fun m u d => by rw [h1, h2]; exact h.pos m u d⟩

theorem M.eqs (h : M s X S) (hX : ∀ u m, X' u m = X u m) (hS : ∀ u m, S' u m = S u m) : M s X' S' :=
  ⟨fun t m => by rw [hX, h.x], fun t m => by rw [hS, h.sh], h.pos⟩

theorem M.lock (h : M s X S) (hc : canLock c s t m = true) (hX : ∀ u m', X' u m' = X u m' + ind t m u m') (hS : ∀ u m', S' u m' = S u m') : M (lock s t m) X' S' := by
  have hp := h.pos m
  refine ⟨fun u m' => ?_, fun u m' => by rw [hS, h.sh]; rfl, fun m' u d he => ?_⟩
  · rw [hX, h.x]
    simp only [depth, Guards.lock, upd_apply, ind]
    unfold canLock at hc
    by_cases hm : m' = m
    · subst hm
      cases he : s.excl m' with
      | none => simp; grind
      | some p =>
        obtain ⟨v, d⟩ := p
        simp only [he, Bool.and_eq_true, beq_iff_eq] at hc
        obtain ⟨rfl, -⟩ := hc
        simp; grind
    · simp [hm]
  · simp only [Guards.lock, upd_apply] at he ⊢
    unfold canLock at hc
    split at he
    · rename_i hm
      subst hm
      cases hx : s.excl m' with
      | none => simp only [hx] at he hc; cases he; simpa using hc
      | some p =>
        obtain ⟨v, d⟩ := p
        simp only [hx] at he
        cases he
        exact ⟨Nat.succ_pos _, (hp _ _ hx).2⟩
    · exact h.pos m' u d he

theorem M.unlock (h : M s X S) (hX : ∀ u m', X u m' = X' u m' + ind t m u m') (hS : ∀ u m', S' u m' = S u m') : M (unlock s t m) X' S' ∧ (unlock s t m).ub = s.ub := by
  have h0 := hX t m
  rw [h.x] at h0
  simp only [ind, and_self, ↓reduceIte, depth] at h0
  cases hx : s.excl m with
  | none => simp [hx] at h0
  | some p =>
    obtain ⟨v, d⟩ := p
    simp only [hx] at h0
    split at h0
    rotate_left
    · omega
    rename_i hv
    subst hv
    have hd := h.pos m v d hx
    simp only [Guards.unlock, hx, ↓reduceIte]
    refine ⟨⟨fun u m' => ?_, fun u m' => by rw [hS, h.sh], fun m' u d' he => ?_⟩, trivial⟩
    · have h1 := hX u m'
      rw [h.x] at h1
      simp only [depth, upd_apply, ind] at h1 ⊢
      by_cases hm : m' = m
      · subst hm
        simp only [hx, and_true] at h1
        by_cases hd1 : d = 1 <;> by_cases hu : u = v <;> simp [hd1, hu, eq_comm (a := v)] at h1 ⊢ <;> omega
      · simp [hm] at h1 ⊢; exact h1.symm
    · simp only [upd_apply] at he ⊢
      split at he
      · rename_i hm
        subst hm
        split at he <;> cases he
        exact ⟨by omega, hd.2⟩
      · exact h.pos m' u d' he

theorem M.share (h : M s X S) (hc : canShare s m = true) (hX : ∀ u m', X' u m' = X u m') (hS : ∀ u m', S' u m' = S u m' + ind t m u m') : M (share s t m) X' S' := by
  refine ⟨fun u m' => by rw [hX, h.x]; rfl, fun u m' => ?_, fun m' u d he => ?_⟩
  · rw [hS, h.sh]
    simp only [Guards.share, upd_apply, ind]
    by_cases hm : m' = m
    · subst hm
      simp only [and_true, ↓reduceIte, List.count_cons, beq_iff_eq]
      grind
    · simp [hm]
  · simp only [canShare, beq_iff_eq] at hc
    simp only [Guards.share, upd_apply] at he ⊢
    have : m' ≠ m := by rintro rfl; rw [hc] at he; cases he
    rw [if_neg this]
    exact h.pos m' u d he

theorem M.unshare (h : M s X S) (hX : ∀ u m', X' u m' = X u m') (hS : ∀ u m', S u m' = S' u m' + ind t m u m') : M (unshare s t m) X' S' ∧ (unshare s t m).ub = s.ub := by
  have h0 := hS t m
  rw [h.sh] at h0
  simp only [ind, and_self, ↓reduceIte] at h0
  have hmem : t ∈ s.rd m := List.count_pos_iff.mp (by omega)
  simp only [Guards.unshare, hmem, ↓reduceIte]
  refine ⟨⟨fun u m' => by rw [hX, h.x]; rfl, fun u m' => ?_, fun m' u d he => ?_⟩, trivial⟩
  · have h1 := hS u m'
    rw [h.sh] at h1
    simp only [upd_apply, ind] at h1 ⊢
    by_cases hm : m' = m
    · subst hm
      simp only [↓reduceIte, and_true, List.count_erase, beq_iff_eq] at h1 ⊢
      grind
    · simp [hm] at h1 ⊢; exact h1.symm
  · have h1 := h.pos m' u d he
    simp only [upd_apply]
    split
    · rename_i hm; subst hm; rw [h1.2]; exact ⟨h1.1, rfl⟩
    · exact h1

theorem obj_not (h : o.mtx = none ∨ o.owns = false) (sh : Bool) (t u m' : Nat) : obj sh o t u m' = 0 := by
  simp only [obj, Obj.holds]
  rcases h with h | h <;> simp [h]

theorem obj_owned {sh sh' : Bool} {m' u : Nat} : obj sh ⟨sh', some m, true⟩ t u m' = if sh' = sh then ind t m u m' else 0 := by
  simp only [obj, Obj.holds, ind]
  cases sh <;> cases sh' <;> simp <;> grind

theorem M.release (h : M s X S) (hX : ∀ u m', X u m' = X' u m' + obj false o t u m') (hS : ∀ u m', S u m' = S' u m' + obj true o t u m') :
    M (release s t o) X' S' ∧ (release s t o).ub = s.ub := by
  obtain ⟨sh, mo, ow⟩ := o
  cases mo with
  | none =>
    refine ⟨h.eqs (fun u m => ?_) (fun u m => ?_), rfl⟩
    · rw [hX, obj_not (.inl rfl)]; rfl
    · rw [hS, obj_not (.inl rfl)]; rfl
  | some m =>
    cases ow with
    | false =>
      refine ⟨h.eqs (fun u m => ?_) (fun u m => ?_), rfl⟩
      · rw [hX, obj_not (.inr rfl)]; rfl
      · rw [hS, obj_not (.inr rfl)]; rfl
    | true =>
      simp only [obj_owned] at hX hS
      cases sh with
      | true => exact h.unshare (fun u m' => by simpa using (hX u m').symm) (by simpa using hS)
      | false => exact h.unlock (by simpa using hX) (fun u m' => by simpa using (hS u m').symm)

theorem M.acquire (h : M s X S) {sh : Bool} (hc : canAcquire c s t sh m = true) (hX : ∀ u m', X' u m' = X u m' + obj false ⟨sh, some m, true⟩ t u m')
    (hS : ∀ u m', S' u m' = S u m' + obj true ⟨sh, some m, true⟩ t u m') : M (acquire s t sh m) X' S' := by
  simp only [obj_owned] at hX hS
  cases sh with
  | true => exact h.share hc (by simpa using hX) (by simpa using hS)
  | false => exact h.lock (c := c) hc (by simpa using hX) (by simpa using hS)

@[simp] theorem lock_lk : (lock s t m).lk = s.lk ∧ (lock s t m).stk = s.stk ∧ (lock s t m).ub = s.ub := ⟨rfl, rfl, rfl⟩
theorem unlock_lk : (unlock s t m).lk = s.lk ∧ (unlock s t m).stk = s.stk := by
  unfold unlock
  split
  · split <;> exact ⟨rfl, rfl⟩
  · exact ⟨rfl, rfl⟩
theorem unshare_lk : (unshare s t m).lk = s.lk ∧ (unshare s t m).stk = s.stk := by unfold unshare; split <;> exact ⟨rfl, rfl⟩
theorem acquire_lk {sh : Bool} : (acquire s t sh m).lk = s.lk ∧ (acquire s t sh m).stk = s.stk ∧ (acquire s t sh m).ub = s.ub := by unfold acquire; split <;> exact ⟨rfl, rfl, rfl⟩
theorem release_lk : (release s t o).lk = s.lk ∧ (release s t o).stk = s.stk := by
  unfold release
  repeat' split
  · exact unshare_lk
  · exact unlock_lk
  · simp
  · simp

/-! ## Counting the claims -/

theorem countP_set {p : Obj → Bool} {l : List Obj} {i : Nat} {old new : Obj} (h : l[i]? = some old) :
    (l.set i new).countP p + (if p old then 1 else 0) = l.countP p + (if p new then 1 else 0) := by
  induction l generalizing i with
  | nil => simp at h
  | cons a l ih =>
    cases i with
    | zero =>
      simp only [List.getElem?_cons_zero, Option.some.injEq] at h
      subst h
      simp only [List.set_cons_zero, List.countP_cons]
      omega
    | succ i =>
      simp only [List.getElem?_cons_succ] at h
      have := ih h
      simp only [List.set_cons_succ, List.countP_cons]
      omega

theorem excl_setLk {old : Obj} (h : (σ.lk t)[i]? = some old) (u m' : Nat) : (σ.setLk t i o).excl u m' + obj false old t u m' = σ.excl u m' + obj false o t u m' := by
  simp only [Spec.excl, Spec.setLk, upd_apply, obj]
  by_cases hu : u = t
  · subst hu
    have := countP_set (p := Obj.holds false m') (new := o) h
    simp only [↓reduceIte, true_and]
    omega
  · simp [hu]

theorem shared_setLk {old : Obj} (h : (σ.lk t)[i]? = some old) (u m' : Nat) : (σ.setLk t i o).shared u m' + obj true old t u m' = σ.shared u m' + obj true o t u m' := by
  simp only [Spec.shared, Spec.setLk, upd_apply, obj]
  by_cases hu : u = t
  · subst hu
    have := countP_set (p := Obj.holds true m') (new := o) h
    simp only [↓reduceIte, true_and]
    omega
  · simp [hu]

def scp (sh : Bool) (sc : Scope) (t u m' : Nat) : Nat := if u = t ∧ sc.holds sh m' = true then 1 else 0

theorem excl_open {sc : Scope} (u m' : Nat) : (σ.open t sc).excl u m' = σ.excl u m' + scp false sc t u m' := by
  simp only [Spec.excl, Spec.open, upd_apply, scp]
  by_cases hu : u = t
  · subst hu; simp [List.countP_cons]; split <;> omega
  · simp [hu]

theorem shared_open {sc : Scope} (u m' : Nat) : (σ.open t sc).shared u m' = σ.shared u m' + scp true sc t u m' := by
  simp only [Spec.shared, Spec.open, upd_apply, scp]
  by_cases hu : u = t
  · subst hu; simp [List.countP_cons]; split <;> omega
  · simp [hu]

theorem excl_setRaw {k : Nat} (u m' : Nat) : (σ.setRaw t m k).excl u m' + (if u = t ∧ m' = m then σ.raw t m else 0) = σ.excl u m' + (if u = t ∧ m' = m then k else 0) := by
  simp only [Spec.excl, Spec.setRaw, upd_apply]
  by_cases hu : u = t
  · subst hu
    by_cases hm : m' = m
    · subst hm; simp [upd_apply]; omega
    · simp [hm, upd_apply]
  · simp [hu]

theorem shared_setRaw {k : Nat} (u m' : Nat) : (σ.setRaw t m k).shared u m' = σ.shared u m' := rfl

def Scope.frame : Scope → Frame
  | .guard m => .guard m
  | .sguard m => .sguard m
  | .strict m _ => .strict m
  | .nested i sh m _ => .nested i ⟨sh, some m, true⟩
  | .reverse i m => .reverse i m

def Fits (c : Cfg) (t : Nat) : Scope → Prop
  | .nested i sh _ _ => (c.sh t)[i]? = some sh
  | .reverse i _ => (c.sh t)[i]? = some false
  | _ => True

structure R (c : Cfg) (s : State) (σ : Spec) : Prop where
  ub : s.ub = false
  lk : s.lk = σ.lk
  stk : ∀ t, s.stk t = (σ.scopes t).map Scope.frame
  m : M s σ.excl σ.shared
  out : ∀ t, c.n ≤ t → ∀ m, σ.excl t m = 0 ∧ σ.shared t m = 0
  ty : ∀ t, (σ.lk t).map Obj.sh = c.sh t
  fits : ∀ t, ∀ sc ∈ σ.scopes t, Fits c t sc

theorem R.may (h : R c s σ) (ht : t < c.n) : mayLock c σ t m ↔ canLock c s t m = true := by
  unfold mayLock canLock
  have hx := h.m.x
  have hs := h.m.sh
  have ho := h.out
  cases he : s.excl m with
  | none =>
    have h0 : ∀ u, σ.excl u m = 0 := fun u => by rw [hx]; simp [depth, he]
    simp only [h0, true_or, and_true, implies_true, true_and, beq_iff_eq]
    constructor
    · intro h1
      have h2 : ∀ u, (s.rd m).count u = 0 := by
        intro u
        rw [← hs]
        by_cases hu : u < c.n
        · exact h1 u hu
        · exact (ho u (by omega) m).2
      exact List.eq_nil_iff_forall_not_mem.mpr fun u hm => by have := List.count_pos_iff.mpr hm; have := h2 u; omega
    · intro h1 u _
      rw [hs, h1]
      rfl
  | some p =>
    obtain ⟨v, d⟩ := p
    have hd := h.m.pos m v d he
    have hv : σ.excl v m = d := by rw [hx]; simp [depth, he]
    have hvn : v < c.n := by
      refine Nat.lt_of_not_le fun hn => ?_
      have := (ho v hn m).1
      omega
    simp only [Bool.and_eq_true, beq_iff_eq]
    constructor
    · rintro ⟨h1, h2, h3⟩
      have : v = t := Classical.byContradiction fun hne => by have := h1 v hvn hne; omega
      subst this
      exact ⟨rfl, h3.resolve_left (by omega)⟩
    · rintro ⟨rfl, h1⟩
      refine ⟨fun u _ hu => ?_, fun u _ => ?_, .inr h1⟩
      · rw [hx]; simp [depth, he, Ne.symm hu]
      · rw [hs, hd.2]; rfl

theorem R.mayS (h : R c s σ) : mayShare c σ m ↔ canShare s m = true := by
  unfold mayShare canShare
  have hx := h.m.x
  have ho := h.out
  simp only [beq_iff_eq]
  cases he : s.excl m with
  | none => simp only [iff_true]; intro u _; rw [hx]; simp [depth, he]
  | some p =>
    obtain ⟨v, d⟩ := p
    have hd := h.m.pos m v d he
    have hv : σ.excl v m = d := by rw [hx]; simp [depth, he]
    simp only [reduceCtorEq, iff_false]
    intro h1
    by_cases hvn : v < c.n
    · have := h1 v hvn; omega
    · have := (ho v (by omega) m).1; omega

theorem R.mayA (h : R c s σ) (ht : t < c.n) {sh : Bool} : mayAcquire c σ t sh m ↔ canAcquire c s t sh m = true := by
  unfold mayAcquire canAcquire
  cases sh with
  | true => exact h.mayS
  | false => exact h.may ht

theorem M.assign {old : Obj} (h : M s X S) (hl : (s.lk t)[i]? = some old) (hX : ∀ u m', X u m' = X' u m' + obj false old t u m') (hS : ∀ u m', S u m' = S' u m' + obj true old t u m') :
    M (assign s t i o) X' S' ∧ (assign s t i o).ub = s.ub ∧ (assign s t i o).lk = upd s.lk t ((s.lk t).set i o) ∧ (assign s t i o).stk = s.stk := by
  simp only [Guards.assign, hl]
  have h1 : M { s with lk := upd s.lk t ((s.lk t).set i o) } X S := h.congr rfl rfl
  have h2 := h1.release hX hS
  exact ⟨h2.1, h2.2, release_lk.1, release_lk.2⟩

theorem out_setLk {old : Obj} (ho : ∀ t, c.n ≤ t → ∀ m, σ.excl t m = 0 ∧ σ.shared t m = 0) (ht : t < c.n) (hl : (σ.lk t)[i]? = some old) :
    ∀ u, c.n ≤ u → ∀ m, (σ.setLk t i o).excl u m = 0 ∧ (σ.setLk t i o).shared u m = 0 := by
  intro u hu m
  have hne : u ≠ t := by omega
  have h1 := excl_setLk (o := o) hl u m
  have h2 := shared_setLk (o := o) hl u m
  have h3 := ho u hu m
  simp [obj, hne] at h1 h2
  omega

theorem out_open {sc : Scope} (ho : ∀ t, c.n ≤ t → ∀ m, σ.excl t m = 0 ∧ σ.shared t m = 0) (ht : t < c.n) :
    ∀ u, c.n ≤ u → ∀ m, (σ.open t sc).excl u m = 0 ∧ (σ.open t sc).shared u m = 0 := by
  intro u hu m
  have hne : u ≠ t := by omega
  have h1 := excl_open (σ := σ) (t := t) (sc := sc) u m
  have h2 := shared_open (σ := σ) (t := t) (sc := sc) u m
  have h3 := ho u hu m
  simp [scp, hne] at h1 h2
  omega

theorem out_setRaw {k : Nat} (ho : ∀ t, c.n ≤ t → ∀ m, σ.excl t m = 0 ∧ σ.shared t m = 0) (ht : t < c.n) :
    ∀ u, c.n ≤ u → ∀ m', (σ.setRaw t m k).excl u m' = 0 ∧ (σ.setRaw t m k).shared u m' = 0 := by
  intro u hu m'
  have hne : u ≠ t := by omega
  have h1 := excl_setRaw (σ := σ) (t := t) (m := m) (k := k) u m'
  have h3 := ho u hu m'
  simp [hne] at h1
  exact ⟨by omega, h3.2⟩

theorem ty_setLk {old : Obj} (h : ∀ t, (σ.lk t).map Obj.sh = c.sh t) (hl : (σ.lk t)[i]? = some old) (ho : o.sh = old.sh) : ∀ u, ((σ.setLk t i o).lk u).map Obj.sh = c.sh u := by
  intro u
  simp only [Spec.setLk, upd_apply]
  split
  · rename_i hu
    subst hu
    rw [List.map_set, ho, ← h u]
    apply List.ext_getElem?
    intro j
    by_cases hj : i = j
    · subst hj
      have : i < ((σ.lk u).map Obj.sh).length := by simp; exact (List.getElem?_eq_some_iff.mp hl).1
      rw [List.getElem?_set_self this]
      simp [hl]
    · rw [List.getElem?_set_ne hj]
  · exact h u

theorem stk_open {sc : Scope} (h : ∀ t, s.stk t = (σ.scopes t).map Scope.frame) : ∀ u, (push s t sc.frame).stk u = ((σ.open t sc).scopes u).map Scope.frame := by
  intro u
  simp only [push, Spec.open, upd_apply]
  split
  · rename_i hu; subst hu; simp [h]
  · exact h u

theorem fits_open {sc : Scope} (h : ∀ t, ∀ sc ∈ σ.scopes t, Fits c t sc) (hf : Fits c t sc) : ∀ u, ∀ sc' ∈ (σ.open t sc).scopes u, Fits c u sc' := by
  intro u sc' hm
  simp only [Spec.open, upd_apply] at hm
  split at hm
  · rename_i hu; subst hu
    rcases List.mem_cons.mp hm with rfl | hm
    · exact hf
    · exact h u sc' hm
  · exact h u sc' hm

/-- Opening a scope that gets its mutex exclusively. -/
theorem R.openX (h : R c s σ) (ht : t < c.n) {sc : Scope} (hc : canLock c s t m = true) (hx : ∀ u m', scp false sc t u m' = ind t m u m') (hs : ∀ u m', scp true sc t u m' = 0)
    (hf : Fits c t sc) : R c (push (lock s t m) t sc.frame) (σ.open t sc) where
  ub := h.ub
  lk := h.lk
  stk := stk_open (s := lock s t m) h.stk
  m := (h.m.lock (X' := (σ.open t sc).excl) (S' := (σ.open t sc).shared) hc (fun u m' => by rw [excl_open, hx]) (fun u m' => by rw [shared_open, hs]; rfl)).congr rfl rfl
  out := out_open h.out ht
  ty := h.ty
  fits := fits_open h.fits hf

theorem R.openS (h : R c s σ) (ht : t < c.n) {sc : Scope} (hc : canShare s m = true) (hx : ∀ u m', scp true sc t u m' = ind t m u m') (hs : ∀ u m', scp false sc t u m' = 0)
    (hf : Fits c t sc) : R c (push (share s t m) t sc.frame) (σ.open t sc) where
  ub := h.ub
  lk := h.lk
  stk := stk_open (s := share s t m) h.stk
  m := (h.m.share (X' := (σ.open t sc).excl) (S' := (σ.open t sc).shared) hc (fun u m' => by rw [excl_open, hs]; rfl) (fun u m' => by rw [shared_open, hx])).congr rfl rfl
  out := out_open h.out ht
  ty := h.ty
  fits := fits_open h.fits hf

theorem R.rawLock (h : R c s σ) (ht : t < c.n) (hc : canLock c s t m = true) : R c (lock s t m) (σ.setRaw t m (σ.raw t m + 1)) where
  ub := h.ub
  lk := h.lk
  stk := h.stk
  m := h.m.lock hc (fun u m' => by have := excl_setRaw (σ := σ) (t := t) (m := m) (k := σ.raw t m + 1) u m'; simp only [ind]; split at this <;> simp_all <;> omega) (fun _ _ => rfl)
  out := out_setRaw h.out ht
  ty := h.ty
  fits := h.fits

theorem raw_pred (h0 : σ.raw t m ≠ 0) (u m' : Nat) : σ.excl u m' = (σ.setRaw t m (σ.raw t m - 1)).excl u m' + ind t m u m' := by
  have := excl_setRaw (σ := σ) (t := t) (m := m) (k := σ.raw t m - 1) u m'
  simp only [ind]
  split at this <;> simp_all <;> omega

theorem R.rawUnlock (h : R c s σ) (ht : t < c.n) (h0 : σ.raw t m ≠ 0) : R c (unlock s t m) (σ.setRaw t m (σ.raw t m - 1)) := by
  have h1 := h.m.unlock (raw_pred h0) (fun _ _ => shared_setRaw (σ := σ) (t := t) (m := m) (k := σ.raw t m - 1) _ _)
  exact {
    ub := h1.2.trans h.ub
    lk := unlock_lk.1.trans h.lk
    stk := fun u => by rw [unlock_lk.2]; exact h.stk u
    m := h1.1
    out := out_setRaw h.out ht
    ty := h.ty
    fits := h.fits }

/-- A lock object gets a new value that owns nothing. -/
theorem R.assign (h : R c s σ) (ht : t < c.n) {old o : Obj} (hl : (σ.lk t)[i]? = some old) (ho : o.sh = old.sh) (hn : o.owns = false) : R c (assign s t i o) (σ.setLk t i o) := by
  have h1 := h.m.assign (i := i) (o := o) (X' := (σ.setLk t i o).excl) (S' := (σ.setLk t i o).shared) (h.lk ▸ hl)
    (fun u m' => by have := excl_setLk (o := o) hl u m'; rw [obj_not (.inr hn)] at this; omega) (fun u m' => by have := shared_setLk (o := o) hl u m'; rw [obj_not (.inr hn)] at this; omega)
  exact {
    ub := h1.2.1.trans h.ub
    lk := by rw [h1.2.2.1, h.lk]; rfl
    stk := fun u => by rw [h1.2.2.2]; exact h.stk u
    m := h1.1
    out := out_setLk h.out ht hl
    ty := ty_setLk h.ty hl ho
    fits := h.fits }

theorem R.lkLock (h : R c s σ) (ht : t < c.n) {sh : Bool} (hl : (σ.lk t)[i]? = some ⟨sh, some m, false⟩) (hc : canAcquire c s t sh m = true) :
    R c (acquire { s with lk := upd s.lk t ((s.lk t).set i ⟨sh, some m, true⟩) } t sh m) (σ.setLk t i ⟨sh, some m, true⟩) := by
  have h1 : M { s with lk := upd s.lk t ((s.lk t).set i ⟨sh, some m, true⟩) } σ.excl σ.shared := h.m.congr rfl rfl
  have h2 := h1.acquire (c := c) (t := t) (m := m) (sh := sh) (X' := (σ.setLk t i ⟨sh, some m, true⟩).excl) (S' := (σ.setLk t i ⟨sh, some m, true⟩).shared) hc
    (fun u m' => by have := excl_setLk (o := ⟨sh, some m, true⟩) hl u m'; rw [obj_not (.inr rfl)] at this; omega)
    (fun u m' => by have := shared_setLk (o := ⟨sh, some m, true⟩) hl u m'; rw [obj_not (.inr rfl)] at this; omega)
  exact {
    ub := acquire_lk.2.2.trans h.ub
    lk := by rw [acquire_lk.1, h.lk]; rfl
    stk := fun u => by rw [acquire_lk.2.1]; exact h.stk u
    m := h2
    out := out_setLk h.out ht hl
    ty := ty_setLk h.ty hl rfl
    fits := h.fits }

theorem scp_nested {sh sh' : Bool} {acc : List Nat} {u m' : Nat} : scp sh (.nested i sh' m acc) t u m' = obj sh ⟨sh', some m, true⟩ t u m' := by
  simp only [scp, Scope.holds, obj, Obj.holds]
  cases sh <;> cases sh' <;> simp <;> grind

theorem ty_get {old : Obj} (h : ∀ t, (σ.lk t).map Obj.sh = c.sh t) (hl : (σ.lk t)[i]? = some old) : (c.sh t)[i]? = some old.sh := by
  rw [← h t]; simp [hl]

/-- `nested_strict_lock` of a lock that owns. -/
theorem R.nestOwned (h : R c s σ) (ht : t < c.n) {sh : Bool} (hl : (σ.lk t)[i]? = some ⟨sh, some m, true⟩) :
    R c (push { s with lk := upd s.lk t ((s.lk t).set i ⟨sh, none, false⟩) } t (.nested i ⟨sh, some m, true⟩)) ((σ.setLk t i ⟨sh, none, false⟩).open t (.nested i sh m [])) where
  ub := h.ub
  lk := by simp only [push, Spec.open, Spec.setLk, h.lk]
  stk := stk_open (s := { s with lk := upd s.lk t ((s.lk t).set i ⟨sh, none, false⟩) }) (σ := σ.setLk t i ⟨sh, none, false⟩) (sc := .nested i sh m []) h.stk
  m := (h.m.eqs (X' := ((σ.setLk t i ⟨sh, none, false⟩).open t (.nested i sh m [])).excl) (S' := ((σ.setLk t i ⟨sh, none, false⟩).open t (.nested i sh m [])).shared)
    (fun u m' => by
      have := excl_setLk (o := ⟨sh, none, false⟩) hl u m'
      rw [obj_not (o := ⟨sh, none, false⟩) (.inr rfl)] at this
      rw [excl_open, scp_nested]; omega)
    (fun u m' => by
      have := shared_setLk (o := ⟨sh, none, false⟩) hl u m'
      rw [obj_not (o := ⟨sh, none, false⟩) (.inr rfl)] at this
      rw [shared_open, scp_nested]; omega)).congr rfl rfl
  out := out_open (out_setLk h.out ht hl) ht
  ty := ty_setLk h.ty hl rfl
  fits := fits_open (σ := σ.setLk t i ⟨sh, none, false⟩) h.fits (ty_get h.ty hl)

theorem R.nestLock (h : R c s σ) (ht : t < c.n) {sh : Bool} (hl : (σ.lk t)[i]? = some ⟨sh, some m, false⟩) (hc : canAcquire c s t sh m = true) :
    R c (push (acquire { s with lk := upd s.lk t ((s.lk t).set i ⟨sh, none, false⟩) } t sh m) t (.nested i ⟨sh, some m, true⟩)) ((σ.setLk t i ⟨sh, none, false⟩).open t (.nested i sh m [])) := by
  have h1 : M { s with lk := upd s.lk t ((s.lk t).set i ⟨sh, none, false⟩) } σ.excl σ.shared := h.m.congr rfl rfl
  have h2 := h1.acquire (c := c) (t := t) (m := m) (sh := sh) (X' := ((σ.setLk t i ⟨sh, none, false⟩).open t (.nested i sh m [])).excl)
    (S' := ((σ.setLk t i ⟨sh, none, false⟩).open t (.nested i sh m [])).shared) hc
    (fun u m' => by
      have := excl_setLk (o := ⟨sh, none, false⟩) hl u m'
      rw [obj_not (.inr rfl), obj_not (.inr rfl)] at this
      rw [excl_open, scp_nested]; omega)
    (fun u m' => by
      have := shared_setLk (o := ⟨sh, none, false⟩) hl u m'
      rw [obj_not (.inr rfl), obj_not (.inr rfl)] at this
      rw [shared_open, scp_nested]; omega)
  exact {
    ub := acquire_lk.2.2.trans h.ub
    lk := by simp only [push, Spec.open, Spec.setLk, acquire_lk.1, h.lk]
    stk := stk_open (σ := σ.setLk t i ⟨sh, none, false⟩) (sc := .nested i sh m []) (fun u => by rw [acquire_lk.2.1]; exact h.stk u)
    m := h2.congr rfl rfl
    out := out_open (out_setLk h.out ht hl) ht
    ty := ty_setLk h.ty hl rfl
    fits := fits_open (σ := σ.setLk t i ⟨sh, none, false⟩) h.fits (ty_get h.ty hl) }

theorem R.reverse (h : R c s σ) (ht : t < c.n) {o : Obj} (hl : (σ.lk t)[i]? = some o) (hs : o.sh = false) :
    R c (push (Guards.assign s t i ⟨o.sh, none, false⟩) t (.reverse i o.mtx)) ((σ.setLk t i ⟨o.sh, none, false⟩).open t (.reverse i o.mtx)) := by
  have h1 := h.assign ht (o := ⟨o.sh, none, false⟩) hl rfl rfl
  have h0 : ∀ b u m', scp b (.reverse i o.mtx) t u m' = 0 := fun b u m' => by simp [scp, Scope.holds]
  exact {
    ub := h1.ub
    lk := h1.lk
    stk := stk_open (sc := .reverse i o.mtx) h1.stk
    m := (h1.m.eqs (X' := ((σ.setLk t i ⟨o.sh, none, false⟩).open t (.reverse i o.mtx)).excl) (S' := ((σ.setLk t i ⟨o.sh, none, false⟩).open t (.reverse i o.mtx)).shared)
      (fun u m' => by rw [excl_open, h0]; rfl) (fun u m' => by rw [shared_open, h0]; rfl)).congr rfl rfl
    out := out_open h1.out ht
    ty := h1.ty
    fits := fits_open h1.fits (by simp only [Fits]; rw [ty_get h.ty hl, hs]) }

/-! ## The end of a scope -/

def popped (σ : Spec) (t : Nat) (rest : List Scope) : Spec := { σ with scopes := upd σ.scopes t rest }

theorem scp_ind {sh : Bool} {sc : Scope} {u m' : Nat} (h : ∀ m', sc.holds sh m' = (m == m')) : scp sh sc t u m' = ind t m u m' := by
  simp only [scp, ind, h, beq_iff_eq]; grind

theorem excl_pop {sc : Scope} {rest : List Scope} (hs : σ.scopes t = sc :: rest) (u m' : Nat) : σ.excl u m' = (popped σ t rest).excl u m' + scp false sc t u m' := by
  simp only [Spec.excl, popped, upd_apply, scp]
  by_cases hu : u = t
  · subst hu; simp [hs, List.countP_cons]; split <;> omega
  · simp [hu]

theorem shared_pop {sc : Scope} {rest : List Scope} (hs : σ.scopes t = sc :: rest) (u m' : Nat) : σ.shared u m' = (popped σ t rest).shared u m' + scp true sc t u m' := by
  simp only [Spec.shared, popped, upd_apply, scp]
  by_cases hu : u = t
  · subst hu; simp [hs, List.countP_cons]; split <;> omega
  · simp [hu]

/-- All but the mutexes. -/
structure Q (c : Cfg) (s : State) (σ : Spec) : Prop where
  ub : s.ub = false
  lk : s.lk = σ.lk
  stk : ∀ t, s.stk t = (σ.scopes t).map Scope.frame
  out : ∀ t, c.n ≤ t → ∀ m, σ.excl t m = 0 ∧ σ.shared t m = 0
  ty : ∀ t, (σ.lk t).map Obj.sh = c.sh t
  fits : ∀ t, ∀ sc ∈ σ.scopes t, Fits c t sc

theorem R.pop (h : R c s σ) {sc : Scope} {rest : List Scope} (hs : σ.scopes t = sc :: rest) :
    Q c { s with stk := upd s.stk t (rest.map Scope.frame) } (popped σ t rest) ∧ M { s with stk := upd s.stk t (rest.map Scope.frame) } σ.excl σ.shared := by
  refine ⟨⟨h.ub, h.lk, fun u => ?_, fun u hu m' => ?_, h.ty, fun u sc' hm => ?_⟩, h.m.congr rfl rfl⟩
  · simp only [popped, upd_apply]; split
    · rfl
    · exact h.stk u
  · have h1 := h.out u hu m'
    have := excl_pop hs u m'
    have := shared_pop hs u m'
    omega
  · simp only [popped, upd_apply] at hm
    split at hm
    · rename_i hu; subst hu; exact h.fits u sc' (by rw [hs]; exact List.mem_cons_of_mem _ hm)
    · exact h.fits u sc' hm

theorem Q.r (q : Q c s σ) (m : M s σ.excl σ.shared) : R c s σ := ⟨q.ub, q.lk, q.stk, m, q.out, q.ty, q.fits⟩

theorem Q.congr (q : Q c s σ) (h1 : s'.ub = s.ub) (h2 : s'.lk = s.lk) (h3 : s'.stk = s.stk) : Q c s' σ :=
  ⟨h1.trans q.ub, h2.trans q.lk, fun t => by rw [h3]; exact q.stk t, q.out, q.ty, q.fits⟩

theorem R.leave (h : R c s σ) (ht : t < c.n) {es : List Event} (hs : Guards.leave c s t = some (s', es)) : es = [.left t] ∧ ∃ σ', close c σ t = .ok σ' ∧ R c s' σ' := by
  have hk := h.stk t
  unfold Guards.leave at hs
  unfold close
  cases hsc : σ.scopes t with
  | nil => simp only [hsc, List.map_nil] at hk; simp only [hk] at hs; cases hs
  | cons sc rest =>
    simp only [hsc, List.map_cons] at hk
    simp only [hk] at hs
    obtain ⟨q, hm⟩ := h.pop hsc
    have hX := excl_pop hsc
    have hS := shared_pop hsc
    have hfit := h.fits t sc (by rw [hsc]; exact List.mem_cons_self)
    cases sc with
    | guard m =>
      simp only [Scope.frame] at hs
      cases hs
      have h1 := hm.unlock (t := t) (m := m) (X' := (popped σ t rest).excl) (S' := (popped σ t rest).shared) (fun u m' => by rw [hX]; rw [scp_ind (m := m) (by simp [Scope.holds])]) (fun u m' => by rw [hS]; simp [scp, Scope.holds])
      exact ⟨rfl, _, rfl, (q.congr h1.2 unlock_lk.1 unlock_lk.2).r h1.1⟩
    | sguard m =>
      simp only [Scope.frame] at hs
      cases hs
      have h1 := hm.unshare (t := t) (m := m) (X' := (popped σ t rest).excl) (S' := (popped σ t rest).shared) (fun u m' => by rw [hX]; simp [scp, Scope.holds]) (fun u m' => by rw [hS]; rw [scp_ind (m := m) (by simp [Scope.holds])])
      exact ⟨rfl, _, rfl, (q.congr h1.2 unshare_lk.1 unshare_lk.2).r h1.1⟩
    | strict m acc =>
      simp only [Scope.frame] at hs
      cases hs
      have h1 := hm.unlock (t := t) (m := m) (X' := (popped σ t rest).excl) (S' := (popped σ t rest).shared) (fun u m' => by rw [hX]; rw [scp_ind (m := m) (by simp [Scope.holds])]) (fun u m' => by rw [hS]; simp [scp, Scope.holds])
      exact ⟨rfl, _, rfl, (q.congr h1.2 unlock_lk.1 unlock_lk.2).r h1.1⟩
    | nested i sh m acc =>
      simp only [Scope.frame] at hs
      cases hs
      have hlen : i < (σ.lk t).length := by
        have := (List.getElem?_eq_some_iff.mp hfit).1
        rw [← h.ty t] at this
        simpa using this
      have hl : ((popped σ t rest).lk t)[i]? = some (σ.lk t)[i] := List.getElem?_eq_getElem hlen
      have hty : (σ.lk t)[i].sh = sh := by
        have := ty_get h.ty hl
        rw [hfit] at this
        exact (Option.some.inj this).symm
      have h1 := hm.assign (t := t) (i := i) (o := ⟨sh, some m, true⟩) (X' := ((popped σ t rest).setLk t i ⟨sh, some m, true⟩).excl) (S' := ((popped σ t rest).setLk t i ⟨sh, some m, true⟩).shared)
        (old := (σ.lk t)[i]) (by show (s.lk t)[i]? = _; rw [h.lk]; exact hl)
        (fun u m' => by rw [hX, scp_nested]; have := excl_setLk (o := ⟨sh, some m, true⟩) hl u m'; omega)
        (fun u m' => by rw [hS, scp_nested]; have := shared_setLk (o := ⟨sh, some m, true⟩) hl u m'; omega)
      exact ⟨rfl, _, rfl, {
        ub := h1.2.1.trans h.ub
        lk := by rw [h1.2.2.1, h.lk]; rfl
        stk := fun u => by rw [h1.2.2.2]; exact q.stk u
        m := h1.1
        out := out_setLk q.out ht hl
        ty := ty_setLk q.ty hl hty.symm
        fits := q.fits }⟩
    | reverse i mo =>
      have hX0 : (popped σ t rest).excl = σ.excl := by funext u m'; rw [hX u m']; simp [scp, Scope.holds]
      have hS0 : (popped σ t rest).shared = σ.shared := by funext u m'; rw [hS u m']; simp [scp, Scope.holds]
      cases mo with
      | none =>
        simp only [Scope.frame] at hs
        cases hs
        refine ⟨rfl, _, rfl, q.r ?_⟩
        rw [hX0, hS0]
        exact hm
      | some m =>
        simp only [Scope.frame] at hs
        have hlen : i < (σ.lk t).length := by
          have := (List.getElem?_eq_some_iff.mp hfit).1
          rw [← h.ty t] at this
          simpa using this
        have hl : (σ.lk t)[i]? = some (σ.lk t)[i] := List.getElem?_eq_getElem hlen
        have hty : (σ.lk t)[i].sh = false := by
          have := ty_get h.ty hl
          rw [hfit] at this
          exact (Option.some.inj this).symm
        have hl' : (s.lk t)[i]? = some (σ.lk t)[i] := by rw [h.lk]; exact hl
        simp only [hl, hl'] at hs ⊢
        split at hs
        · rename_i hc
          cases hs
          refine ⟨rfl, _, if_pos ((h.mayA ht).mpr (by rw [hty]; exact hc)), ?_⟩
          have h0 := hm.lock (c := c) (t := t) (m := m) (X' := fun u m' => σ.excl u m' + ind t m u m') (S' := σ.shared) hc (fun _ _ => rfl) (fun _ _ => rfl)
          rw [hty]
          have h1 := h0.assign (t := t) (i := i) (o := ⟨false, some m, true⟩) (X' := ((popped σ t rest).setLk t i ⟨false, some m, true⟩).excl) (S' := ((popped σ t rest).setLk t i ⟨false, some m, true⟩).shared)
            (old := (σ.lk t)[i]) (by show (s.lk t)[i]? = _; rw [h.lk]; exact hl)
            (fun u m' => by have := excl_setLk (σ := popped σ t rest) (o := ⟨false, some m, true⟩) hl u m'; rw [obj_owned, hX0] at this; simp at this; omega)
            (fun u m' => by have := shared_setLk (σ := popped σ t rest) (o := ⟨false, some m, true⟩) hl u m'; rw [obj_owned, hS0] at this; simp at this; omega)
          exact {
            ub := h1.2.1.trans h.ub
            lk := by rw [h1.2.2.1]; show upd s.lk t ((s.lk t).set i _) = _; rw [h.lk]; rfl
            stk := fun u => by rw [h1.2.2.2]; exact q.stk u
            m := h1.1
            out := out_setLk q.out ht hl
            ty := ty_setLk q.ty hl hty.symm
            fits := q.fits }
        · cases hs

/-! ## All steps -/

theorem R.get (h : R c s σ) {x d : Nat} {es : List Event} (hs : Guards.get c s t x d = some (s', es)) :
    s' = s ∧ Follows (next c false) (R c s) σ es := by
  unfold Guards.get at hs
  rw [h.stk t, List.getElem?_map] at hs
  cases hd : (σ.scopes t)[d]? with
  | none => simp only [hd, Option.map_none] at hs; cases hs
  | some sc =>
    simp only [hd, Option.map_some] at hs
    have hon : sc.frame.owned = sc.strictOn.map some := by cases sc <;> rfl
    rw [hon] at hs
    cases hso : sc.strictOn with
    | none => simp only [hso, Option.map_none] at hs; cases hs
    | some m =>
      simp only [hso, Option.map_some] at hs
      split at hs <;> cases hs
      · rename_i hok
        refine ⟨rfl, ?_⟩
        simp only [Follows, next, hd, hso]
        by_cases hm : m = c.mx x
        · subst hm
          rw [if_pos rfl]
          have hfr : ((σ.scopes t).set d (sc.give x)).map Scope.frame = (σ.scopes t).map Scope.frame := by
            rw [List.map_set]
            apply List.ext_getElem?
            intro j
            by_cases hj : d = j
            · subst hj
              have hlt := (List.getElem?_eq_some_iff.mp hd).1
              rw [List.getElem?_set_self (by simpa using hlt), List.getElem?_map, hd]
              cases sc <;> rfl
            · rw [List.getElem?_set_ne hj]
          have hcnt : ∀ b m', ((σ.scopes t).set d (sc.give x)).countP (Scope.holds b m') = (σ.scopes t).countP (Scope.holds b m') := by
            intro b m'
            have hg : (sc.give x).holds b m' = sc.holds b m' := by cases sc <;> rfl
            obtain ⟨hlt, he⟩ := List.getElem?_eq_some_iff.mp hd
            rw [List.countP_set hlt, hg, he]
            have : (if sc.holds b m' = true then 1 else 0) ≤ (σ.scopes t).countP (Scope.holds b m') := by
              split
              · rename_i hh; exact List.countP_pos_iff.mpr ⟨sc, he ▸ List.getElem_mem hlt, hh⟩
              · omega
            omega
          have hX : Spec.excl { σ with scopes := upd σ.scopes t ((σ.scopes t).set d (sc.give x)) } = σ.excl := by
            funext u m'
            simp only [Spec.excl, upd_apply]
            split
            · rename_i hu; subst hu; rw [hcnt]
            · rfl
          have hS : Spec.shared { σ with scopes := upd σ.scopes t ((σ.scopes t).set d (sc.give x)) } = σ.shared := by
            funext u m'
            simp only [Spec.shared, upd_apply]
            split
            · rename_i hu; subst hu; rw [hcnt]
            · rfl
          refine ⟨h.ub, h.lk, fun u => ?_, by rw [hX, hS]; exact h.m, by rw [hX, hS]; exact h.out, h.ty, fun u sc' hm => ?_⟩
          · simp only [upd_apply]
            split
            · rename_i hu; subst hu; rw [hfr]; exact h.stk u
            · exact h.stk u
          · simp only [upd_apply] at hm
            split at hm
            · rename_i hu
              subst hu
              rcases List.mem_or_eq_of_mem_set hm with hm | rfl
              · exact h.fits u sc' hm
              · have := h.fits u sc (List.mem_of_getElem? hd)
                cases sc <;> exact this
            · exact h.fits u sc' hm
        · rw [if_neg (by simpa using hm)]
          rcases hok with hc | hc
          · simp [hc]
          · exact absurd (Option.some.inj hc) hm
      · rename_i hno
        refine ⟨rfl, ?_⟩
        simp only [Follows, next, hd, hso]
        rw [if_neg (by simp only [reduceCtorEq, or_false]; exact fun h' => hno (.inr h'))]
        exact h

theorem act_sim (h : R c s σ) {l : Label} (ht : l.thread < c.n) {es : List Event} (hs : act c s l = some (s', es)) : Follows (next c false) (R c s') σ es ∧
    (s'.ub = false ∨ ∃ e, es = [e] ∧ next c false σ e = .undefined) := by
  have hlk := h.lk
  cases l with
  | lock t m =>
    simp only [Label.thread] at ht
    simp only [act] at hs
    split at hs <;> cases hs
    rename_i hc
    simp only [Follows, next]
    rw [if_pos ((h.may ht).mpr hc)]
    exact ⟨h.rawLock ht hc, .inl h.ub⟩
  | tryLock t m =>
    simp only [Label.thread] at ht
    simp only [act] at hs
    split at hs <;> cases hs <;> rename_i hc <;> simp only [Follows, next]
    · rw [if_pos ((h.may ht).mpr hc)]
      exact ⟨h.rawLock ht hc, .inl h.ub⟩
    · rw [if_neg (fun hm => hc ((h.may ht).mp hm))]
      exact ⟨h, .inl h.ub⟩
  | unlock t m =>
    simp only [Label.thread] at ht
    simp only [act] at hs
    cases hs
    by_cases h0 : σ.raw t m = 0
    · refine ⟨?_, .inr ⟨_, rfl, ?_⟩⟩ <;> simp [Follows, next, h0]
    · have h1 := h.rawUnlock ht h0
      refine ⟨?_, .inl h1.ub⟩
      simp only [Follows, next, if_neg h0]
      exact h1
  | guard t m =>
    simp only [Label.thread] at ht
    simp only [act] at hs
    split at hs <;> cases hs
    rename_i hc
    simp only [Follows, next]
    rw [if_pos ((h.may ht).mpr hc)]
    exact ⟨h.openX ht (sc := .guard m) hc (fun u m' => scp_ind (by simp [Scope.holds])) (by simp [scp, Scope.holds]) trivial, .inl h.ub⟩
  | adopt t m =>
    simp only [Label.thread] at ht
    simp only [act] at hs
    cases hs
    refine ⟨?_, .inl h.ub⟩
    simp only [Follows, next]
    by_cases h0 : σ.raw t m = 0
    · simp [h0]
    · rw [if_neg h0]
      exact {
        ub := h.ub
        lk := h.lk
        stk := stk_open (σ := σ.setRaw t m (σ.raw t m - 1)) (sc := .guard m) h.stk
        m := (h.m.eqs (X' := ((σ.setRaw t m (σ.raw t m - 1)).open t (.guard m)).excl) (S' := ((σ.setRaw t m (σ.raw t m - 1)).open t (.guard m)).shared)
          (fun u m' => by rw [excl_open, scp_ind (m := m) (by simp [Scope.holds])]; exact (raw_pred h0 u m').symm)
          (fun u m' => by rw [shared_open, shared_setRaw]; simp [scp, Scope.holds])).congr rfl rfl
        out := out_open (out_setRaw h.out ht) ht
        ty := h.ty
        fits := fits_open (σ := σ.setRaw t m (σ.raw t m - 1)) h.fits trivial }
  | sguard t m =>
    simp only [Label.thread] at ht
    simp only [act] at hs
    split at hs <;> cases hs
    rename_i hc
    simp only [Follows, next]
    rw [if_pos (h.mayS.mpr hc)]
    exact ⟨h.openS ht (sc := .sguard m) hc (fun u m' => scp_ind (by simp [Scope.holds])) (by simp [scp, Scope.holds]) trivial, .inl h.ub⟩
  | strict t m =>
    simp only [Label.thread] at ht
    simp only [act] at hs
    split at hs <;> cases hs
    rename_i hc
    simp only [Follows, next]
    rw [if_pos ((h.may ht).mpr hc)]
    exact ⟨h.openX ht (sc := .strict m []) hc (fun u m' => scp_ind (by simp [Scope.holds])) (by simp [scp, Scope.holds]) trivial, .inl h.ub⟩
  | nested t i =>
    simp only [Label.thread] at ht
    simp only [act, nested] at hs
    cases hl : (σ.lk t)[i]? with
    | none => rw [hlk, hl] at hs; cases hs
    | some o =>
      have hl' : (s.lk t)[i]? = some o := by rw [hlk]; exact hl
      obtain ⟨sh, mo, ow⟩ := o
      simp only [hl'] at hs
      cases mo with
      | none => cases hs; simp only [Follows, next, hl]; exact ⟨h, .inl h.ub⟩
      | some m =>
        cases ow with
        | true =>
          simp only [↓reduceIte] at hs
          cases hs
          simp only [Follows, next, hl, true_or, ↓reduceIte]
          exact ⟨h.nestOwned ht hl, .inl h.ub⟩
        | false =>
          simp only [Bool.false_eq_true, ↓reduceIte] at hs
          split at hs <;> cases hs
          rename_i hc
          simp only [Follows, next, hl, Bool.false_eq_true, false_or]
          rw [if_pos ((h.mayA ht).mpr hc)]
          have h1 := h.nestLock ht hl hc
          exact ⟨h1, .inl h1.ub⟩
  | reverse t i =>
    simp only [Label.thread] at ht
    simp only [act, reverse] at hs
    cases hl : (σ.lk t)[i]? with
    | none => rw [hlk, hl] at hs; cases hs
    | some o =>
      have hl' : (s.lk t)[i]? = some o := by rw [hlk]; exact hl
      simp only [hl'] at hs
      cases hs
      simp only [Follows, next, hl, and_true]
      by_cases hsh : o.sh = true
      · refine ⟨?_, .inr ⟨_, rfl, ?_⟩⟩ <;> simp [Follows, next, hl, hsh]
      · have hsh' : o.sh = false := by simpa using hsh
        rw [if_neg hsh]
        have h1 := h.reverse ht hl hsh'
        exact ⟨h1, .inl h1.ub⟩
  | leave t =>
    simp only [Label.thread] at ht
    simp only [act] at hs
    obtain ⟨rfl, σ', hc, h1⟩ := h.leave ht hs
    simp only [Follows, next, hc]
    exact ⟨h1, .inl h1.ub⟩
  | lkSet t i mo =>
    simp only [Label.thread] at ht
    simp only [act] at hs
    cases hl : (σ.lk t)[i]? with
    | none => rw [hlk, hl] at hs; cases hs
    | some o =>
      have hl' : (s.lk t)[i]? = some o := by rw [hlk]; exact hl
      simp only [hl'] at hs
      cases hs
      simp only [Follows, next, hl]
      have h1 := h.assign ht (o := ⟨o.sh, mo, false⟩) hl rfl rfl
      exact ⟨h1, .inl h1.ub⟩
  | lkLock t i =>
    simp only [Label.thread] at ht
    simp only [act, lkLock] at hs
    cases hl : (σ.lk t)[i]? with
    | none => rw [hlk, hl] at hs; cases hs
    | some o =>
      have hl' : (s.lk t)[i]? = some o := by rw [hlk]; exact hl
      obtain ⟨sh, mo, ow⟩ := o
      simp only [hl'] at hs
      cases mo with
      | none => cases hs; simp only [Follows, next, hl]; simp; exact ⟨h, .inl h.ub⟩
      | some m =>
        cases ow with
        | true => simp only [↓reduceIte] at hs; cases hs; simp only [Follows, next, hl]; simp; exact ⟨h, .inl h.ub⟩
        | false =>
          simp only [Bool.false_eq_true, ↓reduceIte] at hs
          split at hs <;> cases hs
          rename_i hc
          simp only [Follows, next, hl]
          rw [if_pos ((h.mayA ht).mpr hc)]
          have h1 := h.lkLock ht hl hc
          exact ⟨h1, .inl h1.ub⟩
  | lkUnlock t i =>
    simp only [Label.thread] at ht
    simp only [act, lkUnlock] at hs
    cases hl : (σ.lk t)[i]? with
    | none => rw [hlk, hl] at hs; cases hs
    | some o =>
      have hl' : (s.lk t)[i]? = some o := by rw [hlk]; exact hl
      simp only [hl'] at hs
      split at hs <;> cases hs <;> rename_i how
      · simp only [Follows, next, hl, how, ↓reduceIte]
        have h1 := h.assign ht (o := ⟨o.sh, o.mtx, false⟩) hl rfl rfl
        exact ⟨h1, .inl h1.ub⟩
      · simp only [Follows, next, hl, how, Bool.false_eq_true, ↓reduceIte]
        exact ⟨h, .inl h.ub⟩
  | lkOwns t i =>
    simp only [Label.thread] at ht
    simp only [act] at hs
    cases hl : (σ.lk t)[i]? with
    | none => rw [hlk, hl] at hs; cases hs
    | some o =>
      have hl' : (s.lk t)[i]? = some o := by rw [hlk]; exact hl
      simp only [hl'] at hs
      cases hs
      simp only [Follows, next, hl, ↓reduceIte]
      exact ⟨h, .inl h.ub⟩
  | get t x d =>
    simp only [act] at hs
    obtain ⟨rfl, h1⟩ := h.get hs
    exact ⟨h1, .inl h.ub⟩

theorem sim (h : R c s σ) {l : Label} {es : List Event} (hs : step c s l = some (s', es)) : Follows (next c false) (R c s') σ es := by
  unfold step at hs
  split at hs
  rotate_left
  · cases hs
  rename_i hg
  split at hs <;> cases hs
  rename_i heq
  have h1 := act_sim h hg.2 heq
  rcases h1.2 with hu | ⟨e, rfl, he⟩
  · rw [if_neg (by simp [hu])]; exact h1.1
  · split <;> simp [Follows, he]

theorem R.init (c : Cfg) : R c (init c) (Spec.new c) where
  ub := rfl
  lk := rfl
  stk _ := rfl
  m := by
    have hn : ∀ b m, ∀ l : List Bool, (l.map fun b => (⟨b, none, false⟩ : Obj)).countP (Obj.holds b m) = 0 := by
      intro b m l
      induction l with
      | nil => rfl
      | cons a l ih => simp [List.countP_cons, ih, Obj.holds]
    exact ⟨fun t m => by simp only [Spec.excl, Spec.new, hn]; rfl, fun t m => by simp only [Spec.shared, Spec.new, hn]; rfl, fun m u d he => by cases he⟩
  out t _ m := by
    have hn : ∀ b m, ∀ l : List Bool, (l.map fun b => (⟨b, none, false⟩ : Obj)).countP (Obj.holds b m) = 0 := by
      intro b m l
      induction l with
      | nil => rfl
      | cons a l ih => simp [List.countP_cons, ih, Obj.holds]
    exact ⟨by simp only [Spec.excl, Spec.new, hn]; rfl, by simp only [Spec.shared, Spec.new, hn]; rfl⟩
  ty t := by show ((c.sh t).map _).map _ = _; rw [List.map_map]; exact List.map_id _
  fits t sc hm := by cases hm

end Verif.Guards
