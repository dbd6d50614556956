import Verif.FutureHandle.Sim
/-!
# Futures: the simulation
-/

set_option linter.unusedSimpArgs false

namespace Verif.FutureHandle

variable {c : Cfg} {s s' : State} {σ : Spec}

theorem upd_self {α : Type} (f : Nat → α) (i : Nat) : upd f i (f i) = f := by
  funext j; simp only [upd_apply]; split <;> simp_all

theorem upd_upd {α : Type} (f : Nat → α) (i : Nat) (a b : α) : upd (upd f i a) i b = upd f i b := by
  funext j; simp only [upd_apply]; split <;> rfl

theorem get_value {x : SS} {y : Cell} {v : Nat} {ty : Ty} (hc : CellRel ty x y) (ho : y.out = some (.value v)) :
    (x.get ty).1 = valueRet ty y.taken v ∧ x.getSh ty = valueRet ty y.taken v ∧ x.hasValue = true ∧ CellRel ty (x.get ty).2 { y with taken := true } ∧ x.exception = none := by
  simp only [CellRel, ho] at hc
  obtain ⟨h1, h2, h3⟩ := hc
  cases ty
  · cases ht : y.taken <;> simp [SS.get, SS.getSh, SS.hasValue, h1, h2, h3, ht, valueRet, CellRel, ho]
  · simp [SS.get, SS.getSh, SS.hasValue, h1, h2, h3, valueRet, CellRel, ho]
  · simp [SS.get, SS.getSh, SS.hasValue, h1, h2, h3, valueRet, CellRel, ho]

theorem get_exn {x : SS} {y : Cell} {e : Option Nat} {ty : Ty} (hc : CellRel ty x y) (ho : y.out = some (.exn e)) :
    ∃ v, e = some v ∧ x.exception = some v ∧ x.get ty = (.threw v, x) ∧ x.getSh ty = .threw v ∧ x.hasValue = false := by
  simp only [CellRel, ho] at hc
  obtain ⟨h1, h2, h3⟩ := hc
  obtain ⟨v, rfl⟩ := Option.ne_none_iff_exists'.1 h3
  exact ⟨v, rfl, h2, by simp [SS.get, h2], by simp [SS.getSh, h2], by simp [SS.hasValue, h2]⟩

theorem get_keeps {x : SS} {ty : Ty} : (x.get ty).2.obtained = x.obtained ∧ (x.get ty).2.isValid = x.isValid := by
  simp only [SS.get]
  repeat' split
  all_goals exact ⟨rfl, rfl⟩

theorem out_of_done {x : SS} {y : Cell} {ty : Ty} (hc : CellRel ty x y) : x.done = y.out.isSome := by
  simp only [CellRel] at hc
  split at hc <;> simp_all

theorem R.validity (h : R c s σ) {t x k : Nat} (hp : s.pc t = .waiting x .get k) (hs : c.shared x = false) : (s.st k).isValid = !c.invalidates := by
  cases hi : c.invalidates with
  | true => exact (h.pcw t x .get k hp).2.2.2 rfl hs hi
  | false => exact h.always hi k

/-- A return that is as expected. -/
theorem returned {P : Spec → Prop} {t x : Nat} {op : Op} {r : Ret} (hm : (t, x, op) ∈ σ.busy) (hr : expected false c σ x op = some r)
    (h : P (Spec.give c { σ with busy := σ.busy.filter fun y => y.1 != t } x op)) : Follows (next false c) P σ [.returned t x op r] := by
  have hn : r ≠ .interrupted ∧ r ≠ .timeout := by
    constructor
    all_goals
      rintro rfl
      revert hr
      simp only [expected]
      repeat' split
      all_goals simp only [Option.map_eq_some_iff, reduceCtorEq, Option.some.injEq, false_implies, forall_exists_index, and_imp, imp_false]
      all_goals first | trivial | skip
      all_goals
        rintro ⟨o, -, he⟩
        revert he
        cases o <;> cases op <;> simp only [answer, valueRet, reduceCtorEq, not_false_eq_true, false_implies]
        all_goals repeat' split
        all_goals simp
  simp only [Follows, next, check, List.contains_iff_mem, hm, ↓reduceIte]
  obtain ⟨h1, h2⟩ := hn
  cases r <;> first | (simp only [hr, beq_self_eq_true, ↓reduceIte]; exact h) | exact absurd rfl h1 | exact absurd rfl h2

theorem finish_sim (h : R c s σ) {t x k : Nat} {op : Op} (hp : s.pc t = .waiting x op k) (hd : (s.st k).done = true) :
    Follows (next false c) (R c (s.finish c t x op k).1) σ (s.finish c t x op k).2 := by
  have hon : (s.pc t).on = some (x, op) := by simp [hp, PC.on]
  have hm := (h.busy t x op).2 hon
  obtain ⟨b1, b2, b3, b4⟩ := h.pcw t x op k hp
  have hcell := h.cell k
  have hout := out_of_done hcell
  rw [hd] at hout
  obtain ⟨o, ho⟩ := Option.isSome_iff_exists.1 hout.symm
  have href : σ.ref x = .ref k ∨ σ.ref x = .spent k := by
    cases hr : σ.ref x <;> simp [hr, Ref.target] at b1 ⊢ <;> exact b1
  have nongive : op.consumes c x = false → Spec.give c { σ with busy := σ.busy.filter fun y => y.1 != t } x op = { σ with busy := σ.busy.filter fun y => y.1 != t } := by
    intro hc; simp only [Spec.give, hc]; split <;> simp
  have hleave : op.consumes c x = false → ∀ r, expected false c σ x op = some r → Follows (next false c) (R c { s with pc := upd s.pc t .idle }) σ [.returned t x op r] := by
    intro hc r hr
    refine returned hm hr ?_
    rw [nongive hc]
    refine h.leave hon ?_
    rintro rfl; simpa [Op.consumes] using hc
  cases op with
  | get =>
    cases hs : c.shared x with
    | true =>
      have hr : σ.ref x = .ref k := href.resolve_right (fun e => by have := (h.spent x k e).1; rw [hs] at this; cases this)
      simp only [State.finish, hs, State.ret]
      refine hleave (by simp [Op.consumes, hs]) _ ?_
      cases o with
      | value v => simp only [expected, Op.retrieves, Bool.false_eq_true, ↓reduceIte, answer, Option.map_some, hr, ho]; rw [(get_value hcell ho).2.1]
      | exn e => obtain ⟨v, rfl, -, -, hg, -⟩ := get_exn hcell ho; simp only [expected, Op.retrieves, Bool.false_eq_true, ↓reduceIte, answer, Option.map_some, hr, ho, hg]; rfl
    | false =>
      have hc : Op.get.consumes c x = true := by simp [Op.consumes, hs]
      have hr := b2 hc
      simp only [State.finish, hs, State.ret, State.setSt]
      cases o with
      | value v =>
        obtain ⟨g1, g2, g3, g4, g5⟩ := get_value hcell ho
        refine returned hm (by simp only [expected, Op.retrieves, Bool.false_eq_true, ↓reduceIte, answer, Option.map_some, hr, ho, g1]) ?_
        rw [ho] at g4
        simp only [Spec.give, hr, hc, ho, ↓reduceIte]
        exact h.consume hon hc hr get_keeps.1 (get_keeps.2.trans (h.validity hp hs)) rfl ho.symm g4
      | exn e =>
        obtain ⟨v, rfl, -, hg, -, -⟩ := get_exn hcell ho
        refine returned hm (by simp only [expected, Op.retrieves, Bool.false_eq_true, ↓reduceIte, answer, Option.map_some, hr, ho, hg]; rfl) ?_
        simp only [Spec.give, hr, hc, ho, ↓reduceIte, hg]
        have := h.consume (y := s.st k) (z := σ.cell k) hon hc hr rfl (h.validity hp hs) rfl rfl hcell
        rwa [upd_self σ.cell] at this
  | getOr d =>
    have hty : c.ty = .object := by simpa [Op.hasForm] using b3
    cases hs : c.shared x with
    | true =>
      have hr : σ.ref x = .ref k := href.resolve_right (fun e => by have := (h.spent x k e).1; rw [hs] at this; cases this)
      simp only [State.finish, hs, State.ret]
      cases o with
      | exn e =>
        obtain ⟨v, rfl, hx, hg, -, -⟩ := get_exn hcell ho
        simp only [hx]
        refine hleave (by simp [Op.consumes, hs]) _ ?_
        simp only [expected, Op.retrieves, Bool.false_eq_true, ↓reduceIte, answer, Option.map_some, hr, ho, hs]; rfl
      | value v =>
        obtain ⟨g1, g2, g3, g4, g5⟩ := get_value hcell ho
        simp only [g5, State.setPc, Follows]
        obtain ⟨a1, a2, a3, a4, a5, a6, a7, a8, a9, a10, a11, a12, a13, a14⟩ := h
        refine ⟨a1, a2, a3, a4, a5, a6, a7, a8, ?_, ?_, a11, ?_, ?_, a14⟩
        · intro h' k' hk'
          rcases a9 h' k' hk' with hv' | ⟨t', ht', hs'⟩
          · exact .inl hv'
          · refine .inr ⟨t', ?_, hs'⟩
            simp only [upd_apply]
            rw [if_neg]
            · exact ht'
            · rintro rfl; rw [hp] at ht'; cases ht'
        · intro t' h' op'
          simp only [upd_apply]
          split
          · rename_i e; subst e; rw [a10, hp]; rfl
          · exact a10 t' h' op'
        · intro t' h' op' k' hw
          simp only [upd_apply] at hw
          split at hw
          · cases hw
          · exact a12 t' h' op' k' hw
        · intro t' h' d' k' hw
          simp only [upd_apply] at hw
          split at hw
          · rcases hw with hw | hw <;> cases hw
            exact ⟨hs, hr, hty, v, ho⟩
          · exact a13 t' h' d' k' hw
    | false =>
      have hc : (Op.getOr d).consumes c x = true := by simp [Op.consumes, hs]
      have hr := b2 hc
      have hval : (s.st k).isValid = true := by
        rcases h.valid x k hr with hv | ⟨t', ht', -⟩
        · exact hv
        · have e := h.excl t t' x _ .get hm ((h.busy _ _ _).2 (by simp [ht', PC.on])) hc
          subst e; rw [hp] at ht'; cases ht'
      simp only [State.finish, hs, State.ret, State.setSt]
      generalize hy : (if c.invalidates then { s.st k with isValid := false } else s.st k) = y
      have yv : y.isValid = !c.invalidates := by subst hy; cases c.invalidates <;> simp [hval]
      have yo : y.obtained = (s.st k).obtained := by subst hy; split <;> rfl
      have yc : CellRel c.ty y (σ.cell k) := by
        subst hy; split
        · exact hcell
        · exact hcell
      cases o with
      | value v =>
        obtain ⟨g1, g2, g3, g4, g5⟩ := get_value yc ho
        simp only [g3, ↓reduceIte]
        refine returned hm (by simp only [expected, Op.retrieves, Bool.false_eq_true, ↓reduceIte, answer, Option.map_some, hr, ho, g1]) ?_
        rw [ho] at g4
        simp only [Spec.give, hr, hc, ho, ↓reduceIte]
        exact h.consume hon hc hr (get_keeps.1.trans yo) (get_keeps.2.trans yv) rfl ho.symm g4
      | exn e =>
        obtain ⟨v, rfl, -, hg, -, hv⟩ := get_exn yc ho
        simp only [hv, Bool.false_eq_true, ↓reduceIte]
        refine returned hm (by simp only [expected, Op.retrieves, Bool.false_eq_true, ↓reduceIte, answer, Option.map_some, hr, ho, hs]; rfl) ?_
        simp only [Spec.give, hr, hc, ho, ↓reduceIte, hg]
        have := h.consume (z := σ.cell k) hon hc hr yo yv rfl rfl yc
        rwa [upd_self σ.cell] at this
  | wait =>
    simp only [State.finish, State.ret]
    refine hleave rfl _ ?_
    rcases href with hr | hr <;> cases o <;> simp only [expected, Op.retrieves, Bool.false_eq_true, ↓reduceIte, answer, Option.map_some, hr, ho]
  | waitFor =>
    simp only [State.finish, State.ret]
    refine hleave rfl _ ?_
    rcases href with hr | hr <;> cases o <;> simp only [expected, Op.retrieves, Bool.false_eq_true, ↓reduceIte, answer, Option.map_some, hr, ho]
  | excPtr =>
    simp only [State.finish, State.ret]
    refine hleave rfl _ ?_
    cases o with
    | value v => rcases href with hr | hr <;> simp only [expected, Op.retrieves, Bool.false_eq_true, ↓reduceIte, answer, Option.map_some, hr, ho, (get_value hcell ho).2.2.2.2]
    | exn e => obtain ⟨v, rfl, hx, -⟩ := get_exn hcell ho; rcases href with hr | hr <;> simp only [expected, Op.retrieves, Bool.false_eq_true, ↓reduceIte, answer, Option.map_some, hr, ho, hx]

theorem require_follows {P : Spec → Prop} {e : Event} {b : Bool} {v : Verdict Spec} (he : next false c σ e = require b v) (h : b = true → ∃ σ', v = .ok σ' ∧ P σ') :
    Follows (next false c) P σ [e] := by
  cases hb : b with
  | false => simp [Follows, he, require, hb]
  | true =>
    obtain ⟨σ', hv, hp⟩ := h hb
    simp [Follows, he, require, hb, hv, hp]

theorem R.outcome (h : R c s σ) {x k : Nat} (hp : s.ptr x = some k) : σ.outcome x = (σ.cell k).out := by
  rw [h.ptr] at hp
  simp [Spec.outcome, hp]

theorem R.setCell (h : R c s σ) {k : Nat} {y : SS} {z : Cell} (hy : y.obtained = (s.st k).obtained) (hv : y.isValid = (s.st k).isValid) (hz : z.given = (σ.cell k).given)
    (hzo : (σ.cell k).out.isSome → z.out = (σ.cell k).out) (hc : CellRel c.ty y z) : R c (s.setSt k y) { σ with cell := upd σ.cell k z } := by
  obtain ⟨a1, a2, a3, a4, a5, a6, a7, a8, a9, a10, a11, a12, a13, a14⟩ := h
  have e1 : ∀ k', (upd s.st k y k').isValid = (s.st k').isValid := by intro k'; simp only [upd_apply]; split <;> simp_all
  have e2 : ∀ k', (upd σ.cell k z k').given = (σ.cell k').given := by intro k'; simp only [upd_apply]; split <;> simp_all
  refine ⟨a1, ?_, ?_, ?_, ?_, a6, a7, ?_, ?_, a10, a11, ?_, ?_, ?_⟩
  · intro k'; simp only [State.setSt, upd_apply]; split
    · exact hc
    · exact a2 k'
  · intro k'; simp only [State.setSt, upd_apply]; split
    · rename_i e; subst e; rw [hy, hz]; exact a3 _
    · exact a3 k'
  · intro h' k' hk'; simp only [e2]; exact a4 h' k' hk'
  · intro k' hk'; simp only [e2] at hk'; simp only [State.setSt, e1]; exact a5 k' hk'
  · intro h' k' hk'; simp only [State.setSt, e1]; exact a8 h' k' hk'
  · intro h' k' hk'; simp only [State.setSt, e1]; exact a9 h' k' hk'
  · intro t' h' op' k' hw; simp only [State.setSt, e1]; exact a12 t' h' op' k' hw
  · intro t' h' d k' hw
    obtain ⟨b1, b2, b3, v, b4⟩ := a13 t' h' d k' hw
    refine ⟨b1, b2, b3, v, ?_⟩
    simp only [upd_apply]; split
    · rename_i e; subst e; rw [hzo (by simp [b4]), b4]
    · exact b4
  · intro hi k'; simp only [State.setSt, e1]; exact a14 hi k'

theorem R.new (h : R c s σ) {k x : Nat} {y : SS} {z : Cell} (hq : σ.quiet x = true) (hl : x < c.handles) (hg : (σ.cell k).given = false) (hy : y.obtained = true) (hv : y.isValid = true)
    (hz : z.given = true) (hc : CellRel c.ty y z) :
    R c { s with st := upd s.st k y, ptr := upd s.ptr x (some k) } { σ with cell := upd σ.cell k z, ref := upd σ.ref x (.ref k) } := by
  have hon := h.quiet hq
  obtain ⟨a1, a2, a3, a4, a5, a6, a7, a8, a9, a10, a11, a12, a13, a14⟩ := h
  have hno : ∀ h', (σ.ref h').target ≠ some k := by intro h' e; rw [a4 h' k e] at hg; cases hg
  have hpw : ∀ t' h' op' k', s.pc t' = .waiting h' op' k' → h' ≠ x ∧ k' ≠ k := by
    intro t' h' op' k' hw
    constructor
    · rintro rfl; exact hon t' op' (by simp [hw, PC.on])
    · rintro rfl; exact hno h' (a12 t' h' op' k' hw).1
  refine ⟨?_, ?_, ?_, ?_, ?_, ?_, ?_, ?_, ?_, a10, a11, ?_, ?_, ?_⟩
  · intro h'; simp only [upd_apply]; split
    · rfl
    · exact a1 h'
  · intro k'; simp only [upd_apply]; split
    · exact hc
    · exact a2 k'
  · intro k'; simp only [upd_apply]; split
    · rw [hy, hz]
    · exact a3 k'
  · intro h' k' hk'; simp only [upd_apply] at hk' ⊢
    split
    · exact hz
    · split at hk'
      · cases hk'; contradiction
      · exact a4 h' k' hk'
  · intro k' hk'; simp only [upd_apply] at hk' ⊢
    split
    · exact hv
    · rename_i e; rw [if_neg e] at hk'; exact a5 k' hk'
  · intro h' k' hk'; simp only [upd_apply] at hk'
    split at hk'
    · rename_i e; subst e; exact hl
    · exact a6 h' k' hk'
  · intro h1 h2 k' hs h3 h4
    simp only [upd_apply] at h3 h4
    split at h3 <;> split at h4
    · simp_all
    · cases h3; exact absurd h4 (hno h2)
    · cases h4; exact absurd h3 (hno h1)
    · exact a7 h1 h2 k' hs h3 h4
  · intro h' k' hk'
    simp only [upd_apply] at hk' ⊢
    split at hk'
    · cases hk'
    · rw [if_neg]
      · exact a8 h' k' hk'
      · rintro rfl; exact hno h' (by rw [hk']; rfl)
  · intro h' k' hk'
    simp only [upd_apply] at hk' ⊢
    split at hk'
    · cases hk'; simp [hv]
    · rw [if_neg]
      · exact a9 h' k' hk'
      · rintro rfl; exact hno h' (by rw [hk']; rfl)
  · intro t' h' op' k' hw
    obtain ⟨n1, n2⟩ := hpw t' h' op' k' hw
    simp only [upd_apply, n1, n2, if_false]
    exact a12 t' h' op' k' hw
  · intro t' h' d k' hw
    have hw' : s.pc t' = _ ∨ s.pc t' = _ := hw
    have n1 : h' ≠ x := by
      rintro rfl; exact hon t' (.getOr d) (by rcases hw' with hw | hw <;> simp [hw, PC.on])
    obtain ⟨b1, b2, b3, v, b4⟩ := a13 t' h' d k' hw
    have n2 : k' ≠ k := by rintro rfl; exact hno h' (by rw [b2]; rfl)
    simp only [upd_apply, n1, n2, if_false]
    exact ⟨b1, b2, b3, v, b4⟩
  · intro hi k'; simp only [upd_apply]; split
    · exact hv
    · exact a14 hi k'

theorem cellRel_finish {x : SS} {y : Cell} {ty : Ty} {o : Outcome} (hc : CellRel ty x y) (hn : y.out = none) (ho : o ≠ .exn none) :
    CellRel ty (x.finish ty o) { y with out := some o } := by
  simp only [CellRel, hn] at hc
  obtain ⟨h1, h2, h3, h4⟩ := hc
  cases o with
  | value v => cases ty <;> simp [CellRel, SS.finish, h2, h3, h4]
  | exn e => simp only [CellRel, SS.finish, true_and]; rintro rfl; exact ho rfl

theorem move_sim (h : R c s σ) {src dst : Nat} (hs : src < c.handles) (hd : dst < c.handles) (hm : σ.movable false c src dst = true) :
    R c { s with ptr := upd (upd s.ptr dst (s.ptr src)) src none } { σ with ref := upd (upd σ.ref dst (σ.ref src)) src .none } := by
  simp only [Spec.movable, Bool.and_eq_true, bne_iff_ne, Bool.false_or] at hm
  obtain ⟨⟨⟨hne, q1⟩, q2⟩, q3⟩ := hm
  have hq := h.quiet q1
  have hval : ∀ k, σ.ref src = .ref k → (s.st k).isValid = true := by
    intro k hk
    rcases h.valid src k hk with hv | ⟨t, ht, -⟩
    · exact hv
    · exact absurd (by simp [ht, PC.on]) (hq t .get)
  -- nobody else refers to what `dst` gets, if `dst` is a future
  have halone : ∀ k x, c.shared dst = false → (σ.ref src).target = some k → (σ.ref x).target = some k → x = src := by
    intro k x hsd hk hx
    cases hss : c.shared src with
    | false => exact h.uniq src x k hss hk hx
    | true =>
      cases hr : σ.ref src with
      | none => rw [hr] at hk; cases hk
      | spent k' => have := (h.spent src k' hr).1; rw [hss] at this; cases this
      | ref k' =>
        rw [hr] at hk q3; cases hk
        simp only [hss, hsd, Bool.not_true, Bool.false_or, List.all_eq_true, List.mem_range, Bool.or_eq_true, beq_iff_eq, bne_iff_ne] at q3
        rcases q3 x (h.lt x _ hx) with e | e
        · exact e
        · exact absurd hx e
  refine h.setRef ?_ ?_ ?_ ?_ ?_ ?_ ?_
  · intro x; simp only [upd_apply, h.ptr]; split
    · rfl
    · split <;> rfl
  · intro x; simp only [upd_apply]; split
    · rename_i e; subst e; intro; exact q1
    · split
      · rename_i e; subst e; intro; exact q2
      · intro e; exact absurd rfl e
  · intro x k; simp only [upd_apply]; split
    · intro e; cases e
    · split
      · exact h.fresh src k
      · exact h.fresh x k
  · intro x k; simp only [upd_apply]; split
    · intro e; cases e
    · split
      · rename_i e; subst e; intro; exact hd
      · exact h.lt x k
  · intro x x' k hsx h1 h2
    simp only [upd_apply] at h1 h2
    split at h1
    · cases h1
    split at h2
    · cases h2
    rename_i n1 n2
    split at h1 <;> split at h2
    · simp_all
    · rename_i e1 e2; subst e1; exact absurd (halone k x' hsx h1 h2) n2
    · rename_i e1 e2; subst e2; exact absurd (h.uniq x src k hsx h1 h2).symm n1
    · exact h.uniq x x' k hsx h1 h2
  · intro x k; simp only [upd_apply]; split
    · intro e; cases e
    · split
      · rename_i e; subst e; intro hk
        refine ⟨?_, (h.spent src k hk).2⟩
        rw [hk] at q3
        simp only [(h.spent src k hk).1, Bool.false_or, Bool.not_eq_true'] at q3
        exact q3
      · exact h.spent x k
  · intro x k hk hn
    simp only [upd_apply] at hk hn
    split at hk
    · cases hk
    · rename_i e; rw [if_neg e] at hn
      split at hk
      · exact hval k hk
      · rename_i e'; rw [if_neg e'] at hn; exact absurd rfl hn

theorem copy_sim (h : R c s σ) {src dst : Nat} (hd : dst < c.handles) (hss : c.shared src = true) (hsd : c.shared dst = true) (hm : σ.quiet dst = true) :
    R c { s with ptr := upd s.ptr dst (s.ptr src) } { σ with ref := upd σ.ref dst (σ.ref src) } := by
  refine h.setRef ?_ ?_ ?_ ?_ ?_ ?_ ?_
  · intro x; simp only [upd_apply, h.ptr]; split <;> rfl
  · intro x; simp only [upd_apply]; split
    · rename_i e; subst e; intro; exact hm
    · intro e; exact absurd rfl e
  · intro x k; simp only [upd_apply]; split
    · exact h.fresh src k
    · exact h.fresh x k
  · intro x k; simp only [upd_apply]; split
    · rename_i e; subst e; intro; exact hd
    · exact h.lt x k
  · intro x x' k hsx h1 h2
    simp only [upd_apply] at h1 h2
    split at h1
    · rename_i e; subst e; rw [hsd] at hsx; cases hsx
    · split at h2
      · have := h.uniq x src k hsx h1 h2; subst this; rw [hss] at hsx; cases hsx
      · exact h.uniq x x' k hsx h1 h2
  · intro x k; simp only [upd_apply]; split
    · intro hk; have := (h.spent src k hk).1; rw [hss] at this; cases this
    · exact h.spent x k
  · intro x k hk hn
    simp only [upd_apply] at hk hn
    split at hk
    · rcases h.valid src k hk with hv | ⟨t, -, hf⟩
      · exact hv
      · rw [hss] at hf; cases hf
    · rename_i e; rw [if_neg e] at hn; exact absurd rfl hn

theorem swap_sim (h : R c s σ) {a b : Nat} (ha : a < c.handles) (hb : b < c.handles) (hab : c.shared a = c.shared b) (qa : σ.quiet a = true) (qb : σ.quiet b = true) :
    R c { s with ptr := upd (upd s.ptr a (s.ptr b)) b (s.ptr a) } { σ with ref := upd (upd σ.ref a (σ.ref b)) b (σ.ref a) } := by
  have hval : ∀ x, σ.quiet x = true → ∀ k, σ.ref x = .ref k → (s.st k).isValid = true := by
    intro x q k hk
    rcases h.valid x k hk with hv | ⟨t, ht, -⟩
    · exact hv
    · exact absurd (by simp [ht, PC.on]) (h.quiet q t .get)
  -- where the content of `x` comes from
  have hfrom : ∀ x, ∃ y, upd (upd σ.ref a (σ.ref b)) b (σ.ref a) x = σ.ref y ∧ c.shared x = c.shared y ∧ y = (if x = b then a else if x = a then b else x) := by
    intro x; simp only [upd_apply]
    split
    · rename_i e; subst e; exact ⟨a, rfl, hab.symm, rfl⟩
    · split
      · rename_i e; subst e; exact ⟨b, rfl, hab, rfl⟩
      · exact ⟨x, rfl, rfl, rfl⟩
  refine h.setRef ?_ ?_ ?_ ?_ ?_ ?_ ?_
  · intro x; simp only [upd_apply, h.ptr]; split
    · rfl
    · split <;> rfl
  · intro x; simp only [upd_apply]; split
    · rename_i e; subst e; intro; exact qb
    · split
      · rename_i e; subst e; intro; exact qa
      · intro e; exact absurd rfl e
  · intro x k hk; obtain ⟨y, e, -⟩ := hfrom x; rw [e] at hk; exact h.fresh y k hk
  · intro x k hk
    simp only [upd_apply] at hk
    split at hk
    · rename_i e; subst e; exact hb
    · split at hk
      · rename_i e; subst e; exact ha
      · exact h.lt x k hk
  · intro x x' k hsx h1 h2
    obtain ⟨y, e, e1, e2⟩ := hfrom x
    obtain ⟨y', e', e1', e2'⟩ := hfrom x'
    rw [e] at h1; rw [e'] at h2; rw [e1] at hsx
    have := h.uniq y y' k hsx h1 h2
    rw [e2, e2'] at this
    clear e e' e1 e1' e2 e2' hfrom hval h1 h2
    repeat' split at this
    all_goals omega
  · intro x k hk
    obtain ⟨y, e, e1, -⟩ := hfrom x; rw [e] at hk; rw [e1]; exact h.spent y k hk
  · intro x k hk hn
    simp only [upd_apply] at hk hn
    split at hk
    · exact hval a qa k hk
    · rename_i e; rw [if_neg e] at hn
      split at hk
      · exact hval b qb k hk
      · rename_i e'; rw [if_neg e'] at hn; exact absurd rfl hn

theorem destroy_sim (h : R c s σ) {x : Nat} (hq : σ.quiet x = true) : R c { s with ptr := upd s.ptr x none } { σ with ref := upd σ.ref x .none } := by
  refine h.setRef ?_ ?_ ?_ ?_ ?_ ?_ ?_
  · intro y; simp only [upd_apply, h.ptr]; split <;> rfl
  · intro y; simp only [upd_apply]; split
    · rename_i e; subst e; intro; exact hq
    · intro e; exact absurd rfl e
  · intro y k; simp only [upd_apply]; split
    · intro e; cases e
    · exact h.fresh y k
  · intro y k; simp only [upd_apply]; split
    · intro e; cases e
    · exact h.lt y k
  · intro y y' k hs h1 h2
    simp only [upd_apply] at h1 h2
    split at h1
    · cases h1
    · split at h2
      · cases h2
      · exact h.uniq y y' k hs h1 h2
  · intro y k; simp only [upd_apply]; split
    · intro e; cases e
    · exact h.spent y k
  · intro y k hk hn
    simp only [upd_apply] at hk hn
    split at hk
    · cases hk
    · rename_i e; rw [if_neg e] at hn; exact absurd rfl hn

end Verif.FutureHandle
