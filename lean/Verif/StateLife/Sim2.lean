import Verif.StateLife.Sim
/-!
# The steps of the model
-/

set_option linter.unusedSimpArgs false
set_option linter.unusedVariables false

namespace Verif.StateLife

theorem not_in_conts {s : State} {σ : Spec} {c : Nat} (h : Inv s σ) (hc : c < s.n) (hp : ∀ p pol, (s.node c).kind = .cont p pol → (s.node p).ph = .over) :
    ∀ j, j < s.n → c ∉ (s.node j).conts := by
  intro j hj hm
  obtain ⟨g1, g2, g3, g4, g5, g6, g7⟩ := h.good.cont j c hj hm
  obtain ⟨-, -, pol, k⟩ := h.good.par c j hc g4
  exact g5 (hp j pol k)

/-- The call of a function. -/
theorem sim_begin {s : State} {σ : Spec} {c : Nat} {x : Node} {take : Option Nat} (h : Inv s σ) (hc : c < s.n)
    (hx : x = s.node c ∨ x = { s.node c with vec := false }) (ha : (s.node c).alive = true)
    (hp : ∀ p pol, (s.node c).kind = .cont p pol → (s.node p).ph = .over) (hph : ((s.node c).ph = .idle ∨ (s.node c).ph = .queued) ∧ (s.node c).kind.eager = true ∨ (s.node c).ph = .awaiting)
    (hv : (s.node c).kind.eager = true → x.vec = false)
    {s' : State} {es : List Event} (hs : begin s c x take = some (s', es)) : Follows next (Inv s') σ es := by
  have hxe : x.kind = (s.node c).kind ∧ x.alive = (s.node c).alive ∧ x.parent = (s.node c).parent ∧ x.conts = (s.node c).conts ∧ x.own = (s.node c).own ∧
      (x.vec = true → (s.node c).vec = true) := by
    rcases hx with e | e <;> subst e <;> simp
  obtain ⟨x1, x2, x3, x4, x5, x6⟩ := hxe
  have hnc := not_in_conts h hc hp
  have hnp : (s.node c).kind ≠ .promise := by
    intro e
    rcases hph with ⟨-, e'⟩ | e'
    · rw [e] at e'; cases e'
    · have := h.good.await c hc e'; rw [e] at this; cases this
  have hno : (s.node c).ph ≠ .over := by rcases hph with ⟨e | e, -⟩ | e <;> rw [e] <;> simp
  have good : ∀ pp, pp = (s.node c).parent ∨ pp = none → Good s.n (upd s.node c { x with ph := .running, parent := pp }) s.refs := by
    intro pp hpp
    refine h.good.set hc ha (by simp [x2, ha]) x1 hpp x4 (by simp [hno]) (fun j hj hm => absurd hm (hnc j hj)) ?_ (by simp) (by simp) (by simp) ?_ ?_ (by simp) (by simp) (by simp)
    · intro hv'
      refine ⟨x6 hv', fun he => ?_⟩
      simp only [x1] at he
      simp only [hv he] at hv'
      cases hv'
    · intro ho
      have := h.good.own c hc (x5 ▸ ho)
      exact absurd this hnp
    · intro e
      simp only [x1] at e
      exact absurd e hnp
  have hb : next σ (.began c) = .ok { σ with st := upd σ.st c .running } := by
    have h1 : c < σ.n ∧ σ.dead c = false ∧ σ.parentReady c = true ∧ (σ.st c = .waiting ∧ (σ.kind c).eager = true ∨ σ.st c = .started) := by
      refine ⟨h.n ▸ hc, by rw [h.dead c hc, ha]; rfl, parentReady_of h hc hp, ?_⟩
      rw [h.st c hc, h.kind c hc]
      rcases hph with ⟨e | e, e'⟩ | e <;> rw [e] <;> simp [phase]
      · exact e'
      · exact e'
    simp only [next, if_pos h1]
  unfold begin at hs
  cases take with
  | none =>
    simp only [Option.some.injEq, Prod.mk.injEq] at hs
    obtain ⟨rfl, rfl⟩ := hs
    simp only [Follows, hb]
    have g := good x.parent (Or.inl x3)
    exact h.setP (x := { x with ph := .running }) hc g x1 x5 x2
  | some o =>
    simp only at hs
    split at hs
    · cases hs
    · rename_i p hpar
      split at hs
      case isFalse => cases hs
      rename_i hf
      have hpar' : (s.node c).parent = some p := x3 ▸ hpar
      obtain ⟨p1, p2, p3⟩ := h.good.par c p hc hpar'
      rw [if_pos p2] at hs
      simp only [Option.some.injEq, Prod.mk.injEq] at hs
      obtain ⟨rfl, rfl⟩ := hs
      simp only [Follows, hb]
      have h1 : Inv (setNode s c { x with ph := .running, parent := none }) { σ with st := upd σ.st c .running } :=
        h.setP (x := { x with ph := .running, parent := none }) hc (good none (Or.inr rfl)) x1 x5 x2
      have hpc : p ≠ c := by omega
      have ha1 : ((setNode s c { x with ph := .running, parent := none }).node p).alive = true := by
        simp only [setNode, upd, hpc, if_false]; exact p2
      have hg := accepts_got h1 (o := o) (i := p) (by show p < s.n; omega) ha1 hf
      simp only [hg]
      have h2 := h1.reref (refs := (o, p) :: s.refs) (h1.good.addRef (by show p < s.n; omega) ha1)
      rw [show σ.refs = s.refs from h.refs]
      exact h2

theorem Inv.newS {s : State} {σ : Spec} (h : Inv s σ) {x : Node} (g : Good (s.n + 1) (upd s.node s.n x) s.refs) (ha : x.alive = true) (hp : phase x.ph = .waiting) :
    Inv { s with n := s.n + 1, node := upd s.node s.n x } { σ with n := σ.n + 1, kind := upd σ.kind s.n x.kind, own := upd σ.own s.n x.own } := by
  have spl : ∀ i, i < s.n + 1 → i ≠ s.n → i < s.n := fun i hi e => by omega
  refine ⟨by show σ.n + 1 = s.n + 1; rw [h.n], h.refs, ?_, ?_, ?_, ?_, ?_, g⟩
  · intro i hi; simp only [upd]; split
    · rfl
    · rename_i e; exact h.kind i (spl i hi e)
  · intro i hi; simp only [upd]; split
    · rename_i e; subst e; rw [hp]; exact (h.new s.n (Nat.le_refl _)).1
    · rename_i e; exact h.st i (spl i hi e)
  · intro i hi; exact h.new i (by have : s.n + 1 ≤ i := hi; omega)
  · intro i hi; simp only [upd]; split
    · rfl
    · rename_i e; exact h.own i (spl i hi e)
  · intro i hi; simp only [upd]; split
    · rename_i e; subst e; rw [ha]; exact (h.new s.n (Nat.le_refl _)).2
    · rename_i e; exact h.dead i (spl i hi e)

theorem next_made {s : State} {σ : Spec} (h : Inv s σ) {k : Kind} (hk : ∀ p pol, k = .cont p pol → p < s.n ∧ (s.node p).alive = true) :
    next σ (.made s.n k) = .ok { σ with n := σ.n + 1, kind := upd σ.kind s.n k, own := upd σ.own s.n (decide (k = .promise)) } := by
  have h1 : s.n = σ.n ∧ σ.parentAlive k = true := by
    refine ⟨h.n.symm, ?_⟩
    cases k with
    | cont p pol =>
      have := hk p pol rfl
      simp only [Spec.parentAlive, h.dead p this.1, this.2, h.n, this.1]; rfl
    | _ => rfl
  simp only [next, if_pos h1]

theorem sim_add {s s' : State} {σ : Spec} {o : Nat} {x : Node} {es : List Event} (h : Inv s σ) (hf : fresh s o = true) (ha : x.alive = true) (hp : phase x.ph = .waiting)
    (g : Good (s.n + 1) (upd s.node s.n x) s.refs) (hk : ∀ p pol, x.kind ≠ .cont p pol) (ho : x.own = decide (x.kind = .promise)) :
    Follows next (Inv (add s o x)) σ [.made s.n x.kind, .got o s.n] := by
  have h1 := h.newS g ha hp
  simp only [Follows, next_made h (fun p pol e => absurd e (hk p pol)), ← ho]
  have ha1 : (({ s with n := s.n + 1, node := upd s.node s.n x } : State).node s.n).alive = true := by simp [upd, ha]
  have hg := accepts_got h1 (o := o) (i := s.n) (by show s.n < s.n + 1; omega) ha1 hf
  simp only [hg]
  have h2 := h1.reref (refs := (o, s.n) :: s.refs) (h1.good.addRef (by show s.n < s.n + 1; omega) ha1)
  rw [show σ.refs = s.refs from h.refs]
  exact h2

theorem sim_finish {s : State} {σ : Spec} {i : Nat} (h : Inv s σ) (hi : i < s.n) (ha : (s.node i).alive = true)
    (hp : ∀ p pol, (s.node i).kind = .cont p pol → (s.node p).ph = .over ∨ (s.node i).ph = .running)
    (hv : (s.node i).ph = .running ∨ (s.node i).ph = .idle ∧ (s.node i).own = true) : Follows next (Inv (finish s i)) σ [.ready i] := by
  have hb : next σ (.ready i) = .ok { σ with st := upd σ.st i .ready } := by
    have h1 : i < σ.n ∧ σ.dead i = false ∧ (σ.st i = .running ∨ σ.st i = .waiting ∧ σ.own i = true) := by
      refine ⟨h.n ▸ hi, by rw [h.dead i hi, ha]; rfl, ?_⟩
      rw [h.st i hi, h.own i hi]
      rcases hv with e | ⟨e, e'⟩ <;> rw [e] <;> simp [phase]
      exact e'
    simp only [next, if_pos h1]
  simp only [Follows, hb]
  have hvv : (s.node i).kind.eager = true → (s.node i).vec = false := by
    intro he
    cases hvec : (s.node i).vec
    · rfl
    · obtain ⟨p, pol, k1, k2, k3⟩ := h.good.vec i hi hvec
      have hpol : pol ≠ .deferred := by intro e; rw [k1, e] at he; cases he
      rcases hv with e | ⟨-, e⟩
      · rw [k3 hpol] at e; cases e
      · have := h.good.own i hi e; rw [k1] at this; cases this
  have hnc : ∀ j, j < s.n → i ∉ (s.node j).conts := by
    intro j hj hm
    obtain ⟨g1, g2, g3, g4, g5, g6, g7⟩ := h.good.cont j i hj hm
    rcases hv with e | ⟨-, e⟩
    · rw [e] at g6; rcases g6 with g6 | g6 <;> cases g6
    · have := h.good.own i hi e
      obtain ⟨-, -, pol, k⟩ := h.good.par i j hi g4
      rw [k] at this; cases this
  have G := h.good.finish hi ha hvv hnc
  refine ⟨h.n, h.refs, ?_, ?_, ?_, ?_, ?_, G⟩
  · intro j hj; rw [h.kind j hj]; simp only [finish]; split
    · rename_i e; subst e; rfl
    · split <;> rfl
  · intro j hj; simp only [finish, upd]; split
    · rfl
    · rw [h.st j hj]; split <;> rfl
  · intro j hj
    have : s.n ≤ j := hj
    have e : j ≠ i := by omega
    simp only [upd, e, if_false]; exact h.new j hj
  · intro j hj; rw [h.own j hj]; simp only [finish]; split
    · rename_i e; subst e; rfl
    · split <;> rfl
  · intro j hj; rw [h.dead j hj]; simp only [finish]; split
    · rename_i e; subst e; rfl
    · split <;> rfl

theorem Inv.nil {s' : State} {σ : Spec} (h : Inv s' σ) : Follows next (Inv s') σ [] := h

theorem sim_thn {s s' : State} {σ : Spec} {o o' : Nat} {pol : Pol} {sh : Bool} {es : List Event} (h : Inv s σ) (hs : step s (.thn o o' pol sh) = some (s', es)) : Follows next (Inv s') σ es := by
  simp only [step] at hs
  split at hs
  · cases hs
  rename_i p hr
  obtain ⟨hp, ha⟩ := alive_ref h hr
  have hmem := ref_mem hr
  split at hs
  case isFalse => cases hs
  rename_i hf
  try rw [if_pos ha] at hs
  have hpn : p ≠ s.n := by omega
  have hnp : s.n ≠ p := by omega
  -- the new state
  have h1 : ∀ (x : Node) (f : Nat → Node), f s.n = x → x.kind = .cont p pol → x.alive = true → x.ph = .idle → x.own = false →
      (∀ j, j < s.n → (f j).kind = (s.node j).kind ∧ (f j).ph = (s.node j).ph ∧ (f j).own = (s.node j).own ∧ (f j).alive = (s.node j).alive) → Good (s.n + 1) f s.refs →
      Follows next (Inv { n := s.n + 1, node := f, refs := (o', s.n) :: (if sh then s.refs else s.refs.filter (fun r => r.1 != o)) }) σ
        (if sh then [.made s.n (.cont p pol), .got o' s.n] else [.made s.n (.cont p pol), .dropped o, .got o' s.n]) := by
    intro x f fx xk xa xp xo hsame G
    have hI : Inv { s with n := s.n + 1, node := f } { σ with n := σ.n + 1, kind := upd σ.kind s.n (.cont p pol), own := upd σ.own s.n false } := by
      have spl : ∀ i, i < s.n + 1 → i ≠ s.n → i < s.n := fun i hi e => by omega
      refine ⟨by show σ.n + 1 = s.n + 1; rw [h.n], h.refs, ?_, ?_, ?_, ?_, ?_, G⟩
      · intro i hi; simp only [upd]; split
        · rename_i e; subst e; rw [fx, xk]
        · rename_i e; rw [(hsame i (spl i hi e)).1]; exact h.kind i (spl i hi e)
      · intro i hi
        by_cases e : i = s.n
        · subst e; simp only [fx, xp, phase]; exact (h.new s.n (Nat.le_refl _)).1
        · simp only [(hsame i (spl i hi e)).2.1]; exact h.st i (spl i hi e)
      · intro i hi; exact h.new i (by have : s.n + 1 ≤ i := hi; omega)
      · intro i hi; simp only [upd]; split
        · rename_i e; subst e; rw [fx, xo]
        · rename_i e; rw [(hsame i (spl i hi e)).2.2.1]; exact h.own i (spl i hi e)
      · intro i hi
        by_cases e : i = s.n
        · subst e; simp only [fx, xa]; exact (h.new s.n (Nat.le_refl _)).2
        · simp only [(hsame i (spl i hi e)).2.2.2]; exact h.dead i (spl i hi e)
    have hm := next_made h (k := .cont p pol) (fun q pol' e => by cases e; exact ⟨hp, ha⟩)
    simp only [reduceCtorEq, decide_false] at hm
    have hd : (decide (Kind.cont p pol = Kind.promise)) = false := rfl
    cases sh with
    | true =>
      simp only [if_true, Follows, hm]
      have ha1 : (({ s with n := s.n + 1, node := f } : State).node s.n).alive = true := by simp [fx, xa]
      have hg := accepts_got hI (o := o') (i := s.n) (by show s.n < s.n + 1; omega) ha1 hf
      simp only [hg]
      have h2 := hI.reref (refs := (o', s.n) :: s.refs) (hI.good.addRef (by show s.n < s.n + 1; omega) ha1)
      rw [show σ.refs = s.refs from h.refs]
      exact h2
    | false =>
      simp only [Bool.false_eq_true, if_false, Follows, hm]
      have hdr : next { σ with n := σ.n + 1, kind := upd σ.kind s.n (.cont p pol), own := upd σ.own s.n false } (.dropped o) =
          .ok { σ with n := σ.n + 1, kind := upd σ.kind s.n (.cont p pol), own := upd σ.own s.n false, refs := σ.refs.filter (fun r => r.1 != o) } := by
        have : σ.refs.any (fun r => r.1 == o) = true := by rw [h.refs, List.any_eq_true]; exact ⟨_, hmem, by simp⟩
        simp only [next, this, if_true]
      simp only [hdr]
      have hsub : ∀ r ∈ s.refs.filter (fun r => r.1 != o), r ∈ s.refs := fun r hr => (List.mem_filter.mp hr).1
      have h2 := hI.reref (refs := s.refs.filter (fun r => r.1 != o)) (hI.good.subRef hsub)
      have ha1 : (({ n := s.n + 1, node := f, refs := s.refs.filter (fun r => r.1 != o) } : State).node s.n).alive = true := by simp [fx, xa]
      have hf1 : fresh { n := s.n + 1, node := f, refs := s.refs.filter (fun r => r.1 != o) } o' = true := by
        simp only [fresh, List.all_eq_true] at hf ⊢
        exact fun r hr => hf r (hsub r hr)
      rw [show σ.refs = s.refs from h.refs]
      have hg := accepts_got h2 (o := o') (i := s.n) (by show s.n < s.n + 1; omega) ha1 hf1
      simp only [hg]
      exact h2.reref (refs := (o', s.n) :: s.refs.filter (fun r => r.1 != o)) (h2.good.addRef (by show s.n < s.n + 1; omega) ha1)
  split at hs
  · rename_i hov
    simp only [Option.some.injEq, Prod.mk.injEq] at hs
    obtain ⟨rfl, rfl⟩ := hs
    have G1 : Good (s.n + 1) (upd s.node s.n { kind := .cont p pol, parent := some p, vec := true }) s.refs := by
      refine h.good.new rfl rfl (Or.inl rfl) ?_ ?_ ?_ ?_ ?_ ?_
      · intro q; constructor
        · intro e; cases e; exact ⟨pol, rfl⟩
        · rintro ⟨pol', e⟩; cases e; rfl
      · intro q e; cases e; exact ⟨hp, ha⟩
      · intro _; exact ⟨p, rfl, hov⟩
      · simp
      · intro e; cases e
      · intro q pol' _; exact Or.inl rfl
    have e1 : upd s.node s.n { kind := .cont p pol, parent := some p, vec := true } p = s.node p := by simp [upd, hpn]
    have G2 : Good (s.n + 1) (upd (upd s.node s.n { kind := .cont p pol, parent := some p, vec := true }) p { s.node p with frames := (s.node p).frames + 1 }) s.refs := by
      refine G1.set (by omega) (by rw [e1]; exact ha) ha (by rw [e1]) (Or.inl (by rw [e1])) (by rw [e1]) (by rw [e1]) ?_ ?_ ?_ ?_ ?_ ?_ ?_ ?_ ?_ ?_
      · intro j hj hm
        have := G1.cont j p hj hm
        rw [e1] at this ⊢
        exact ⟨this.2.2.2.2.2.1, this.2.2.2.2.2.2, rfl⟩
      · intro hv
        obtain ⟨q, pol', k1, k2, k3⟩ := h.good.vec p hp hv
        refine ⟨by rw [e1]; exact hv, fun he => k3 ?_⟩
        intro e; simp only [k1, e] at he; cases he
      · intro hq; have hq : (s.node p).ph = .queued := hq; rw [hov] at hq; cases hq
      · intro hq; have hq : (s.node p).ph = .awaiting := hq; rw [hov] at hq; cases hq
      · intro hq; have hq : (s.node p).ph = .lost := hq; rw [hov] at hq; cases hq
      · intro ho; exact h.good.own p hp ho
      · intro hk; exact h.good.prom p hp hk
      · intro hk; exact h.good.async p hp hk
      · intro q pol' _ _ hq; have hq : (s.node p).ph = .idle := hq; rw [hov] at hq; cases hq
      · intro q pol' _ _ hq; exact absurd hov hq
    refine h1 { kind := .cont p pol, parent := some p, vec := true } _ (by simp [upd, hnp]) rfl rfl rfl rfl ?_ G2
    intro j hj
    have : j ≠ s.n := by omega
    by_cases e : j = p
    · subst e; simp [upd]
    · simp [upd, this, e]
  · rename_i hov
    simp only [Option.some.injEq, Prod.mk.injEq] at hs
    obtain ⟨rfl, rfl⟩ := hs
    refine h1 { kind := .cont p pol, parent := some p } _ (by simp [upd, hnp]) rfl rfl rfl rfl ?_ (h.good.chain hp ha hov)
    intro j hj
    have : j ≠ s.n := by omega
    by_cases e : j = p
    · subst e; simp [upd]
    · simp [upd, this, e]

theorem sim_free {s s' : State} {σ : Spec} {i : Nat} {es : List Event} (h : Inv s σ) (hs : step s (.free i) = some (s', es)) : Follows next (Inv s') σ es := by
  simp only [step] at hs
  split at hs
  case isFalse => cases hs
  rename_i hg
  obtain ⟨hi, ha, hb, hr, hh⟩ := hg
  simp only [Option.some.injEq, Prod.mk.injEq] at hs
  obtain ⟨rfl, rfl⟩ := hs
  have hb' := hb
  simp only [Node.busy, Bool.or_eq_false_iff, beq_eq_false_iff_ne, decide_eq_false_iff_not] at hb'
  obtain ⟨⟨⟨⟨⟨b1, b2⟩, b3⟩, b4⟩, b5⟩, b6⟩ := hb'
  have hn : σ.needed i = false := by
    cases hne : σ.needed i
    · rfl
    exfalso
    simp only [Spec.needed, Bool.or_eq_true, List.any_eq_true, beq_iff_eq, Bool.and_eq_true, Bool.not_eq_true', List.mem_range] at hne
    rcases hne with ((((⟨r, hm, e⟩ | e) | e) | e) | ⟨e, e'⟩) | ⟨c, hc, ⟨⟨hd, hk⟩, hst⟩⟩
    · exact hr r (h.refs ▸ hm) e
    · rw [h.own i hi, b1] at e; cases e
    · rw [h.st i hi] at e; cases hp : (s.node i).ph <;> simp [hp, phase] at e b5
    · rw [h.st i hi] at e; cases hp : (s.node i).ph <;> simp [hp, phase] at e b6
    · rw [h.st i hi] at e; rw [h.kind i hi] at e'
      have hid : (s.node i).ph = .idle := by cases hp : (s.node i).ph <;> simp [hp, phase] at e b4 ⊢
      cases hk : (s.node i).kind with
      | promise => rw [hk] at e'; cases e'
      | deferred => rw [hk] at e'; cases e'
      | async => exact h.good.async i hi hk hid
      | cont p pol =>
        have hpol : pol ≠ .deferred := by intro e2; rw [hk, e2] at e'; cases e'
        have hpar := h.good.keep i p pol hi ha hk (by rw [hid]; simp) (by rw [hid]; simp)
        obtain ⟨p1, p2, -⟩ := h.good.par i p hi hpar
        rcases h.good.idle i p pol hi ha hk hpol hid with e2 | e2
        · rw [b2] at e2; cases e2
        · have := hh p (by omega)
          simp [Node.holds, p2, e2] at this
    · rw [h.n] at hc
      rw [h.dead c hc] at hd
      rw [h.kind c hc] at hk
      rw [h.st c hc] at hst
      have hac : (s.node c).alive = true := by simpa using hd
      cases hkc : (s.node c).kind with
      | cont p pol =>
        simp only [hkc, Kind.of, beq_iff_eq] at hk
        subst hk
        have hpar := h.good.keep c p pol hc hac hkc (by intro e; rw [e] at hst; simp [phase] at hst) (by intro e; rw [e] at hst; simp [phase] at hst)
        have := hh c hc
        simp [Node.holds, hac, hpar] at this
      | _ => simp [hkc, Kind.of] at hk
  have hnx : next σ (.destroyed i) = .ok { σ with dead := upd σ.dead i true } := by
    have h1 : i < σ.n ∧ σ.dead i = false ∧ σ.needed i = false := ⟨h.n ▸ hi, by rw [h.dead i hi, ha]; rfl, hn⟩
    simp only [next, if_pos h1]
  simp only [Follows, hnx]
  have := h.setS (x := { s.node i with alive := false, parent := none, conts := [] }) hi (h.good.free hi ha hb hr hh) rfl
  rw [upd_self σ.st i _ (h.st i hi), upd_self σ.own i _ (h.own i hi)] at this
  exact this

/-- A state is changed in a way no other state sees. -/
theorem Good.keepAll {n : Nat} {f : Nat → Node} {refs : List (Nat × Nat)} (h : Good n f refs) {c : Nat} {x : Node} (hc : c < n) (ha : (f c).alive = true)
    (hxa : x.alive = true) (hk : x.kind = (f c).kind) (hp : x.parent = (f c).parent) (hco : x.conts = (f c).conts) (hph : x.ph = (f c).ph)
    (hv : x.vec = true → (f c).vec = true) (hv' : x.vec = false → (f c).vec = true → x.kind.eager = false)
    (how : x.own = true → (f c).own = true) (hpr : x.own = false → (f c).own = true → x.ph = .over) : Good n (upd f c x) refs := by
  refine h.set hc ha hxa hk (Or.inl hp) hco (by rw [hph]) ?_ ?_ ?_ ?_ ?_ ?_ ?_ ?_ ?_ ?_
  · intro j hj hm
    have := h.cont j c hj hm
    rw [hph]
    refine ⟨this.2.2.2.2.2.1, ?_, hp⟩
    cases e : x.vec
    · rfl
    · have := hv e; rw [this] at *; simp_all
  · intro e
    refine ⟨hv e, fun he => ?_⟩
    obtain ⟨q, pol', k1, k2, k3⟩ := h.vec c hc (hv e)
    rw [hph]; apply k3
    intro e2; rw [hk, k1, e2] at he; cases he
  · intro hq; rw [hph] at hq; rw [hk]; exact h.queued c hc hq
  · intro hq; rw [hph] at hq; rw [hk]; exact h.await c hc hq
  · intro hq; rw [hph] at hq; rw [hk]; exact h.lost c hc hq
  · intro hq; rw [hk]; exact h.own c hc (how hq)
  · intro hq
    rw [hk] at hq; rw [hph]
    rcases h.prom c hc hq with ⟨e, e'⟩ | e
    · cases ho : x.own
      · have := hpr ho e'; rw [hph, e] at this; cases this
      · exact Or.inl ⟨e, rfl⟩
    · exact Or.inr e
  · intro hq; rw [hk] at hq; rw [hph]; exact h.async c hc hq
  · intro p pol hkk hpol hid
    rw [hk] at hkk; rw [hph] at hid
    rcases h.idle c p pol hc ha hkk hpol hid with e | e
    · cases ev : x.vec
      · have := hv' ev e
        rw [hk, hkk] at this
        cases pol <;> simp_all [Kind.eager]
      · exact Or.inl rfl
    · exact Or.inr e
  · intro p pol hkk h1 h2
    rw [hk] at hkk; rw [hph] at h1 h2; rw [hp]
    exact h.keep c p pol hc ha hkk h1 h2

theorem not_in_conts_of_ph {s : State} {σ : Spec} {c : Nat} (h : Inv s σ) (h1 : (s.node c).ph ≠ .idle) (h2 : (s.node c).ph ≠ .awaiting) : ∀ j, j < s.n → c ∉ (s.node j).conts := by
  intro j hj hm
  rcases (h.good.cont j c hj hm).2.2.2.2.2.1 with e | e
  · exact h1 e
  · exact h2 e

theorem sim_launch {s s' : State} {σ : Spec} {c : Nat} {take : Option Nat} {es : List Event} (h : Inv s σ) (hs : step s (.launch c take) = some (s', es)) : Follows next (Inv s') σ es := by
  simp only [step] at hs
  split at hs
  case isFalse => cases hs
  rename_i hg
  obtain ⟨hc, hv⟩ := hg
  have ha : (s.node c).alive = true := alive_of_busy h hc (by simp [Node.busy, hv])
  try rw [if_pos ha] at hs
  obtain ⟨p, pol, k1, k2, k3⟩ := h.good.vec c hc hv
  have hp : ∀ q pol', (s.node c).kind = .cont q pol' → (s.node q).ph = .over := fun q pol' e => by rw [k1] at e; cases e; exact k2
  split at hs
  · rename_i q hk
    rw [k1] at hk; cases hk
    exact sim_begin h hc (Or.inr rfl) ha hp (Or.inl ⟨Or.inl (k3 (by simp)), by rw [k1]; rfl⟩) (fun _ => rfl) hs
  · rename_i q hk
    rw [k1] at hk; cases hk
    split at hs
    case isFalse => cases hs
    simp only [Option.some.injEq, Prod.mk.injEq] at hs
    obtain ⟨rfl, rfl⟩ := hs
    have hid := k3 (by simp)
    refine Inv.nil (h.setE (x := { s.node c with vec := false, ph := .queued }) hc ?_ rfl rfl rfl (by rw [hid]; rfl))
    refine h.good.set hc ha ha rfl (Or.inl rfl) rfl (by rw [hid]; simp) (fun j hj hm => absurd hm (not_in_conts h hc hp j hj)) (by simp) ?_ (by simp) (by simp) ?_ ?_ ?_ (by simp) ?_
    · intro _; exact ⟨by simp only [k1]; rfl, hp⟩
    · intro ho; exact h.good.own c hc ho
    · intro hk; simp only [k1] at hk; cases hk
    · intro hk; simp
    · intro q pol' hk _ _; exact h.good.keep c q pol' hc ha hk (by rw [hid]; simp) (by rw [hid]; simp)
  · rename_i hk1 hk2
    have hd : pol = .deferred := by
      cases pol with
      | sync => exact absurd k1 (hk1 p)
      | later => exact absurd k1 (hk2 p)
      | deferred => rfl
    subst hd
    split at hs
    case isFalse => cases hs
    simp only [Option.some.injEq, Prod.mk.injEq] at hs
    obtain ⟨rfl, rfl⟩ := hs
    refine Inv.nil (h.setE (x := { s.node c with vec := false }) hc ?_ rfl rfl rfl rfl)
    exact h.good.keepAll hc ha ha rfl rfl rfl rfl (by simp) (fun _ _ => by simp only [k1]; rfl) (fun e => e) (fun e e' => by have e : (s.node c).own = false := e; rw [e'] at e; cases e)

theorem sim_start {s : State} {σ : Spec} {i : Nat} (h : Inv s σ) (hi : i < s.n) (ha : (s.node i).alive = true) (hl : (s.node i).kind.lazy = true) (hid : (s.node i).ph = .idle) :
    Follows next (Inv (setNode s i { s.node i with ph := .awaiting })) σ [.started i] := by
  have hb : next σ (.started i) = .ok { σ with st := upd σ.st i .started } := by
    have h1 : i < σ.n ∧ σ.dead i = false ∧ σ.st i = .waiting ∧ (σ.kind i).lazy = true :=
      ⟨h.n ▸ hi, by rw [h.dead i hi, ha]; rfl, by rw [h.st i hi, hid]; rfl, by rw [h.kind i hi]; exact hl⟩
    simp only [next, if_pos h1]
  simp only [Follows, hb]
  refine h.setP (x := { s.node i with ph := .awaiting }) hi ?_ rfl rfl rfl
  refine h.good.set hi ha ha rfl (Or.inl rfl) rfl (by rw [hid]; simp) ?_ ?_ (by simp) (fun _ => hl) (by simp) ?_ ?_ ?_ (by simp) ?_
  · intro j hj hm; exact ⟨Or.inr rfl, (h.good.cont j i hj hm).2.2.2.2.2.2, rfl⟩
  · intro hv
    refine ⟨hv, fun he => ?_⟩
    cases hk : (s.node i).kind with
    | cont p pol => have he : (s.node i).kind.eager = true := he; rw [hk] at he hl; cases pol <;> simp [Kind.eager, Kind.lazy] at he hl
    | _ => have he : (s.node i).kind.eager = true := he; rw [hk] at he hl; simp [Kind.eager, Kind.lazy] at he hl
  · intro ho; exact h.good.own i hi ho
  · intro hk; have hk : (s.node i).kind = .promise := hk; rw [hk] at hl; cases hl
  · intro hk; simp
  · intro q pol hk _ _; exact h.good.keep i q pol hi ha hk (by rw [hid]; simp) (by rw [hid]; simp)

theorem sim {s s' : State} {σ : Spec} {l : Label} {es : List Event} (h : Inv s σ) (hs : step s l = some (s', es)) : Follows next (Inv s') σ es := by
  cases l with
  | promise =>
    simp only [step, Option.some.injEq, Prod.mk.injEq] at hs
    obtain ⟨rfl, rfl⟩ := hs
    simp only [Follows, next_made h (k := .promise) (fun p pol e => by cases e)]
    refine h.newS (x := { kind := .promise, own := true }) ?_ rfl rfl
    refine h.good.new rfl rfl (Or.inl rfl) ?_ ?_ ?_ ?_ ?_ ?_ <;> simp
  | getFuture i o =>
    simp only [step] at hs
    split at hs
    case isFalse => cases hs
    rename_i hg
    obtain ⟨hi, ho, hf⟩ := hg
    have ha : (s.node i).alive = true := alive_of_busy h hi (by simp [Node.busy, ho])
    try rw [if_pos ha] at hs
    simp only [Option.some.injEq, Prod.mk.injEq] at hs
    obtain ⟨rfl, rfl⟩ := hs
    simp only [Follows, accepts_got h hi ha hf]
    rw [h.refs]
    exact h.reref (h.good.addRef hi ha)
  | set i =>
    simp only [step] at hs
    split at hs
    case isFalse => cases hs
    rename_i hg
    obtain ⟨hi, ho, hov⟩ := hg
    have ha : (s.node i).alive = true := alive_of_busy h hi (by simp [Node.busy, ho])
    try rw [if_pos ha] at hs
    simp only [Option.some.injEq, Prod.mk.injEq] at hs
    obtain ⟨rfl, rfl⟩ := hs
    have hk := h.good.own i hi ho
    have hid : (s.node i).ph = .idle := by
      rcases h.good.prom i hi hk with ⟨e, -⟩ | e
      · exact e
      · exact absurd e hov
    exact sim_finish h hi ha (fun p pol e => by rw [hk] at e; cases e) (Or.inr ⟨hid, ho⟩)
  | leave i =>
    simp only [step] at hs
    split at hs
    case isFalse => cases hs
    rename_i hg
    obtain ⟨hi, ho, hov⟩ := hg
    have ha : (s.node i).alive = true := alive_of_busy h hi (by simp [Node.busy, ho])
    try rw [if_pos ha] at hs
    simp only [Option.some.injEq, Prod.mk.injEq] at hs
    obtain ⟨rfl, rfl⟩ := hs
    have hb : next σ (.left i) = .ok { σ with own := upd σ.own i false } := by
      have h1 : i < σ.n ∧ σ.own i = true ∧ σ.st i = .ready := ⟨h.n ▸ hi, by rw [h.own i hi]; exact ho, by rw [h.st i hi, hov]; rfl⟩
      simp only [next, if_pos h1]
    simp only [Follows, hb]
    have := h.setS (x := { s.node i with own := false }) hi
      (h.good.keepAll hi ha ha rfl rfl rfl rfl (fun e => e) (fun e e' => by have e : (s.node i).vec = false := e; rw [e'] at e; cases e) (by simp) (fun _ _ => hov)) rfl
    rw [upd_self σ.st i _ (h.st i hi), upd_self σ.dead i _ (h.dead i hi)] at this
    exact this
  | async o =>
    simp only [step] at hs
    split at hs
    case isFalse => cases hs
    rename_i hf
    simp only [Option.some.injEq, Prod.mk.injEq] at hs
    obtain ⟨rfl, rfl⟩ := hs
    refine sim_add (s' := s) (es := []) (x := { kind := .async, ph := .queued }) h hf rfl rfl ?_ (by simp) rfl
    refine h.good.new rfl rfl (Or.inr ⟨rfl, rfl⟩) ?_ ?_ ?_ ?_ ?_ ?_ <;> simp
  | defer o =>
    simp only [step] at hs
    split at hs
    case isFalse => cases hs
    rename_i hf
    simp only [Option.some.injEq, Prod.mk.injEq] at hs
    obtain ⟨rfl, rfl⟩ := hs
    refine sim_add (s' := s) (es := []) (x := { kind := .deferred }) h hf rfl rfl ?_ (by simp) rfl
    refine h.good.new rfl rfl (Or.inl rfl) ?_ ?_ ?_ ?_ ?_ ?_ <;> simp
  | thn o o' pol sh => exact sim_thn h hs
  | copy o o' =>
    simp only [step] at hs
    split at hs
    · cases hs
    rename_i i hr
    obtain ⟨hi, ha⟩ := alive_ref h hr
    split at hs
    case isFalse => cases hs
    rename_i hf
    try rw [if_pos ha] at hs
    simp only [Option.some.injEq, Prod.mk.injEq] at hs
    obtain ⟨rfl, rfl⟩ := hs
    simp only [Follows, accepts_got h hi ha hf]
    rw [h.refs]
    exact h.reref (h.good.addRef hi ha)
  | drop o =>
    simp only [step] at hs
    split at hs
    · cases hs
    rename_i i hr
    obtain ⟨hi, ha⟩ := alive_ref h hr
    try rw [if_pos ha] at hs
    simp only [Option.some.injEq, Prod.mk.injEq] at hs
    obtain ⟨rfl, rfl⟩ := hs
    have : σ.refs.any (fun r => r.1 == o) = true := by rw [h.refs, List.any_eq_true]; exact ⟨_, ref_mem hr, by simp⟩
    simp only [Follows, next, this, if_true]
    rw [h.refs]
    exact h.reref (h.good.subRef (fun r hr => (List.mem_filter.mp hr).1))
  | wait o =>
    simp only [step] at hs
    split at hs
    · cases hs
    rename_i i hr
    obtain ⟨hi, ha⟩ := alive_ref h hr
    try rw [if_pos ha] at hs
    split at hs
    · rename_i hg
      simp only [Option.some.injEq, Prod.mk.injEq] at hs
      obtain ⟨rfl, rfl⟩ := hs
      exact sim_start h hi ha hg.1 hg.2
    · simp only [Option.some.injEq, Prod.mk.injEq] at hs
      obtain ⟨rfl, rfl⟩ := hs
      exact h
  | launch c take => exact sim_launch h hs
  | leaveCont i =>
    simp only [step] at hs
    split at hs
    case isFalse => cases hs
    rename_i hg
    obtain ⟨hi, hfr, -⟩ := hg
    have ha : (s.node i).alive = true := alive_of_busy h hi (by simp [Node.busy, hfr])
    try rw [if_pos ha] at hs
    simp only [Option.some.injEq, Prod.mk.injEq] at hs
    obtain ⟨rfl, rfl⟩ := hs
    exact Inv.nil (h.setE (x := { s.node i with frames := (s.node i).frames - 1 }) hi
      (h.good.keepAll hi ha ha rfl rfl rfl rfl (fun e => e) (fun e e' => by have e : (s.node i).vec = false := e; rw [e'] at e; cases e) (fun e => e)
        (fun e e' => by have e : (s.node i).own = false := e; rw [e'] at e; cases e)) rfl rfl rfl rfl)
  | run c take =>
    simp only [step] at hs
    split at hs
    case isFalse => cases hs
    rename_i hg
    obtain ⟨hc, hq⟩ := hg
    have ha : (s.node c).alive = true := alive_of_busy h hc (by simp [Node.busy, hq])
    try rw [if_pos ha] at hs
    have hqq := h.good.queued c hc hq
    refine sim_begin h hc (Or.inl rfl) ha hqq.2 (Or.inl ⟨Or.inr hq, hqq.1⟩) (fun he => ?_) hs
    cases hv : (s.node c).vec
    · rfl
    · obtain ⟨p, pol, k1, k2, k3⟩ := h.good.vec c hc hv
      have := k3 (by intro e; rw [k1, e] at he; cases he)
      rw [hq] at this; cases this
  | discard c =>
    simp only [step] at hs
    split at hs
    case isFalse => cases hs
    rename_i hg
    obtain ⟨hc, hq⟩ := hg
    have ha : (s.node c).alive = true := alive_of_busy h hc (by simp [Node.busy, hq])
    try rw [if_pos ha] at hs
    simp only [Option.some.injEq, Prod.mk.injEq] at hs
    obtain ⟨rfl, rfl⟩ := hs
    have hqq := h.good.queued c hc hq
    have hb : next σ (.discarded c) = .ok { σ with st := upd σ.st c .lost } := by
      have h1 : c < σ.n ∧ σ.dead c = false ∧ σ.st c = .waiting ∧ (σ.kind c).eager = true ∧ σ.parentReady c = true :=
        ⟨h.n ▸ hc, by rw [h.dead c hc, ha]; rfl, by rw [h.st c hc, hq]; rfl, by rw [h.kind c hc]; exact hqq.1, parentReady_of h hc hqq.2⟩
      simp only [next, if_pos h1]
    simp only [Follows, hb]
    refine h.setP (x := { s.node c with ph := .lost }) hc ?_ rfl rfl rfl
    refine h.good.set hc ha ha rfl (Or.inl rfl) rfl (by rw [hq]; simp) (fun j hj hm => absurd hm (not_in_conts h hc hqq.2 j hj)) ?_ (by simp) (by simp) (fun _ => hqq.1) ?_ ?_ (by simp) (by simp) ?_
    · intro hv
      refine ⟨hv, fun he => ?_⟩
      obtain ⟨p, pol, k1, k2, k3⟩ := h.good.vec c hc hv
      have := k3 (by intro e; simp only [k1, e] at he; cases he)
      rw [hq] at this; cases this
    · intro ho; exact h.good.own c hc ho
    · intro hk; have hk : (s.node c).kind = .promise := hk
      have := hqq.1; rw [hk] at this; cases this
    · intro q pol hk _ _; exact h.good.keep c q pol hc ha hk (by rw [hq]; simp) (by rw [hq]; simp)
  | chain c =>
    simp only [step] at hs
    split at hs
    case isFalse => cases hs
    rename_i hg
    split at hs
    · cases hs
    rename_i p hpar
    obtain ⟨p1, p2, p3⟩ := h.good.par c p hg.1 hpar
    try rw [if_pos p2] at hs
    split at hs
    · rename_i hg'
      simp only [Option.some.injEq, Prod.mk.injEq] at hs
      obtain ⟨rfl, rfl⟩ := hs
      exact sim_start h (by omega) p2 hg'.1 hg'.2
    · cases hs
  | proceed c take =>
    simp only [step] at hs
    split at hs
    case isFalse => cases hs
    rename_i hg
    obtain ⟨hc, hq⟩ := hg
    have ha : (s.node c).alive = true := alive_of_busy h hc (by simp [Node.busy, hq])
    try rw [if_pos ha] at hs
    have hl := h.good.await c hc hq
    have hne : (s.node c).kind.eager = true → (s.node c).vec = false := by
      intro he
      cases hk : (s.node c).kind with
      | cont p pol => rw [hk] at he hl; cases pol <;> simp [Kind.eager, Kind.lazy] at he hl
      | _ => rw [hk] at he hl; simp [Kind.eager, Kind.lazy] at he hl
    split at hs
    · rename_i p pol hk
      have hpar := h.good.keep c p pol hc ha hk (by rw [hq]; simp) (by rw [hq]; simp)
      obtain ⟨p1, p2, p3⟩ := h.good.par c p hc hpar
      try rw [if_pos p2] at hs
      split at hs
      case isFalse => cases hs
      rename_i hov
      exact sim_begin h hc (Or.inl rfl) ha (fun q pol' e => by rw [hk] at e; cases e; exact hov) (Or.inr hq) hne hs
    · rename_i hk
      exact sim_begin h hc (Or.inl rfl) ha (fun q pol' e => absurd e (hk q pol')) (Or.inr hq) hne hs
  | ret c =>
    simp only [step] at hs
    split at hs
    case isFalse => cases hs
    rename_i hg
    obtain ⟨hc, hq⟩ := hg
    have ha : (s.node c).alive = true := alive_of_busy h hc (by simp [Node.busy, hq])
    try rw [if_pos ha] at hs
    simp only [Option.some.injEq, Prod.mk.injEq] at hs
    obtain ⟨rfl, rfl⟩ := hs
    exact sim_finish h hc ha (fun p pol e => Or.inr hq) (Or.inl hq)
  | free i => exact sim_free h hs

end Verif.StateLife
