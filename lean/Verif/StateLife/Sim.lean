import Verif.StateLife.Model
/-!
# The model follows the specification
-/

set_option linter.unusedSimpArgs false
set_option linter.unusedVariables false

namespace Verif.StateLife

theorem upd_apply {α : Type} (f : Nat → α) (i j : Nat) (x : α) : upd f i x j = if j = i then x else f j := rfl

def phase : Ph → Phase
  | .idle => .waiting
  | .queued => .waiting
  | .awaiting => .started
  | .running => .running
  | .over => .ready
  | .lost => .lost

/-- What is true of the shared states. -/
structure Good (n : Nat) (f : Nat → Node) (refs : List (Nat × Nat)) : Prop where
  refs : ∀ r ∈ refs, r.2 < n ∧ (f r.2).alive = true
  dead : ∀ i, i < n → (f i).alive = false → (f i).busy = false ∧ (f i).parent = none ∧ (f i).conts = []
  kind : ∀ i p pol, i < n → (f i).kind = .cont p pol → p < i
  par : ∀ i p, i < n → (f i).parent = some p → p < i ∧ (f p).alive = true ∧ ∃ pol, (f i).kind = .cont p pol
  keep : ∀ i p pol, i < n → (f i).alive = true → (f i).kind = .cont p pol → (f i).ph ≠ .running → (f i).ph ≠ .over → (f i).parent = some p
  cont : ∀ i c, i < n → c ∈ (f i).conts → i < c ∧ c < n ∧ (f c).alive = true ∧ (f c).parent = some i ∧ (f i).ph ≠ .over ∧ ((f c).ph = .idle ∨ (f c).ph = .awaiting) ∧ (f c).vec = false
  vec : ∀ c, c < n → (f c).vec = true → ∃ p pol, (f c).kind = .cont p pol ∧ (f p).ph = .over ∧ (pol ≠ .deferred → (f c).ph = .idle)
  queued : ∀ c, c < n → (f c).ph = .queued → (f c).kind.eager = true ∧ ∀ p pol, (f c).kind = .cont p pol → (f p).ph = .over
  await : ∀ c, c < n → (f c).ph = .awaiting → (f c).kind.lazy = true
  lost : ∀ c, c < n → (f c).ph = .lost → (f c).kind.eager = true
  own : ∀ i, i < n → (f i).own = true → (f i).kind = .promise
  prom : ∀ i, i < n → (f i).kind = .promise → (f i).ph = .idle ∧ (f i).own = true ∨ (f i).ph = .over
  async : ∀ i, i < n → (f i).kind = .async → (f i).ph ≠ .idle
  idle : ∀ i p pol, i < n → (f i).alive = true → (f i).kind = .cont p pol → pol ≠ .deferred → (f i).ph = .idle → (f i).vec = true ∨ i ∈ (f p).conts

structure Inv (s : State) (σ : Spec) : Prop where
  n : σ.n = s.n
  refs : σ.refs = s.refs
  kind : ∀ i, i < s.n → σ.kind i = (s.node i).kind
  st : ∀ i, i < s.n → σ.st i = phase (s.node i).ph
  new : ∀ i, s.n ≤ i → σ.st i = .waiting ∧ σ.dead i = false
  own : ∀ i, i < s.n → σ.own i = (s.node i).own
  dead : ∀ i, i < s.n → σ.dead i = !(s.node i).alive
  good : Good s.n s.node s.refs

theorem inv_init : Inv init start := by
  refine ⟨rfl, rfl, ?_, ?_, ?_, ?_, ?_, ?_⟩
  · intro i hi; simp [init] at hi
  · intro i hi; simp [init] at hi
  · intro i hi; exact ⟨rfl, rfl⟩
  · intro i hi; simp [init] at hi
  · intro i hi; simp [init] at hi
  · constructor <;> simp [init]

/-- One state that is not destroyed changes. -/
theorem Good.set {n : Nat} {f : Nat → Node} {refs : List (Nat × Nat)} (h : Good n f refs) {c : Nat} {x : Node} (hc : c < n) (ha : (f c).alive = true) (hxa : x.alive = true)
    (hk : x.kind = (f c).kind) (hp : x.parent = (f c).parent ∨ x.parent = none) (hco : x.conts = (f c).conts) (hov : x.ph = .over ↔ (f c).ph = .over)
    (hct : ∀ j, j < n → c ∈ (f j).conts → (x.ph = .idle ∨ x.ph = .awaiting) ∧ x.vec = false ∧ x.parent = (f c).parent)
    (hv : x.vec = true → (f c).vec = true ∧ (x.kind.eager = true → x.ph = .idle))
    (hq : x.ph = .queued → x.kind.eager = true ∧ ∀ p pol, x.kind = .cont p pol → (f p).ph = .over)
    (haw : x.ph = .awaiting → x.kind.lazy = true) (hl : x.ph = .lost → x.kind.eager = true) (how : x.own = true → x.kind = .promise)
    (hpr : x.kind = .promise → x.ph = .idle ∧ x.own = true ∨ x.ph = .over) (has : x.kind = .async → x.ph ≠ .idle)
    (hid : ∀ p pol, x.kind = .cont p pol → pol ≠ .deferred → x.ph = .idle → x.vec = true ∨ c ∈ (f p).conts)
    (hke : ∀ p pol, x.kind = .cont p pol → x.ph ≠ .running → x.ph ≠ .over → x.parent = some p) : Good n (upd f c x) refs := by
  have eo : ∀ p, (upd f c x p).ph = .over ↔ (f p).ph = .over := by
    intro p; simp only [upd]; split
    · rename_i e; subst e; exact hov
    · rfl
  have ek : ∀ p, (upd f c x p).kind = (f p).kind := by
    intro p; simp only [upd]; split
    · rename_i e; subst e; exact hk
    · rfl
  have ea : ∀ p, (upd f c x p).alive = (f p).alive := by
    intro p; simp only [upd]; split
    · rename_i e; subst e; rw [hxa, ha]
    · rfl
  have ec : ∀ p, (upd f c x p).conts = (f p).conts := by
    intro p; simp only [upd]; split
    · rename_i e; subst e; exact hco
    · rfl
  have es : upd f c x c = x := by simp [upd]
  have en : ∀ p, p ≠ c → upd f c x p = f p := fun p e => by simp [upd, e]
  constructor
  · intro r hr; rw [ea]; exact h.refs r hr
  · intro i hi hd
    rw [ea] at hd
    have e : i ≠ c := fun e => by subst e; rw [ha] at hd; cases hd
    rw [en i e]; exact h.dead i hi hd
  · intro i p pol hi hk'; rw [ek] at hk'; exact h.kind i p pol hi hk'
  · intro i p hi hp'
    rw [ea, ek]
    by_cases e : i = c
    · subst e; rw [es] at hp'
      rcases hp with hp | hp
      · exact h.par i p hi (hp ▸ hp')
      · rw [hp] at hp'; cases hp'
    · rw [en i e] at hp'; exact h.par i p hi hp'
  · intro i p pol hi ha' hk' h1 h2
    by_cases e : i = c
    · subst e; rw [es] at hk' h1 h2 ⊢; exact hke p pol hk' h1 h2
    · rw [en i e] at *; exact h.keep i p pol hi ha' hk' h1 h2
  · intro i c' hi hm
    rw [ec] at hm
    obtain ⟨g1, g2, g3, g4, g5, g6, g7⟩ := h.cont i c' hi hm
    rw [ea]
    refine ⟨g1, g2, g3, ?_, fun hh => g5 ((eo i).mp hh), ?_⟩
    · by_cases e : c' = c
      · subst e; rw [es, (hct i hi hm).2.2]; exact g4
      · rw [en c' e]; exact g4
    · by_cases e : c' = c
      · subst e; rw [es]; exact ⟨(hct i hi hm).1, (hct i hi hm).2.1⟩
      · rw [en c' e]; exact ⟨g6, g7⟩
  · intro c' hc' hv'
    by_cases e : c' = c
    · subst e; rw [es] at hv' ⊢
      obtain ⟨g1, g2⟩ := hv hv'
      obtain ⟨p, pol, k1, k2, k3⟩ := h.vec c' hc' g1
      refine ⟨p, pol, hk ▸ k1, (eo p).mpr k2, fun hpol => g2 ?_⟩
      rw [hk, k1]; cases pol <;> simp_all [Kind.eager]
    · rw [en c' e] at hv' ⊢
      obtain ⟨p, pol, k1, k2, k3⟩ := h.vec c' hc' hv'
      exact ⟨p, pol, k1, (eo p).mpr k2, k3⟩
  · intro c' hc' hq'
    rw [ek]
    by_cases e : c' = c
    · subst e; rw [es] at hq'
      have := hq hq'
      rw [hk] at this
      exact ⟨this.1, fun p pol hh => (eo p).mpr (this.2 p pol hh)⟩
    · rw [en c' e] at hq'
      have := h.queued c' hc' hq'
      exact ⟨this.1, fun p pol hh => (eo p).mpr (this.2 p pol hh)⟩
  · intro c' hc' hq'
    by_cases e : c' = c
    · subst e; rw [es] at hq' ⊢; exact haw hq'
    · rw [en c' e] at hq' ⊢; exact h.await c' hc' hq'
  · intro c' hc' hq'
    by_cases e : c' = c
    · subst e; rw [es] at hq' ⊢; exact hl hq'
    · rw [en c' e] at hq' ⊢; exact h.lost c' hc' hq'
  · intro c' hc' hq'
    by_cases e : c' = c
    · subst e; rw [es] at hq' ⊢; exact how hq'
    · rw [en c' e] at hq' ⊢; exact h.own c' hc' hq'
  · intro c' hc' hq'
    by_cases e : c' = c
    · subst e; rw [es] at hq' ⊢; exact hpr hq'
    · rw [en c' e] at hq' ⊢; exact h.prom c' hc' hq'
  · intro c' hc' hq'
    by_cases e : c' = c
    · subst e; rw [es] at hq' ⊢; exact has hq'
    · rw [en c' e] at hq' ⊢; exact h.async c' hc' hq'
  · intro i p pol hi ha' hk' hpol hph
    rw [ec]
    by_cases e : i = c
    · subst e; rw [es] at hk' hph ⊢; exact hid p pol hk' hpol hph
    · rw [en i e] at *; exact h.idle i p pol hi ha' hk' hpol hph

/-- A new future for a state that is not destroyed. -/
theorem Good.addRef {n : Nat} {f : Nat → Node} {refs : List (Nat × Nat)} (h : Good n f refs) {o i : Nat} (hi : i < n) (ha : (f i).alive = true) : Good n f ((o, i) :: refs) :=
  have h1 : ∀ r ∈ (o, i) :: refs, r.2 < n ∧ (f r.2).alive = true := fun r hr => (List.mem_cons.mp hr).elim (fun e => e ▸ ⟨hi, ha⟩) (h.refs r)
  { h with refs := h1 }

theorem Good.subRef {n : Nat} {f : Nat → Node} {refs refs' : List (Nat × Nat)} (h : Good n f refs) (hr : ∀ r ∈ refs', r ∈ refs) : Good n f refs' :=
  { h with refs := fun r hh => h.refs r (hr r hh) }

/-- A new state; it refers to a state that is not destroyed, if to any. -/
theorem Good.new {n : Nat} {f : Nat → Node} {refs : List (Nat × Nat)} (h : Good n f refs) {x : Node} (ha : x.alive = true) (hco : x.conts = [])
    (hid : x.ph = .idle ∨ x.ph = .queued ∧ x.kind = .async)
    (hpk : ∀ p, x.parent = some p ↔ ∃ pol, x.kind = .cont p pol) (hpa : ∀ p, x.parent = some p → p < n ∧ (f p).alive = true)
    (hv : x.vec = true → ∃ p, x.parent = some p ∧ (f p).ph = .over) (how : x.own = true ↔ x.kind = .promise) (has : x.kind = .async → x.ph = .queued)
    (hid' : ∀ p pol, x.kind = .cont p pol → x.vec = true ∨ pol = .deferred) : Good (n + 1) (upd f n x) refs := by
  have es : upd f n x n = x := by simp [upd]
  have en : ∀ p, p < n → upd f n x p = f p := fun p e => by simp [upd, Nat.ne_of_lt e]
  have spl : ∀ i, i < n + 1 → i < n ∨ i = n := fun i hi => by omega
  constructor
  · intro r hr; have := h.refs r hr; rw [en _ this.1]; exact ⟨by omega, this.2⟩
  · intro i hi hd
    rcases spl i hi with e | e
    · rw [en i e] at hd ⊢; exact h.dead i e hd
    · subst e; rw [es] at hd; rw [ha] at hd; cases hd
  · intro i p pol hi hk
    rcases spl i hi with e | e
    · rw [en i e] at hk; exact h.kind i p pol e hk
    · subst e; rw [es] at hk; exact (hpa p ((hpk p).mpr ⟨pol, hk⟩)).1
  · intro i p hi hp
    rcases spl i hi with e | e
    · rw [en i e] at hp ⊢
      have := h.par i p e hp
      rw [en p (by omega)]; exact this
    · subst e; rw [es] at hp ⊢
      have := hpa p hp
      rw [en p this.1]; exact ⟨this.1, this.2, (hpk p).mp hp⟩
  · intro i p pol hi ha' hk h1 h2
    rcases spl i hi with e | e
    · rw [en i e] at *; exact h.keep i p pol e ha' hk h1 h2
    · subst e; rw [es] at *; exact (hpk p).mpr ⟨pol, hk⟩
  · intro i c hi hm
    rcases spl i hi with e | e
    · rw [en i e] at hm ⊢
      obtain ⟨g1, g2, g3, g4, g5, g6, g7⟩ := h.cont i c e hm
      rw [en c g2]; exact ⟨g1, by omega, g3, g4, g5, g6, g7⟩
    · subst e; rw [es, hco] at hm; cases hm
  · intro c hc hv'
    rcases spl c hc with e | e
    · rw [en c e] at hv' ⊢
      obtain ⟨p, pol, k1, k2, k3⟩ := h.vec c e hv'
      have := h.kind c p pol e k1
      exact ⟨p, pol, k1, by rw [en p (by omega)]; exact k2, k3⟩
    · subst e; rw [es] at hv' ⊢
      obtain ⟨p, k1, k2⟩ := hv hv'
      obtain ⟨pol, k3⟩ := (hpk p).mp k1
      refine ⟨p, pol, k3, by rw [en p (hpa p k1).1]; exact k2, fun _ => ?_⟩
      rcases hid with e | ⟨-, e⟩
      · exact e
      · rw [k3] at e; cases e
  · intro c hc hq
    rcases spl c hc with e | e
    · rw [en c e] at hq ⊢
      have := h.queued c e hq
      refine ⟨this.1, fun p pol hk => ?_⟩
      have h1 := h.kind c p pol e hk
      rw [en p (by omega)]; exact this.2 p pol hk
    · subst e; rw [es] at hq ⊢
      rcases hid with e | ⟨-, e⟩
      · rw [hq] at e; cases e
      · rw [e]; exact ⟨rfl, by intro p pol hh; cases hh⟩
  · intro c hc hq
    rcases spl c hc with e | e
    · rw [en c e] at hq ⊢; exact h.await c e hq
    · subst e; rw [es] at hq; rcases hid with e | ⟨e, -⟩ <;> rw [hq] at e <;> cases e
  · intro c hc hq
    rcases spl c hc with e | e
    · rw [en c e] at hq ⊢; exact h.lost c e hq
    · subst e; rw [es] at hq; rcases hid with e | ⟨e, -⟩ <;> rw [hq] at e <;> cases e
  · intro c hc hq
    rcases spl c hc with e | e
    · rw [en c e] at hq ⊢; exact h.own c e hq
    · subst e; rw [es] at hq ⊢; exact how.mp hq
  · intro c hc hq
    rcases spl c hc with e | e
    · rw [en c e] at hq ⊢; exact h.prom c e hq
    · subst e; rw [es] at hq ⊢
      rcases hid with e | ⟨-, e⟩
      · exact Or.inl ⟨e, how.mpr hq⟩
      · rw [hq] at e; cases e
  · intro c hc hq
    rcases spl c hc with e | e
    · rw [en c e] at hq ⊢; exact h.async c e hq
    · subst e; rw [es] at hq ⊢; rw [has hq]; simp
  · intro i p pol hi ha' hk hpol hph
    rcases spl i hi with e | e
    · rw [en i e] at *
      have := h.kind i p pol e hk
      rw [en p (by omega)]
      exact h.idle i p pol e ha' hk hpol hph
    · subst e; rw [es] at *
      rcases hid' p pol hk with hh | hh
      · exact Or.inl hh
      · exact absurd hh hpol

/-- A new continuation of a state that is not done. -/
theorem Good.chain {n : Nat} {f : Nat → Node} {refs : List (Nat × Nat)} (h : Good n f refs) {p : Nat} {pol : Pol} (hp : p < n) (ha : (f p).alive = true) (ho : (f p).ph ≠ .over) :
    Good (n + 1) (upd (upd f n { kind := .cont p pol, parent := some p }) p { f p with conts := (f p).conts ++ [n] }) refs := by
  have e0 : upd (upd f n { kind := .cont p pol, parent := some p }) p { f p with conts := (f p).conts ++ [n] } p = { f p with conts := (f p).conts ++ [n] } := by simp [upd]
  have e1 : upd (upd f n { kind := .cont p pol, parent := some p }) p { f p with conts := (f p).conts ++ [n] } n = { kind := .cont p pol, parent := some p } := by
    simp [upd, Nat.ne_of_gt hp]
  have e2 : ∀ i, i < n → i ≠ p → upd (upd f n { kind := .cont p pol, parent := some p }) p { f p with conts := (f p).conts ++ [n] } i = f i := by
    intro i hi e; simp [upd, e, Nat.ne_of_lt hi]
  generalize hg : upd (upd f n { kind := .cont p pol, parent := some p }) p { f p with conts := (f p).conts ++ [n] } = g at *
  have ef : ∀ i, i < n → (g i).kind = (f i).kind ∧ (g i).alive = (f i).alive ∧ (g i).parent = (f i).parent ∧ (g i).vec = (f i).vec ∧ (g i).ph = (f i).ph ∧ (g i).own = (f i).own ∧
      (g i).busy = (f i).busy ∧ ∀ c, c ∈ (g i).conts ↔ c ∈ (f i).conts ∨ i = p ∧ c = n := by
    intro i hi
    by_cases e : i = p
    · subst e; rw [e0]; simp [Node.busy]
    · rw [e2 i hi e]; simp [e]
  have spl : ∀ i, i < n + 1 → i < n ∨ i = n := fun i hi => by omega
  constructor
  · intro r hr
    have := h.refs r hr
    rw [(ef _ this.1).2.1]; exact ⟨by omega, this.2⟩
  · intro i hi hd
    rcases spl i hi with e | e
    · obtain ⟨k1, k2, k3, k4, k5, k6, k7, k8⟩ := ef i e
      rw [k2] at hd
      obtain ⟨d1, d2, d3⟩ := h.dead i e hd
      have hip : i ≠ p := fun e => by subst e; rw [ha] at hd; cases hd
      rw [e2 i e hip]; exact ⟨d1, d2, d3⟩
    · subst e; rw [e1] at hd; cases hd
  · intro i q pol' hi hk
    rcases spl i hi with e | e
    · rw [(ef i e).1] at hk; exact h.kind i q pol' e hk
    · subst e; rw [e1] at hk; cases hk; exact hp
  · intro i q hi hq
    rcases spl i hi with e | e
    · obtain ⟨k1, k2, k3, k4, k5, k6, k7, k8⟩ := ef i e
      rw [k3] at hq
      have := h.par i q e hq
      rw [k1, (ef q (by omega)).2.1]; exact this
    · subst e; rw [e1] at hq ⊢; cases hq
      rw [(ef p hp).2.1]; exact ⟨hp, ha, pol, rfl⟩
  · intro i q pol' hi ha' hk h1 h2
    rcases spl i hi with e | e
    · obtain ⟨k1, k2, k3, k4, k5, k6, k7, k8⟩ := ef i e
      rw [k1] at hk; rw [k2] at ha'; rw [k5] at h1 h2; rw [k3]
      exact h.keep i q pol' e ha' hk h1 h2
    · subst e; rw [e1] at hk ⊢; cases hk; rfl
  · intro i c hi hm
    rcases spl i hi with e | e
    · obtain ⟨k1, k2, k3, k4, k5, k6, k7, k8⟩ := ef i e
      rw [k5]
      rcases (k8 c).mp hm with hm | ⟨e3, e4⟩
      · obtain ⟨g1, g2, g3, g4, g5, g6, g7⟩ := h.cont i c e hm
        obtain ⟨l1, l2, l3, l4, l5, l6, l7, l8⟩ := ef c g2
        rw [l2, l3, l5, l4]
        exact ⟨g1, by omega, g3, g4, g5, g6, g7⟩
      · subst e4; subst e3; rw [e1]
        exact ⟨e, by omega, rfl, rfl, ho, Or.inl rfl, rfl⟩
    · subst e; rw [e1] at hm; cases hm
  · intro c hc hv
    rcases spl c hc with e | e
    · obtain ⟨k1, k2, k3, k4, k5, k6, k7, k8⟩ := ef c e
      rw [k4] at hv; rw [k1, k5]
      obtain ⟨q, pol', l1, l2, l3⟩ := h.vec c e hv
      have := h.kind c q pol' e l1
      exact ⟨q, pol', l1, by rw [(ef q (by omega)).2.2.2.2.1]; exact l2, l3⟩
    · subst e; rw [e1] at hv; cases hv
  · intro c hc hq
    rcases spl c hc with e | e
    · obtain ⟨k1, k2, k3, k4, k5, k6, k7, k8⟩ := ef c e
      rw [k5] at hq; rw [k1]
      have := h.queued c e hq
      refine ⟨this.1, fun q pol' hk => ?_⟩
      have h1 := h.kind c q pol' e hk
      rw [(ef q (by omega)).2.2.2.2.1]; exact this.2 q pol' hk
    · subst e; rw [e1] at hq; cases hq
  · intro c hc hq
    rcases spl c hc with e | e
    · obtain ⟨k1, k2, k3, k4, k5, k6, k7, k8⟩ := ef c e
      rw [k5] at hq; rw [k1]; exact h.await c e hq
    · subst e; rw [e1] at hq; cases hq
  · intro c hc hq
    rcases spl c hc with e | e
    · obtain ⟨k1, k2, k3, k4, k5, k6, k7, k8⟩ := ef c e
      rw [k5] at hq; rw [k1]; exact h.lost c e hq
    · subst e; rw [e1] at hq; cases hq
  · intro c hc hq
    rcases spl c hc with e | e
    · obtain ⟨k1, k2, k3, k4, k5, k6, k7, k8⟩ := ef c e
      rw [k6] at hq; rw [k1]; exact h.own c e hq
    · subst e; rw [e1] at hq; cases hq
  · intro c hc hq
    rcases spl c hc with e | e
    · obtain ⟨k1, k2, k3, k4, k5, k6, k7, k8⟩ := ef c e
      rw [k1] at hq; rw [k5, k6]; exact h.prom c e hq
    · subst e; rw [e1] at hq; cases hq
  · intro c hc hq
    rcases spl c hc with e | e
    · obtain ⟨k1, k2, k3, k4, k5, k6, k7, k8⟩ := ef c e
      rw [k1] at hq; rw [k5]; exact h.async c e hq
    · subst e; rw [e1] at hq; cases hq
  · intro i q pol' hi ha' hk hpol hph
    rcases spl i hi with e | e
    · obtain ⟨k1, k2, k3, k4, k5, k6, k7, k8⟩ := ef i e
      rw [k2] at ha'; rw [k1] at hk; rw [k5] at hph; rw [k4]
      have h1 := h.kind i q pol' e hk
      rcases h.idle i q pol' e ha' hk hpol hph with hh | hh
      · exact Or.inl hh
      · exact Or.inr (((ef q (by omega)).2.2.2.2.2.2.2 i).mpr (Or.inl hh))
    · subst e; rw [e1] at hk; cases hk
      exact Or.inr (((ef p hp).2.2.2.2.2.2.2 i).mpr (Or.inr ⟨rfl, rfl⟩))

/-- A state becomes ready: `finish`. -/
theorem Good.finish {n : Nat} {f : Nat → Node} {refs : List (Nat × Nat)} (h : Good n f refs) {i : Nat} (hi : i < n) (ha : (f i).alive = true)
    (hv : (f i).kind.eager = true → (f i).vec = false) (hc : ∀ j, j < n → i ∉ (f j).conts) :
    Good n (fun j => if j = i then { f i with ph := .over, conts := [], parent := none, frames := (f i).frames + 1 } else if j ∈ (f i).conts then { f j with vec := true } else f j) refs := by
  generalize hg : (fun j => if j = i then { f i with ph := .over, conts := [], parent := none, frames := (f i).frames + 1 } else if j ∈ (f i).conts then { f j with vec := true } else f j) = g
  have e0 : g i = { f i with ph := .over, conts := [], parent := none, frames := (f i).frames + 1 } := by rw [← hg]; simp
  have ee : ∀ j, (g j).kind = (f j).kind ∧ (g j).alive = (f j).alive ∧ (g j).own = (f j).own := by
    intro j; rw [← hg]; dsimp only; split
    · rename_i e; subst e; exact ⟨rfl, rfl, rfl⟩
    · split <;> exact ⟨rfl, rfl, rfl⟩
  have eo : ∀ j, (f j).ph = .over → (g j).ph = .over := by
    intro j hj; rw [← hg]; dsimp only; split
    · rfl
    · split <;> exact hj
  have en : ∀ j, j ≠ i → (g j).ph = (f j).ph ∧ (g j).parent = (f j).parent ∧ (g j).conts = (f j).conts ∧ ((g j).vec = true ↔ (f j).vec = true ∨ j ∈ (f i).conts) ∧ (j ∉ (f i).conts → g j = f j) := by
    intro j e; rw [← hg]; dsimp only; rw [if_neg e]; split
    · rename_i hm; simp [hm]
    · rename_i hm; simp [hm]
  constructor
  · intro r hr; rw [(ee _).2.1]; exact h.refs r hr
  · intro j hj hd
    rw [(ee j).2.1] at hd
    have e : j ≠ i := fun e => by subst e; rw [ha] at hd; cases hd
    have hm : j ∉ (f i).conts := fun hm => by have := (h.cont i j hi hm).2.2.1; rw [hd] at this; cases this
    rw [(en j e).2.2.2.2 hm]; exact h.dead j hj hd
  · intro j p pol hj hk; rw [(ee j).1] at hk; exact h.kind j p pol hj hk
  · intro j p hj hp
    by_cases e : j = i
    · subst e; rw [e0] at hp; cases hp
    · rw [(en j e).2.1] at hp; rw [(ee p).2.1, (ee j).1]; exact h.par j p hj hp
  · intro j p pol hj ha' hk h1 h2
    by_cases e : j = i
    · subst e; rw [e0] at h2; exact absurd rfl h2
    · rw [(ee j).1] at hk; rw [(ee j).2.1] at ha'; rw [(en j e).1] at h1 h2; rw [(en j e).2.1]; exact h.keep j p pol hj ha' hk h1 h2
  · intro j c hj hm
    by_cases e : j = i
    · subst e; rw [e0] at hm; cases hm
    · rw [(en j e).2.2.1] at hm
      obtain ⟨g1, g2, g3, g4, g5, g6, g7⟩ := h.cont j c hj hm
      have e' : c ≠ i := fun e => by subst e; exact hc j hj hm
      have hm' : c ∉ (f i).conts := fun hm' => by
        have := (h.cont i c hi hm').2.2.2.1
        rw [g4] at this; cases this; exact e rfl
      rw [(en c e').2.2.2.2 hm', (en j e).1]
      exact ⟨g1, g2, g3, g4, g5, g6, g7⟩
  · intro c hc' hv'
    by_cases e : c = i
    · subst e; rw [e0] at hv' ⊢
      obtain ⟨p, pol, k1, k2, k3⟩ := h.vec c hc' hv'
      refine ⟨p, pol, k1, eo p k2, fun hpol => ?_⟩
      have := hv (by rw [k1]; cases pol <;> simp_all [Kind.eager])
      rw [this] at hv'; cases hv'
    · rw [(ee c).1, (en c e).1]
      rcases (en c e).2.2.2.1.mp hv' with hv' | hm
      · obtain ⟨p, pol, k1, k2, k3⟩ := h.vec c hc' hv'
        exact ⟨p, pol, k1, eo p k2, k3⟩
      · obtain ⟨g1, g2, g3, g4, g5, g6, g7⟩ := h.cont i c hi hm
        obtain ⟨-, -, pol, k⟩ := h.par c i hc' g4
        refine ⟨i, pol, k, by rw [e0], fun hpol => ?_⟩
        rcases g6 with g6 | g6
        · exact g6
        · have := h.await c hc' g6
          rw [k] at this; cases pol <;> simp_all [Kind.lazy]
  · intro c hc' hq
    by_cases e : c = i
    · subst e; rw [e0] at hq; cases hq
    · rw [(en c e).1] at hq; rw [(ee c).1]
      have := h.queued c hc' hq
      exact ⟨this.1, fun p pol hk => eo p (this.2 p pol hk)⟩
  · intro c hc' hq
    by_cases e : c = i
    · subst e; rw [e0] at hq; cases hq
    · rw [(en c e).1] at hq; rw [(ee c).1]; exact h.await c hc' hq
  · intro c hc' hq
    by_cases e : c = i
    · subst e; rw [e0] at hq; cases hq
    · rw [(en c e).1] at hq; rw [(ee c).1]; exact h.lost c hc' hq
  · intro c hc' hq; rw [(ee c).2.2] at hq; rw [(ee c).1]; exact h.own c hc' hq
  · intro c hc' hq
    rw [(ee c).1] at hq; rw [(ee c).2.2]
    by_cases e : c = i
    · subst e; rw [e0]; exact Or.inr rfl
    · rw [(en c e).1]; exact h.prom c hc' hq
  · intro c hc' hq
    rw [(ee c).1] at hq
    by_cases e : c = i
    · subst e; rw [e0]; simp
    · rw [(en c e).1]; exact h.async c hc' hq
  · intro j p pol hj ha' hk hpol hph
    rw [(ee j).1] at hk; rw [(ee j).2.1] at ha'
    by_cases e : j = i
    · subst e; rw [e0] at hph; cases hph
    · rw [(en j e).1] at hph
      rcases h.idle j p pol hj ha' hk hpol hph with hh | hh
      · exact Or.inl ((en j e).2.2.2.1.mpr (Or.inl hh))
      · by_cases e' : p = i
        · subst e'; exact Or.inl ((en j e).2.2.2.1.mpr (Or.inr hh))
        · exact Or.inr (by rw [(en p e').2.2.1]; exact hh)

/-- A state is destroyed. -/
theorem Good.free {n : Nat} {f : Nat → Node} {refs : List (Nat × Nat)} (h : Good n f refs) {i : Nat} (hi : i < n) (ha : (f i).alive = true) (hb : (f i).busy = false)
    (hr : ∀ r ∈ refs, r.2 ≠ i) (hh : ∀ j, j < n → (f j).holds i = false) : Good n (upd f i { f i with alive := false, parent := none, conts := [] }) refs := by
  have e0 : upd f i { f i with alive := false, parent := none, conts := [] } i = { f i with alive := false, parent := none, conts := [] } := by simp [upd]
  have e1 : ∀ j, j ≠ i → upd f i { f i with alive := false, parent := none, conts := [] } j = f j := fun j e => by simp [upd, e]
  have np : ∀ j, j < n → (f j).parent ≠ some i := by
    intro j hj hp
    have hal : (f j).alive = true := by
      cases hal : (f j).alive
      · have := (h.dead j hj hal).2.1; rw [hp] at this; cases this
      · rfl
    have := hh j hj
    simp [Node.holds, hal, hp] at this
  have nc : ∀ j, j < n → i ∉ (f j).conts := by
    intro j hj hm
    have hal : (f j).alive = true := by
      cases hal : (f j).alive
      · have := (h.dead j hj hal).2.2; rw [this] at hm; cases hm
      · rfl
    have := hh j hj
    simp [Node.holds, hal, hm] at this
  have ek : ∀ j, (upd f i { f i with alive := false, parent := none, conts := [] } j).kind = (f j).kind ∧ (upd f i { f i with alive := false, parent := none, conts := [] } j).ph = (f j).ph ∧
      (upd f i { f i with alive := false, parent := none, conts := [] } j).vec = (f j).vec ∧ (upd f i { f i with alive := false, parent := none, conts := [] } j).own = (f j).own := by
    intro j; by_cases e : j = i
    · subst e; rw [e0]; exact ⟨rfl, rfl, rfl, rfl⟩
    · rw [e1 j e]; exact ⟨rfl, rfl, rfl, rfl⟩
  have hnc : (f i).conts = [] := by
    cases hcs : (f i).conts with
    | nil => rfl
    | cons c l =>
      have := (h.cont i c hi (by simp [hcs]))
      exact absurd this.2.2.2.1 (np c this.2.1)
  generalize upd f i { f i with alive := false, parent := none, conts := [] } = g at *
  constructor
  · intro r hm; rw [e1 _ (hr r hm)]; exact h.refs r hm
  · intro j hj hd
    by_cases e : j = i
    · subst e; rw [e0]; exact ⟨hb, rfl, rfl⟩
    · rw [e1 j e] at hd ⊢; exact h.dead j hj hd
  · intro j p pol hj hk; rw [(ek j).1] at hk; exact h.kind j p pol hj hk
  · intro j p hj hp
    by_cases e : j = i
    · subst e; rw [e0] at hp; cases hp
    · rw [e1 j e] at hp ⊢
      have : p ≠ i := fun e => by subst e; exact np j hj hp
      rw [e1 p this]; exact h.par j p hj hp
  · intro j p pol hj ha' hk h1 h2
    by_cases e : j = i
    · subst e; rw [e0] at ha'; cases ha'
    · rw [e1 j e] at *; exact h.keep j p pol hj ha' hk h1 h2
  · intro j c hj hm
    by_cases e : j = i
    · subst e; rw [e0] at hm; cases hm
    · rw [e1 j e] at hm ⊢
      have : c ≠ i := fun e => by subst e; exact nc j hj hm
      rw [e1 c this]; exact h.cont j c hj hm
  · intro c hc hv
    rw [(ek c).2.2.1] at hv; rw [(ek c).1, (ek c).2.1]
    obtain ⟨p, pol, k1, k2, k3⟩ := h.vec c hc hv
    exact ⟨p, pol, k1, by rw [(ek p).2.1]; exact k2, k3⟩
  · intro c hc hq
    rw [(ek c).2.1] at hq; rw [(ek c).1]
    have := h.queued c hc hq
    exact ⟨this.1, fun p pol hk => by rw [(ek p).2.1]; exact this.2 p pol hk⟩
  · intro c hc hq; rw [(ek c).2.1] at hq; rw [(ek c).1]; exact h.await c hc hq
  · intro c hc hq; rw [(ek c).2.1] at hq; rw [(ek c).1]; exact h.lost c hc hq
  · intro c hc hq; rw [(ek c).2.2.2] at hq; rw [(ek c).1]; exact h.own c hc hq
  · intro c hc hq; rw [(ek c).1] at hq; rw [(ek c).2.1, (ek c).2.2.2]; exact h.prom c hc hq
  · intro c hc hq; rw [(ek c).1] at hq; rw [(ek c).2.1]; exact h.async c hc hq
  · intro j p pol hj ha' hk hpol hph
    by_cases e : j = i
    · subst e; rw [e0] at ha'; cases ha'
    · rw [e1 j e] at *
      rcases h.idle j p pol hj ha' hk hpol hph with hh' | hh'
      · exact Or.inl hh'
      · by_cases e' : p = i
        · subst e'; rw [hnc] at hh'; cases hh'
        · rw [e1 p e']; exact Or.inr hh'

theorem ref_mem {s : State} {o i : Nat} (h : ref s o = some i) : (o, i) ∈ s.refs := by
  unfold ref at h
  cases hf : s.refs.find? (fun r => r.1 == o) with
  | none => simp [hf] at h
  | some r =>
    simp only [hf, Option.map_some, Option.some.injEq] at h
    have h1 := List.mem_of_find?_eq_some hf
    have h2 := List.find?_some hf
    simp only [beq_iff_eq] at h2
    obtain ⟨a, b⟩ := r
    subst h; subst h2; exact h1

theorem Inv.setS {s : State} {σ : Spec} (h : Inv s σ) {c : Nat} {x : Node} (hc : c < s.n) (g : Good s.n (upd s.node c x) s.refs) (hk : x.kind = (s.node c).kind) :
    Inv { s with node := upd s.node c x } { σ with st := upd σ.st c (phase x.ph), own := upd σ.own c x.own, dead := upd σ.dead c (!x.alive) } := by
  refine ⟨h.n, h.refs, ?_, ?_, ?_, ?_, ?_, g⟩
  · intro i hi; rw [h.kind i hi]; simp only [upd]; split
    · rename_i e; subst e; exact hk.symm
    · rfl
  · intro i hi; simp only [upd]; split
    · rfl
    · exact h.st i hi
  · intro i hi
    have : s.n ≤ i := hi
    have e : i ≠ c := by omega
    simp only [upd, e, if_false]; exact h.new i hi
  · intro i hi; simp only [upd]; split
    · rfl
    · exact h.own i hi
  · intro i hi; simp only [upd]; split
    · rfl
    · exact h.dead i hi

theorem upd_self {α : Type} (f : Nat → α) (i : Nat) (x : α) (h : f i = x) : upd f i x = f := by
  funext j; simp only [upd]; split
  · rename_i e; rw [e, h]
  · rfl

/-- A state changes in a way that shows only in its phase. -/
theorem Inv.setP {s : State} {σ : Spec} (h : Inv s σ) {c : Nat} {x : Node} (hc : c < s.n) (g : Good s.n (upd s.node c x) s.refs) (hk : x.kind = (s.node c).kind)
    (ho : x.own = (s.node c).own) (ha : x.alive = (s.node c).alive) : Inv { s with node := upd s.node c x } { σ with st := upd σ.st c (phase x.ph) } := by
  have := h.setS hc g hk
  rw [upd_self σ.own c x.own (by rw [h.own c hc, ho]), upd_self σ.dead c _ (by rw [h.dead c hc, ha])] at this
  exact this

theorem Inv.setE {s : State} {σ : Spec} (h : Inv s σ) {c : Nat} {x : Node} (hc : c < s.n) (g : Good s.n (upd s.node c x) s.refs) (hk : x.kind = (s.node c).kind)
    (ho : x.own = (s.node c).own) (ha : x.alive = (s.node c).alive) (hp : phase x.ph = phase (s.node c).ph) : Inv { s with node := upd s.node c x } σ := by
  have := h.setP hc g hk ho ha
  rw [upd_self σ.st c _ (by rw [h.st c hc, hp])] at this
  exact this

theorem Inv.reref {s : State} {σ : Spec} (h : Inv s σ) {refs : List (Nat × Nat)} (g : Good s.n s.node refs) : Inv { s with refs := refs } { σ with refs := refs } :=
  ⟨h.n, rfl, h.kind, h.st, h.new, h.own, h.dead, g⟩

theorem alive_of_busy {s : State} {σ : Spec} (h : Inv s σ) {c : Nat} (hc : c < s.n) (hb : (s.node c).busy = true) : (s.node c).alive = true := by
  cases ha : (s.node c).alive
  · have := (h.good.dead c hc ha).1; rw [hb] at this; cases this
  · rfl

theorem alive_ref {s : State} {σ : Spec} (h : Inv s σ) {o i : Nat} (hr : ref s o = some i) : i < s.n ∧ (s.node i).alive = true := h.good.refs _ (ref_mem hr)

theorem accepts_got {s : State} {σ : Spec} (h : Inv s σ) {o i : Nat} (hi : i < s.n) (ha : (s.node i).alive = true) (hf : fresh s o = true) :
    next σ (.got o i) = .ok { σ with refs := (o, i) :: σ.refs } := by
  have h1 : i < σ.n ∧ σ.dead i = false ∧ σ.refs.all (fun r => r.1 != o) = true := ⟨h.n ▸ hi, by rw [h.dead i hi, ha]; rfl, by rw [h.refs]; exact hf⟩
  simp only [next, if_pos h1]

theorem parentReady_of {s : State} {σ : Spec} (h : Inv s σ) {c : Nat} (hc : c < s.n) (hp : ∀ p pol, (s.node c).kind = .cont p pol → (s.node p).ph = .over) : σ.parentReady c = true := by
  unfold Spec.parentReady
  rw [h.kind c hc]
  cases hk : (s.node c).kind with
  | cont p pol =>
    have := h.good.kind c p pol hc hk
    simp only [h.st p (by omega), hp p pol hk, phase]; rfl
  | _ => rfl

end Verif.StateLife
