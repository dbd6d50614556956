import Verif.StateLife.Quiet
/-!
# Continuations are kept by the state they wait for, and a cycle is kept for ever
-/

set_option linter.unusedSimpArgs false
set_option linter.unusedVariables false

namespace Verif.StateLife

/-- A continuation of a state that is not finished is in `continuations` of that state. -/
def Held (s : State) : Prop :=
  ∀ c p pol, c < s.n → (s.node c).alive = true → (s.node c).kind = .cont p pol → (s.node p).ph ≠ .over → c ∈ (s.node p).conts

/-- The step keeps kinds and `continuations`. -/
theorem Held.of {s s' : State} (h : Held s) (hn : s'.n = s.n) (hk : ∀ j, j < s.n → (s'.node j).kind = (s.node j).kind)
    (ha : ∀ j, j < s.n → (s'.node j).alive = true → (s.node j).alive = true)
    (hc : ∀ c p pol, c < s.n → (s'.node c).alive = true → (s.node c).kind = .cont p pol → (s'.node p).ph ≠ .over → (s.node p).ph ≠ .over ∧ (c ∈ (s.node p).conts → c ∈ (s'.node p).conts)) : Held s' := by
  intro c p pol hlt hal hki hov
  rw [hn] at hlt
  rw [hk c hlt] at hki
  obtain ⟨g1, g2⟩ := hc c p pol hlt hal hki hov
  exact g2 (h c p pol hlt (ha c hlt hal) hki g1)

theorem Held.set {s : State} (h : Held s) {i : Nat} {x : Node} (hk : x.kind = (s.node i).kind) (ha : x.alive = (s.node i).alive) (hc : x.conts = (s.node i).conts)
    (ho : (s.node i).ph = .over → x.ph = .over) (rs : List (Nat × Nat)) : Held { setNode s i x with refs := rs } := by
  have e : ∀ j, (upd s.node i x j).kind = (s.node j).kind ∧ (upd s.node i x j).alive = (s.node j).alive ∧ (upd s.node i x j).conts = (s.node j).conts ∧
      ((s.node j).ph = .over → (upd s.node i x j).ph = .over) := by
    intro j
    simp only [upd]
    split
    · rename_i e; subst e; exact ⟨hk, ha, hc, ho⟩
    · exact ⟨rfl, rfl, rfl, id⟩
  refine h.of rfl (fun j _ => (e j).1) (fun j _ g => (e j).2.1 ▸ g) (fun c p pol _ _ _ g => ⟨fun g' => g ((e p).2.2.2 g'), fun g' => ?_⟩)
  show c ∈ (upd s.node i x p).conts
  rw [(e p).2.2.1]; exact g'

theorem Held.setS {s : State} (h : Held s) {i : Nat} {x : Node} (hk : x.kind = (s.node i).kind) (ha : x.alive = (s.node i).alive) (hc : x.conts = (s.node i).conts)
    (ho : (s.node i).ph = .over → x.ph = .over) : Held (setNode s i x) := h.set hk ha hc ho s.refs

theorem Held.finish {s : State} (h : Held s) (i : Nat) : Held (finish s i) := by
  refine h.of rfl ?_ ?_ ?_
  · intro j _; simp only [StateLife.finish]; (repeat' split) <;> simp_all
  · intro j _; simp only [StateLife.finish]; (repeat' split) <;> simp_all
  · intro c p pol _ _ _; simp only [StateLife.finish]; (repeat' split) <;> simp_all

theorem Held.begin {s s' : State} {es : List Event} (h : Held s) {c : Nat} {x : Node} {take : Option Nat} (hk : x.kind = (s.node c).kind) (ha : x.alive = (s.node c).alive)
    (hc : x.conts = (s.node c).conts) (ho : (s.node c).ph ≠ .over) (hs : StateLife.begin s c x take = some (s', es)) : Held s' := by
  simp only [StateLife.begin] at hs
  (repeat' split at hs) <;> cases hs
  · exact h.setS hk ha hc (fun g => absurd g ho)
  · exact Held.set (x := { x with ph := .running, parent := none }) h hk ha hc (fun g => absurd g ho) _
  · exact h

theorem Held.new {s : State} (h : Held s) (hg : Good s.n s.node s.refs) (x : Node) (hx : ∀ p pol, x.kind ≠ .cont p pol) (rs : List (Nat × Nat)) :
    Held { n := s.n + 1, node := upd s.node s.n x, refs := rs } := by
  intro c p pol hlt hal hki hov
  simp only [upd] at *
  by_cases e : c = s.n
  · subst e; simp only [if_true] at hki; exact absurd hki (hx p pol)
  · simp only [if_neg e] at hal hki
    have hc : c < s.n := by omega
    have hp := hg.kind c p pol hc hki
    have e' : p ≠ s.n := by omega
    simp only [if_neg e'] at hov ⊢
    exact h c p pol hc hal hki hov

theorem Held.thn {s : State} (h : Held s) (hg : Good s.n s.node s.refs) {p : Nat} {pol : Pol} (hp : p < s.n) (x y : Node) (hx : x.kind = .cont p pol)
    (hy : y.kind = (s.node p).kind) (hya : y.alive = (s.node p).alive) (hyp : y.ph = (s.node p).ph) (hyc : ∀ c, c ∈ (s.node p).conts → c ∈ y.conts)
    (hn : y.ph ≠ .over → s.n ∈ y.conts) (rs : List (Nat × Nat)) : Held { n := s.n + 1, node := upd (upd s.node s.n x) p y, refs := rs } := by
  have e0 : upd (upd s.node s.n x) p y s.n = x := by
    have : s.n ≠ p := by omega
    simp [upd, this]
  have e1 : upd (upd s.node s.n x) p y p = y := by simp [upd]
  have e2 : ∀ j, j ≠ s.n → j ≠ p → upd (upd s.node s.n x) p y j = s.node j := fun j h1 h2 => by simp [upd, h1, h2]
  have e3 : ∀ j, j ≠ s.n → (upd (upd s.node s.n x) p y j).kind = (s.node j).kind ∧ (upd (upd s.node s.n x) p y j).alive = (s.node j).alive ∧
      (upd (upd s.node s.n x) p y j).ph = (s.node j).ph ∧ ∀ c, c ∈ (s.node j).conts → c ∈ (upd (upd s.node s.n x) p y j).conts := by
    intro j hj
    by_cases e : j = p
    · subst e; rw [e1]; exact ⟨hy, hya, hyp, hyc⟩
    · rw [e2 j hj e]; exact ⟨rfl, rfl, rfl, fun _ => id⟩
  intro c q pol' hlt hal hki hov
  simp only at hlt hal hki hov ⊢
  by_cases e : c = s.n
  · subst e
    rw [e0, hx] at hki
    cases hki
    rw [e1] at hov ⊢
    exact hn hov
  · rw [(e3 c e).1] at hki
    rw [(e3 c e).2.1] at hal
    have hq := hg.kind c q pol' (by omega) hki
    have hq' : q ≠ s.n := by omega
    rw [(e3 q hq').2.2.1] at hov
    exact (e3 q hq').2.2.2 c (h c q pol' (by omega) hal hki hov)

theorem held {s s' : State} {σ : Spec} {l : Label} {es : List Event} (h : Inv s σ) (hh : Held s) (hs : step s l = some (s', es)) : Held s' := by
  have hg := h.good
  cases l with
  | promise => simp only [step] at hs; cases hs; exact hh.new hg _ (by simp) _
  | async o => simp only [step] at hs; split at hs <;> cases hs; exact hh.new hg _ (by simp) _
  | defer o => simp only [step] at hs; split at hs <;> cases hs; exact hh.new hg _ (by simp) _
  | getFuture i o => simp only [step] at hs; (repeat' split at hs) <;> cases hs <;> exact hh
  | copy o o' => simp only [step] at hs; (repeat' split at hs) <;> cases hs <;> exact hh
  | drop o => simp only [step] at hs; (repeat' split at hs) <;> cases hs <;> exact hh
  | set i => simp only [step] at hs; (repeat' split at hs) <;> cases hs; exact hh.finish i; exact hh
  | ret i => simp only [step] at hs; (repeat' split at hs) <;> cases hs; exact hh.finish i; exact hh
  | leave i => simp only [step] at hs; (repeat' split at hs) <;> cases hs; exact hh.setS rfl rfl rfl id; exact hh
  | leaveCont i => simp only [step] at hs; (repeat' split at hs) <;> cases hs; exact hh.setS rfl rfl rfl id; exact hh
  | wait o =>
    simp only [step] at hs; (repeat' split at hs) <;> cases hs
    · rename_i g; exact hh.setS rfl rfl rfl (by simp [g.2])
    · exact hh
    · exact hh
  | chain c =>
    simp only [step] at hs; (repeat' split at hs) <;> cases hs
    · rename_i g; exact hh.setS rfl rfl rfl (by simp [g.2])
    · exact hh
  | discard c =>
    simp only [step] at hs; (repeat' split at hs) <;> cases hs
    · rename_i g _; exact hh.setS rfl rfl rfl (by simp [g.2])
    · exact hh
  | run c take =>
    simp only [step] at hs; (repeat' split at hs)
    · rename_i g _; exact hh.begin rfl rfl rfl (by simp [g.2]) hs
    · cases hs; exact hh
    · cases hs
  | proceed c take =>
    simp only [step] at hs
    split at hs
    · rename_i g
      (repeat' split at hs)
      · exact hh.begin rfl rfl rfl (by simp [g.2]) hs
      · cases hs
      · cases hs; exact hh
      · exact hh.begin rfl rfl rfl (by simp [g.2]) hs
      · cases hs; exact hh
    · cases hs
  | launch c take =>
    simp only [step] at hs
    split at hs
    · rename_i g
      obtain ⟨p, pol, k1, k2, k3⟩ := hg.vec c g.1 g.2
      split at hs
      · split at hs
        · rename_i k
          refine hh.begin (c := c) ?_ ?_ ?_ ?_ hs <;> try rfl
          rw [k1] at k; cases k
          rw [k3 (by simp)]; simp
        · split at hs <;> cases hs
          rename_i k _
          rw [k1] at k; cases k
          exact hh.setS rfl rfl rfl (by rw [k3 (by simp)]; simp)
        · split at hs <;> cases hs
          exact hh.setS rfl rfl rfl id
      · cases hs; exact hh
    · cases hs
  | free i =>
    simp only [step] at hs
    split at hs <;> cases hs
    rename_i g
    refine hh.of rfl ?_ ?_ ?_
    · intro j _; simp only [setNode, upd]; split <;> simp_all
    · intro j _; simp only [setNode, upd]; split <;> simp_all
    · intro c p pol hc hal hk hov
      simp only [setNode, upd] at *
      by_cases e : p = i
      · subst e
        simp only [if_true] at hov
        have hcp : c ≠ p := by have := hg.kind c p pol hc hk; omega
        simp only [if_neg hcp] at hal
        exfalso
        have hm := hh c p pol hc hal hk hov
        obtain ⟨-, -, -, g4, -, -, -⟩ := hg.cont p c g.1 hm
        have := g.2.2.2.2 c hc
        simp [Node.holds, hal, g4] at this
      · simp only [if_neg e] at hov ⊢; exact ⟨hov, id⟩
  | thn o o' pol sh =>
    simp only [step] at hs
    split at hs
    · cases hs
    · rename_i p hr
      have hp := hg.refs _ (ref_mem hr)
      simp only at hp
      split at hs
      · split at hs
        · split at hs <;> cases hs
          · rename_i ho
            exact hh.thn hg hp.1 { kind := .cont p pol, parent := some p, vec := true } { s.node p with frames := (s.node p).frames + 1 } rfl rfl rfl rfl (fun c hc => hc) (fun g => absurd ho g) _
          · rename_i ho
            exact hh.thn hg hp.1 { kind := .cont p pol, parent := some p } { s.node p with conts := (s.node p).conts ++ [s.n] } rfl rfl rfl rfl (fun c hc => by simp [hc]) (fun g => by simp) _
        · cases hs; exact hh
      · cases hs

/-- `i` will never be ready, `c` is a continuation of it; `D` is `i` and what stems from it by `then`. -/
structure Stuck (D : Nat → Prop) (i c : Nat) (s : State) : Prop where
  lt : ∀ d, D d → d < s.n
  up : ∀ d p pol, d < s.n → (s.node d).kind = .cont p pol → D p → D d
  down : ∀ d, D d → d ≠ i → ∃ p pol, (s.node d).kind = .cont p pol ∧ D p
  free : ∀ d, D d → ∀ r ∈ s.refs, r.2 ≠ d
  own : ∀ d, D d → (s.node d).own = false
  st : ∀ d, D d → d ≠ i → (s.node d).ph = .idle ∧ (s.node d).vec = false
  root : D i ∧ ((s.node i).kind.lazy = true ∧ (s.node i).ph = .idle ∨ (s.node i).ph = .lost)
  leaf : c < s.n ∧ ∃ pol, (s.node c).kind = .cont i pol
  ai : (s.node i).alive = true
  ac : (s.node c).alive = true

theorem Stuck.not_over {D : Nat → Prop} {i c : Nat} {s : State} (h : Stuck D i c s) {d : Nat}
    (hd : (s.node d).ph = .over ∨ (s.node d).ph = .queued ∨ (s.node d).ph = .running ∨ (s.node d).ph = .awaiting) : ¬ D d := by
  intro g
  by_cases e : d = i
  · subst e; rcases h.root.2 with ⟨-, k⟩ | k <;> simp [k] at hd
  · simp [(h.st d g e).1] at hd

theorem Stuck.leafD {D : Nat → Prop} {i c : Nat} {s : State} (h : Stuck D i c s) : D c := by
  obtain ⟨h1, pol, h2⟩ := h.leaf
  exact h.up c i pol h1 h2 h.root.1

theorem Stuck.refs {D : Nat → Prop} {i c : Nat} {s : State} (h : Stuck D i c s) (rs : List (Nat × Nat)) (hr : ∀ r ∈ rs, r ∈ s.refs ∨ ¬ D r.2) : Stuck D i c { s with refs := rs } :=
  ⟨h.lt, h.up, h.down, fun d hd r hm e => by
    rcases hr r hm with g | g
    · exact h.free d hd r g e
    · exact g (e ▸ hd), h.own, h.st, h.root, h.leaf, h.ai, h.ac⟩

/-- One state changes. -/
theorem Stuck.set {D : Nat → Prop} {i c : Nat} {s : State} (h : Stuck D i c s) {k : Nat} {x : Node} (hk : x.kind = (s.node k).kind)
    (hx : D k → x.own = (s.node k).own ∧ x.ph = (s.node k).ph ∧ (k ≠ i → x.vec = (s.node k).vec) ∧ (k = i ∨ k = c → x.alive = (s.node k).alive)) : Stuck D i c (setNode s k x) := by
  have ek : ∀ j, (upd s.node k x j).kind = (s.node j).kind := by
    intro j; simp only [upd]; split
    · rename_i e; subst e; exact hk
    · rfl
  have ed : ∀ d, D d → (upd s.node k x d).own = (s.node d).own ∧ (upd s.node k x d).ph = (s.node d).ph ∧ (d ≠ i → (upd s.node k x d).vec = (s.node d).vec) ∧
      (d = i ∨ d = c → (upd s.node k x d).alive = (s.node d).alive) := by
    intro d hd
    simp only [upd]
    split
    · rename_i e; subst e; exact hx hd
    · exact ⟨rfl, rfl, fun _ => rfl, fun _ => rfl⟩
  have hc := h.leafD
  refine ⟨h.lt, ?_, ?_, h.free, ?_, ?_, ?_, ?_, ?_, ?_⟩
  · intro d p pol hd hki; simp only [setNode] at hki hd; rw [ek] at hki; exact h.up d p pol hd hki
  · intro d hd hne; simp only [setNode]; rw [ek]; exact h.down d hd hne
  · intro d hd; simp only [setNode]; rw [(ed d hd).1]; exact h.own d hd
  · intro d hd hne; simp only [setNode]; rw [(ed d hd).2.1, (ed d hd).2.2.1 hne]; exact h.st d hd hne
  · simp only [setNode]; rw [ek, (ed i h.root.1).2.1]; exact h.root
  · simp only [setNode]; rw [ek]; exact h.leaf
  · simp only [setNode]; rw [(ed i h.root.1).2.2.2 (Or.inl rfl)]; exact h.ai
  · simp only [setNode]; rw [(ed c hc).2.2.2 (Or.inr rfl)]; exact h.ac

/-- A state is added. -/
theorem Stuck.new {D : Nat → Prop} {i c : Nat} {s : State} (h : Stuck D i c s) (x : Node) (hx : ∀ p pol, x.kind = .cont p pol → ¬ D p) (rs : List (Nat × Nat))
    (hr : ∀ r ∈ rs, r ∈ s.refs ∨ ¬ D r.2) : Stuck D i c { n := s.n + 1, node := upd s.node s.n x, refs := rs } := by
  have e : ∀ d, d < s.n → upd s.node s.n x d = s.node d := by
    intro d hd
    have : d ≠ s.n := by omega
    simp [upd, this]
  have hn : upd s.node s.n x s.n = x := by simp [upd]
  have hi := h.lt i h.root.1
  refine ⟨fun d hd => Nat.lt_succ_of_lt (h.lt d hd), ?_, ?_, ?_, ?_, ?_, ?_, ?_, ?_, ?_⟩
  · intro d p pol hd hki hp
    simp only at hd hki
    by_cases e' : d = s.n
    · subst e'; rw [hn] at hki; exact absurd hp (hx p pol hki)
    · rw [e d (by omega)] at hki; exact h.up d p pol (by omega) hki hp
  · intro d hd hne; simp only; rw [e d (h.lt d hd)]; exact h.down d hd hne
  · intro d hd r hm e'
    rcases hr r hm with g | g
    · exact h.free d hd r g e'
    · exact g (e' ▸ hd)
  · intro d hd; simp only; rw [e d (h.lt d hd)]; exact h.own d hd
  · intro d hd; simp only; rw [e d (h.lt d hd)]; exact h.st d hd
  · simp only; rw [e i hi]; exact h.root
  · simp only; rw [e c h.leaf.1]; exact ⟨Nat.lt_succ_of_lt h.leaf.1, h.leaf.2⟩
  · simp only; rw [e i hi]; exact h.ai
  · simp only; rw [e c h.leaf.1]; exact h.ac

theorem Stuck.finish {D : Nat → Prop} {i c : Nat} {s : State} (h : Stuck D i c s) (hg : Good s.n s.node s.refs) {k : Nat} (hk : k < s.n) (hD : ¬ D k) : Stuck D i c (finish s k) := by
  have ek : ∀ j, ((StateLife.finish s k).node j).kind = (s.node j).kind := by
    intro j; simp only [StateLife.finish]; (repeat' split) <;> simp_all
  have ed : ∀ d, D d → ((StateLife.finish s k).node d).own = (s.node d).own ∧ ((StateLife.finish s k).node d).ph = (s.node d).ph ∧
      (d ≠ i → ((StateLife.finish s k).node d).vec = (s.node d).vec) ∧ ((StateLife.finish s k).node d).alive = (s.node d).alive := by
    intro d hd
    have hdk : d ≠ k := fun e => hD (e ▸ hd)
    simp only [StateLife.finish, if_neg hdk]
    split
    · rename_i hm
      refine ⟨rfl, rfl, fun hne => ?_, rfl⟩
      exfalso
      obtain ⟨-, -, -, g4, -, -, -⟩ := hg.cont k d hk hm
      obtain ⟨-, -, pol, g5⟩ := hg.par d k (h.lt d hd) g4
      obtain ⟨p, pol', g6, g7⟩ := h.down d hd hne
      rw [g5] at g6; cases g6
      exact hD g7
    · exact ⟨rfl, rfl, fun _ => rfl, rfl⟩
  have hc := h.leafD
  refine ⟨h.lt, ?_, ?_, h.free, ?_, ?_, ?_, ?_, ?_, ?_⟩
  · intro d p pol hd hki; rw [ek] at hki; exact h.up d p pol hd hki
  · intro d hd hne; rw [ek]; exact h.down d hd hne
  · intro d hd; rw [(ed d hd).1]; exact h.own d hd
  · intro d hd hne; rw [(ed d hd).2.1, (ed d hd).2.2.1 hne]; exact h.st d hd hne
  · rw [ek, (ed i h.root.1).2.1]; exact h.root
  · rw [ek]; exact h.leaf
  · rw [(ed i h.root.1).2.2.2]; exact h.ai
  · rw [(ed c hc).2.2.2]; exact h.ac

theorem Stuck.begin {D : Nat → Prop} {i c : Nat} {s s' : State} {es : List Event} (h : Stuck D i c s) {k : Nat} {x : Node} {take : Option Nat} (hk : x.kind = (s.node k).kind)
    (hD : ¬ D k) (hp : ∀ p, x.parent = some p → ¬ D p) (hs : StateLife.begin s k x take = some (s', es)) : Stuck D i c s' := by
  simp only [StateLife.begin] at hs
  split at hs
  · cases hs; exact h.set (x := { x with ph := .running }) hk (fun g => absurd g hD)
  · split at hs
    · cases hs
    · rename_i p hpar
      (repeat' split at hs) <;> cases hs
      · refine Stuck.refs (s := setNode s k { x with ph := .running, parent := none }) (h.set hk (fun g => absurd g hD)) _ ?_
        intro r hm
        rcases List.mem_cons.mp hm with e | e
        · subst e; exact Or.inr (hp p hpar)
        · exact Or.inl e
      · exact h

/-- The parent of a state outside is outside. -/
theorem Stuck.par {D : Nat → Prop} {i c : Nat} {s : State} (h : Stuck D i c s) (hg : Good s.n s.node s.refs) {k p : Nat} (hk : k < s.n) (hD : ¬ D k) (hp : (s.node k).parent = some p) : ¬ D p := by
  obtain ⟨-, -, pol, g⟩ := hg.par k p hk hp
  exact fun hd => hD (h.up k p pol hk g hd)

theorem stuck {D : Nat → Prop} {i c : Nat} {s s' : State} {σ : Spec} {l : Label} {es : List Event} (h : Inv s σ) (hh : Held s) (hb : Stuck D i c s)
    (hs : step s l = some (s', es)) : Stuck D i c s' := by
  have hg := h.good
  have hown : ∀ k, (s.node k).own = true → ¬ D k := fun k h1 h2 => by rw [hb.own k h2] at h1; cases h1
  have hn : ¬ D s.n := fun g => by have := hb.lt _ g; omega
  have href : ∀ {o p}, ref s o = some p → ¬ D p := fun {o p} h1 h2 => hb.free p h2 _ (ref_mem h1) rfl
  cases l with
  | promise => simp only [step] at hs; cases hs; exact hb.new _ (by simp) _ (fun r hm => Or.inl hm)
  | async o =>
    simp only [step] at hs; split at hs <;> cases hs
    refine hb.new _ (by simp) _ (fun r hm => ?_)
    rcases List.mem_cons.mp hm with e | e
    · subst e; exact Or.inr hn
    · exact Or.inl e
  | defer o =>
    simp only [step] at hs; split at hs <;> cases hs
    refine hb.new _ (by simp) _ (fun r hm => ?_)
    rcases List.mem_cons.mp hm with e | e
    · subst e; exact Or.inr hn
    · exact Or.inl e
  | getFuture k o =>
    simp only [step] at hs; (repeat' split at hs) <;> cases hs
    · rename_i g _
      refine hb.refs _ (fun r hm => ?_)
      rcases List.mem_cons.mp hm with e | e
      · subst e; exact Or.inr (hown k g.2.1)
      · exact Or.inl e
    · exact hb
  | copy o o' =>
    simp only [step] at hs; (repeat' split at hs) <;> cases hs
    · rename_i p hr _ _
      refine hb.refs _ (fun r hm => ?_)
      rcases List.mem_cons.mp hm with e | e
      · subst e; exact Or.inr (href hr)
      · exact Or.inl e
    · exact hb
  | drop o =>
    simp only [step] at hs; (repeat' split at hs) <;> cases hs
    · exact hb.refs _ (fun r hm => Or.inl (List.mem_filter.mp hm).1)
    · exact hb
  | set k =>
    simp only [step] at hs; (repeat' split at hs) <;> cases hs
    · rename_i g _; exact hb.finish hg g.1 (hown k g.2.1)
    · exact hb
  | ret k =>
    simp only [step] at hs; (repeat' split at hs) <;> cases hs
    · rename_i g _; exact hb.finish hg g.1 (hb.not_over (by simp [g.2]))
    · exact hb
  | leave k =>
    simp only [step] at hs; (repeat' split at hs) <;> cases hs
    · rename_i g _; exact hb.set rfl (fun hd => absurd hd (hown k g.2.1))
    · exact hb
  | leaveCont k =>
    simp only [step] at hs; (repeat' split at hs) <;> cases hs
    · exact hb.set rfl (fun _ => ⟨rfl, rfl, fun _ => rfl, fun _ => rfl⟩)
    · exact hb
  | wait o =>
    simp only [step] at hs; (repeat' split at hs) <;> cases hs
    · rename_i p hr _ _; exact hb.set rfl (fun hd => absurd hd (href hr))
    · exact hb
    · exact hb
  | chain k =>
    simp only [step] at hs
    split at hs
    · rename_i g
      have hk := hb.not_over (d := k) (by simp [g.2])
      (repeat' split at hs) <;> cases hs
      · rename_i p hp _ _; exact hb.set rfl (fun hd => absurd hd (hb.par hg g.1 hk hp))
      · exact hb
    · cases hs
  | discard k =>
    simp only [step] at hs; (repeat' split at hs) <;> cases hs
    · rename_i g _; exact hb.set rfl (fun hd => absurd hd (hb.not_over (by simp [g.2])))
    · exact hb
  | run k take =>
    simp only [step] at hs
    split at hs
    · rename_i g
      have hk := hb.not_over (d := k) (by simp [g.2])
      split at hs
      · exact hb.begin rfl hk (fun p hp => hb.par hg g.1 hk hp) hs
      · cases hs; exact hb
    · cases hs
  | proceed k take =>
    simp only [step] at hs
    split at hs
    · rename_i g
      have hk := hb.not_over (d := k) (by simp [g.2])
      (repeat' split at hs)
      · exact hb.begin rfl hk (fun p hp => hb.par hg g.1 hk hp) hs
      · cases hs
      · cases hs; exact hb
      · exact hb.begin rfl hk (fun p hp => hb.par hg g.1 hk hp) hs
      · cases hs; exact hb
    · cases hs
  | launch k take =>
    simp only [step] at hs
    split at hs
    · rename_i g
      obtain ⟨p, pol, k1, k2, k3⟩ := hg.vec k g.1 g.2
      have hDk : D k → k = i ∧ (s.node k).kind = .cont p .deferred := by
        intro hd
        by_cases e : k = i
        · refine ⟨e, ?_⟩
          subst e
          rcases hb.root.2 with ⟨r1, -⟩ | r
          · rw [k1] at r1 ⊢; cases pol <;> simp [Kind.lazy] at r1 ⊢
          · by_cases e : pol = .deferred
            · rw [k1, e]
            · rw [k3 e] at r; cases r
        · rw [(hb.st k hd e).2] at g; simp at g
      split at hs
      · split at hs
        · rename_i k'
          have hk : ¬ D k := fun hd => by have := (hDk hd).2; rw [k'] at this; cases this
          exact Stuck.begin (x := { s.node k with vec := false }) hb rfl hk (fun p hp => hb.par hg g.1 hk hp) hs
        · rename_i k'
          have hk : ¬ D k := fun hd => by have := (hDk hd).2; rw [k'] at this; cases this
          split at hs <;> cases hs
          exact hb.set rfl (fun hd => absurd hd hk)
        · split at hs <;> cases hs
          exact hb.set rfl (fun hd => ⟨rfl, rfl, fun e => absurd (hDk hd).1 e, fun _ => rfl⟩)
      · cases hs; exact hb
    · cases hs
  | free k =>
    simp only [step] at hs
    split at hs <;> cases hs
    rename_i g
    obtain ⟨hc, pol, hck⟩ := hb.leaf
    have hic := hg.kind c i pol hc hck
    have hcp := (hb.st c hb.leafD (by omega)).1
    have hpar := hg.keep c i pol hc hb.ac hck (by simp [hcp]) (by simp [hcp])
    have hmem := hh c i pol hc hb.ac hck (by rcases hb.root.2 with ⟨-, e⟩ | e <;> simp [e])
    have hi := hb.lt i hb.root.1
    have n1 : k ≠ i := by
      intro e; subst e
      have := g.2.2.2.2 c hc
      simp [Node.holds, hb.ac, hpar] at this
    have n2 : k ≠ c := by
      intro e; subst e
      have := g.2.2.2.2 i hi
      simp [Node.holds, hb.ai, hmem] at this
    exact hb.set rfl (fun _ => ⟨rfl, rfl, fun _ => rfl, fun e => by rcases e with e | e <;> contradiction⟩)
  | thn o o' pol sh =>
    simp only [step] at hs
    split at hs
    · cases hs
    · rename_i p hr
      have hp := hg.refs _ (ref_mem hr)
      simp only at hp
      have hDp := href hr
      have hmem : ∀ r ∈ (o', s.n) :: (if sh = true then s.refs else s.refs.filter (fun r => r.1 != o)), r ∈ s.refs ∨ ¬ D r.2 := by
        intro r hm
        rcases List.mem_cons.mp hm with e | e
        · subst e; exact Or.inr hn
        · split at e
          · exact Or.inl e
          · exact Or.inl (List.mem_filter.mp e).1
      have hne : p ≠ s.n := by omega
      have key : ∀ (x y : Node), x.kind = .cont p pol → y.kind = (s.node p).kind → ∀ rs : List (Nat × Nat), (∀ r ∈ rs, r ∈ s.refs ∨ ¬ D r.2) →
          Stuck D i c { n := s.n + 1, node := upd (upd s.node s.n x) p y, refs := rs } := by
        intro x y hx hy rs hrs
        have h1 := hb.new x (fun q pol' hq => by rw [hx] at hq; cases hq; exact hDp) rs hrs
        exact h1.set (k := p) (x := y) (by simp [upd, hne, hy]) (fun hd => absurd hd hDp)
      split at hs
      · split at hs
        · split at hs <;> cases hs
          · exact key { kind := .cont p pol, parent := some p, vec := true } { s.node p with frames := (s.node p).frames + 1 } rfl rfl _ hmem
          · exact key { kind := .cont p pol, parent := some p } { s.node p with conts := (s.node p).conts ++ [s.n] } rfl rfl _ hmem
        · cases hs; exact hb
      · cases hs

end Verif.StateLife
