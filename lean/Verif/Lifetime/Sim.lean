import Verif.Lifetime.Model
/-!
# The invariant of the model of thread data, and the simulation

Every reference is counted: the count is the number of references of the client, one for `self`, and what the thread or the constructor holds.
-/

set_option linter.unusedSimpArgs false
set_option linter.unusedVariables false

namespace Verif.Lifetime

@[simp] theorem upd_same {α : Type} (f : Nat → α) (i : Nat) (x : α) : upd f i x i = x := by simp [upd]
theorem upd_ne {α : Type} {f : Nat → α} {i j : Nat} {x : α} (h : j ≠ i) : upd f i x j = f j := by simp [upd, h]

/-- The references of the client to `d`. -/
def nref (rs : List (Nat × Nat)) (d : Nat) : Nat := rs.countP (fun r => r.2 == d)

/-- The stages in which `self` is set. -/
def selfOf : Plat → Stage → Bool
  | .posix, .armed | .posix, .born | .posix, .took | .posix, .ext | .posix, .xclean | .posix, .abandoned => true
  | _, _ => false

/-- The references held by the thread or the constructor. -/
def hold : Plat → Stage → Nat
  | .posix, .took => 1
  | .posix, .body => 1
  | .posix, .clean => 2
  | .posix, .cleared => 1
  | .posix, .unset => 1
  | .posix, .xclean => 1
  | .posix, _ => 0
  | .windows, .armed => 1
  | .windows, .counted => 1
  | .windows, .born => 1
  | .windows, .body => 1
  | .windows, .clean => 1
  | .windows, .unset => 1
  | .windows, .ext => 1
  | .windows, _ => 0
  | .winrt, .armed => 1
  | .winrt, .counted => 1
  | .winrt, .born => 1
  | .winrt, .body => 1
  | .winrt, .clean => 1
  | .winrt, .unset => 1
  | .winrt, .ext => 1
  | .winrt, _ => 0

def useOf (x : Rec) : Use :=
  match x.stage with
  | .made | .armed | .susp | .counted | .born | .took => .starting
  | .body => .running x.thr
  | .clean | .cleared | .unset => if x.lib then .ending x.thr else .kept x.thr
  | .over | .refused => .none
  | .ext | .xclean => .kept x.thr
  | .abandoned => .lost

def Fine (x : Rec) : Prop :=
  (x.alive = true ∧ x.dying = none ∧ 0 < x.count) ∨ (x.alive = true ∧ x.dying.isSome = true ∧ x.count = 0) ∨ (x.alive = false ∧ x.dying = none ∧ x.count = 0)

/-- Which stages data made by a constructor go through, and which the others. -/
def kind (x : Rec) : Bool :=
  match x.stage with
  | .ext | .xclean | .abandoned => !x.lib
  | .clean | .unset | .over => true
  | _ => x.lib

/-- Stages of one platform only. -/
def there : Plat → Stage → Bool
  | .posix, .susp | .posix, .counted => false
  | .windows, .armed | .windows, .took | .windows, .cleared | .windows, .xclean | .windows, .abandoned => false
  | .winrt, .susp | .winrt, .counted | .winrt, .took | .winrt, .cleared | .winrt, .xclean | .winrt, .abandoned => false
  | _, _ => true

structure Loc (P : Plat) (n : Nat) (x : Rec) (u : Use) (dd : Bool) : Prop where
  count : x.count = n + (if x.self then 1 else 0) + hold P x.stage
  self : x.self = selfOf P x.stage
  fine : Fine x
  hidden : x.stage.hidden = true → 0 < n
  dead : dd = !x.alive
  use : u = useOf x
  kind : kind x = true
  there : there P x.stage = true
  lone : P = .posix → x.lib = false → (x.stage = .clean ∨ x.stage = .unset) → False

def inCur : Stage → Bool
  | .body | .clean | .cleared | .ext => true
  | _ => false

def pre : Stage → Bool
  | .susp | .counted | .born | .took => true
  | _ => false

def spawnedS : Stage → Bool
  | .susp | .counted | .born | .took | .body | .clean | .cleared | .unset | .over => true
  | _ => false

def inXc : Stage → Bool
  | .xclean | .clean | .unset => true
  | _ => false

/-- What is known of the thread of `d`. -/
structure Gl (x : Rec) (d nt : Nat) (c l k : Nat → Option Nat) : Prop where
  cur : inCur x.stage = true → c x.thr = some d
  pre : pre x.stage = true → c x.thr = none
  lib : x.lib = true → spawnedS x.stage = true → l x.thr = some d
  xc : x.lib = false → inXc x.stage = true → k x.thr = some d

structure Inv (P : Plat) (s : State) (σ : Spec) : Prop where
  n : σ.n = s.nr
  refs : σ.refs = s.refs
  names : s.refs.Pairwise (fun a b => a.1 ≠ b.1)
  bound : ∀ r ∈ s.refs, r.2 < s.nr
  unborn : ∀ d, s.nr ≤ d → σ.dead d = false
  loc : ∀ d, d < s.nr → Loc P (nref s.refs d) (s.dat d) (σ.use d) (σ.dead d)
  gl : ∀ d, d < s.nr → Gl (s.dat d) d s.nt s.cur s.lib s.xc
  cur : ∀ t d, s.cur t = some d → d < s.nr ∧ (s.dat d).thr = t ∧ inCur (s.dat d).stage = true ∧ t < s.nt
  lib : ∀ t d, s.lib t = some d → d < s.nr ∧ (s.dat d).thr = t ∧ (s.dat d).lib = true ∧ spawnedS (s.dat d).stage = true ∧ t < s.nt
  xc : ∀ t d, s.xc t = some d → d < s.nr ∧ (s.dat d).thr = t ∧ (s.dat d).lib = false ∧ inXc (s.dat d).stage = true

/-- One step changes the data `d`. -/
theorem Inv.set {P : Plat} {s s' : State} {σ σ' : Spec} (h : Inv P s σ) (d : Nat)
    (hn : ∀ d', d' < s'.nr → d' = d ∨ d' < s.nr) (hle : s.nr ≤ s'.nr) (hd : d < s'.nr) (hσn : σ'.n = s'.nr)
    (hdat : ∀ d', d' ≠ d → s'.dat d' = s.dat d')
    (hrefs : σ'.refs = s'.refs) (names : s'.refs.Pairwise (fun a b => a.1 ≠ b.1)) (bound : ∀ r ∈ s'.refs, r.2 < s'.nr)
    (hnref : ∀ d', d' ≠ d → nref s'.refs d' = nref s.refs d')
    (huse : ∀ d', d' ≠ d → σ'.use d' = σ.use d' ∧ σ'.dead d' = σ.dead d')
    (hloc : Loc P (nref s'.refs d) (s'.dat d) (σ'.use d) (σ'.dead d))
    (hgl : Gl (s'.dat d) d s'.nt s'.cur s'.lib s'.xc) (hnt : s.nt ≤ s'.nt)
    (hoth : ∀ d', d' ≠ d → d' < s.nr → Gl (s.dat d') d' s'.nt s'.cur s'.lib s'.xc)
    (hcur : ∀ t d', s'.cur t = some d' → (d' ≠ d ∧ s.cur t = some d') ∨ (d' = d ∧ (s'.dat d).thr = t ∧ inCur (s'.dat d).stage = true ∧ t < s'.nt))
    (hlib : ∀ t d', s'.lib t = some d' → (d' ≠ d ∧ s.lib t = some d') ∨ (d' = d ∧ (s'.dat d).thr = t ∧ (s'.dat d).lib = true ∧ spawnedS (s'.dat d).stage = true ∧ t < s'.nt))
    (hxc : ∀ t d', s'.xc t = some d' → (d' ≠ d ∧ s.xc t = some d') ∨ (d' = d ∧ (s'.dat d).thr = t ∧ (s'.dat d).lib = false ∧ inXc (s'.dat d).stage = true)) :
    Inv P s' σ' := by
  refine ⟨hσn, hrefs, names, bound, fun d' hd' => ((huse d' (by omega)).2.trans (h.unborn d' (by omega))), ?_, ?_, ?_, ?_, ?_⟩
  · intro d' hd'
    by_cases e : d' = d
    · subst e; exact hloc
    · rw [hdat _ e, hnref _ e, (huse _ e).1, (huse _ e).2]
      exact h.loc d' ((hn d' hd').resolve_left e)
  · intro d' hd'
    by_cases e : d' = d
    · subst e; exact hgl
    · rw [hdat _ e]; exact hoth d' e ((hn d' hd').resolve_left e)
  · intro t d' hc
    rcases hcur t d' hc with ⟨e, hc⟩ | ⟨e, h1, h2, h3⟩
    · rw [hdat _ e]; obtain ⟨h1, h2, h3, h4⟩ := h.cur t d' hc; exact ⟨by omega, h2, h3, by omega⟩
    · subst e; exact ⟨hd, h1, h2, h3⟩
  · intro t d' hc
    rcases hlib t d' hc with ⟨e, hc⟩ | ⟨e, h1, h2, h3, h4⟩
    · rw [hdat _ e]; obtain ⟨h1, h2, h3, h4, h5⟩ := h.lib t d' hc; exact ⟨by omega, h2, h3, h4, by omega⟩
    · subst e; exact ⟨hd, h1, h2, h3, h4⟩
  · intro t d' hc
    rcases hxc t d' hc with ⟨e, hc⟩ | ⟨e, h1, h2, h3⟩
    · rw [hdat _ e]; obtain ⟨h1, h2, h3, h4⟩ := h.xc t d' hc; exact ⟨by omega, h2, h3, h4⟩
    · subst e; exact ⟨hd, h1, h2, h3⟩

/-- One step changes the data `d`, and nothing that is known of threads. -/
theorem Inv.put {P : Plat} {s : State} {σ : Spec} (h : Inv P s σ) (d : Nat) (hd : d < s.nr) (x : Rec) (u : Use) (dd : Bool)
    (hthr : x.thr = (s.dat d).thr) (hlib : x.lib = (s.dat d).lib)
    (hloc : Loc P (nref s.refs d) x u dd)
    (h1 : inCur x.stage = inCur (s.dat d).stage) (h2 : pre x.stage = true → pre (s.dat d).stage = true)
    (h3 : spawnedS x.stage = spawnedS (s.dat d).stage) (h4 : x.lib = false → inXc x.stage = inXc (s.dat d).stage) :
    Inv P (setRec s d x) { σ with use := upd σ.use d u, dead := upd σ.dead d dd } := by
  have g := h.gl d hd
  refine h.set d (fun d' hd' => Or.inr hd') (Nat.le_refl _) hd h.n ?_ h.refs h.names h.bound (fun _ _ => rfl) ?_ ?_ ?_ (Nat.le_refl _) ?_ ?_ ?_ ?_
  · intro d' e; simp [setRec, upd_ne e]
  · intro d' e; simp [upd_ne e]
  · simpa [setRec] using hloc
  · simp only [setRec, upd_same]
    refine ⟨?_, ?_, ?_, ?_⟩
    · intro hc; rw [hthr]; exact g.cur (h1 ▸ hc)
    · intro hc; rw [hthr]; exact g.pre (h2 hc)
    · intro hl hc; rw [hthr]; exact g.lib (hlib ▸ hl) (h3 ▸ hc)
    · intro hl hc; rw [hthr]; exact g.xc (hlib ▸ hl) (h4 hl ▸ hc)
  · intro d' e hd'; exact h.gl d' hd'
  · intro t d' hc
    simp only [setRec] at hc
    by_cases e : d' = d
    · subst e; obtain ⟨a1, a2, a3, a4⟩ := h.cur t d' hc
      exact Or.inr ⟨rfl, by simp [setRec, hthr, a2], by simp [setRec, h1, a3], a4⟩
    · exact Or.inl ⟨e, hc⟩
  · intro t d' hc
    simp only [setRec] at hc
    by_cases e : d' = d
    · subst e; obtain ⟨a1, a2, a3, a4, a5⟩ := h.lib t d' hc
      exact Or.inr ⟨rfl, by simp [setRec, hthr, a2], by simp [setRec, hlib, a3], by simp [setRec, h3, a4], a5⟩
    · exact Or.inl ⟨e, hc⟩
  · intro t d' hc
    simp only [setRec] at hc
    by_cases e : d' = d
    · subst e; obtain ⟨a1, a2, a3, a4⟩ := h.xc t d' hc
      have : x.lib = false := hlib ▸ a3
      exact Or.inr ⟨rfl, by simp [setRec, hthr, a2], by simp [setRec, hlib, a3], by simp [setRec, h4 this, a4]⟩
    · exact Or.inl ⟨e, hc⟩

/-- Changing names and numbers of references to `d`, whose data stay the same but for the count. -/
theorem Inv.reref {P : Plat} {s : State} {σ : Spec} (h : Inv P s σ) (d : Nat) (hd : d < s.nr) (x : Rec) (rs : List (Nat × Nat))
    (hthr : x.thr = (s.dat d).thr) (hlib : x.lib = (s.dat d).lib) (hst : x.stage = (s.dat d).stage)
    (hnm : rs.Pairwise (fun a b => a.1 ≠ b.1)) (hb : ∀ r ∈ rs, r.2 < s.nr)
    (hnr : ∀ d', d' ≠ d → nref rs d' = nref s.refs d')
    (hloc : Loc P (nref rs d) x (σ.use d) (σ.dead d)) :
    Inv P { setRec s d x with refs := rs } { σ with refs := rs } := by
  have g := h.gl d hd
  refine h.set d (fun d' hd' => Or.inr hd') (Nat.le_refl _) hd h.n ?_ rfl hnm hb hnr (fun _ _ => ⟨rfl, rfl⟩) ?_ ?_ (Nat.le_refl _) ?_ ?_ ?_ ?_
  · intro d' e; simp [setRec, upd_ne e]
  · simpa [setRec] using hloc
  · simp only [setRec, upd_same]
    refine ⟨?_, ?_, ?_, ?_⟩
    · intro hc; rw [hthr]; exact g.cur (hst ▸ hc)
    · intro hc; rw [hthr]; exact g.pre (hst ▸ hc)
    · intro hl hc; rw [hthr]; exact g.lib (hlib ▸ hl) (hst ▸ hc)
    · intro hl hc; rw [hthr]; exact g.xc (hlib ▸ hl) (hst ▸ hc)
  · intro d' e hd'; exact h.gl d' hd'
  · intro t d' hc
    simp only [setRec] at hc
    by_cases e : d' = d
    · subst e; obtain ⟨a1, a2, a3, a4⟩ := h.cur t d' hc
      exact Or.inr ⟨rfl, by simp [setRec, hthr, a2], by simp [setRec, hst, a3], a4⟩
    · exact Or.inl ⟨e, hc⟩
  · intro t d' hc
    simp only [setRec] at hc
    by_cases e : d' = d
    · subst e; obtain ⟨a1, a2, a3, a4, a5⟩ := h.lib t d' hc
      exact Or.inr ⟨rfl, by simp [setRec, hthr, a2], by simp [setRec, hlib, a3], by simp [setRec, hst, a4], a5⟩
    · exact Or.inl ⟨e, hc⟩
  · intro t d' hc
    simp only [setRec] at hc
    by_cases e : d' = d
    · subst e; obtain ⟨a1, a2, a3, a4⟩ := h.xc t d' hc
      exact Or.inr ⟨rfl, by simp [setRec, hthr, a2], by simp [setRec, hlib, a3], by simp [setRec, hst, a4]⟩
    · exact Or.inl ⟨e, hc⟩

theorem Loc.ok {P : Plat} {n : Nat} {x : Rec} {u : Use} {dd : Bool} (h : Loc P n x u dd) (hc : 0 < x.count) : x.ok = true ∧ x.alive = true ∧ x.dying = none := by
  rcases h.fine with ⟨a, b, c⟩ | ⟨a, b, c⟩ | ⟨a, b, c⟩
  · simp [Rec.ok, a, b]
  · omega
  · omega

theorem ref_mem {s : State} {o d : Nat} (h : ref s o = some d) : (o, d) ∈ s.refs ∧ s.refs.find? (fun r => r.1 == o) = some (o, d) := by
  unfold ref at h
  cases hf : s.refs.find? (fun r => r.1 == o) with
  | none => simp [hf] at h
  | some r =>
    simp only [hf, Option.map_some, Option.some.injEq] at h
    have := List.find?_some hf
    simp only [beq_iff_eq] at this
    obtain ⟨a, b⟩ := r
    simp only at this h
    subst this; subst h
    exact ⟨List.mem_of_find?_eq_some hf, rfl⟩

theorem nref_pos {rs : List (Nat × Nat)} {o d : Nat} (h : (o, d) ∈ rs) : 0 < nref rs d := by
  unfold nref
  exact List.countP_pos_iff.mpr ⟨_, h, by simp⟩

theorem nref_filter {rs : List (Nat × Nat)} {o d : Nat} (h : (o, d) ∈ rs) (hn : rs.Pairwise (fun a b => a.1 ≠ b.1)) :
    nref (rs.filter (fun r => r.1 != o)) d + 1 = nref rs d ∧ ∀ d', d' ≠ d → nref (rs.filter (fun r => r.1 != o)) d' = nref rs d' := by
  induction rs with
  | nil => simp at h
  | cons r rs ih =>
    rw [List.pairwise_cons] at hn
    by_cases e : r = (o, d)
    · subst e
      have : rs.filter (fun r => r.1 != o) = rs := by
        apply List.filter_eq_self.mpr
        intro a ha
        have := hn.1 a ha
        simpa using fun e => this e.symm
      simp only [List.filter, bne_self_eq_false, this]
      refine ⟨by simp [nref, List.countP_cons], fun d' e => ?_⟩
      have : ¬ d = d' := fun h => e h.symm
      simp [nref, List.countP_cons, this]
    · have hm : (o, d) ∈ rs := by
        rcases List.mem_cons.mp h with h | h
        · exact absurd h.symm e
        · exact h
      have hne : r.1 ≠ o := fun eq => hn.1 _ hm eq
      obtain ⟨i1, i2⟩ := ih hm hn.2
      have hf : (r :: rs).filter (fun r => r.1 != o) = r :: rs.filter (fun r => r.1 != o) := List.filter_cons_of_pos (by simpa using hne)
      rw [hf]
      simp only [nref, List.countP_cons] at i1 i2 ⊢
      refine ⟨by omega, fun d' e => ?_⟩
      rw [i2 d' e]

theorem fresh_iff {s : State} {o : Nat} (h : fresh s o = true) : ∀ r ∈ s.refs, r.1 ≠ o := by
  simpa [fresh] using h

theorem nref_cons (o d : Nat) (rs : List (Nat × Nat)) (d' : Nat) : nref ((o, d) :: rs) d' = nref rs d' + if d = d' then 1 else 0 := by
  simp [nref, List.countP_cons]

theorem fine_release {x : Rec} (t : Nat) (h1 : x.alive = true) (h2 : x.dying = none) (h3 : 0 < x.count) : Fine (x.release t) := by
  by_cases e : x.count - 1 = 0
  · exact Or.inr (Or.inl ⟨h1, by simp [Rec.release, e], by simpa [Rec.release] using e⟩)
  · exact Or.inl ⟨h1, by simp [Rec.release, e, h2], by simp only [Rec.release]; omega⟩

theorem fine_addRef {x : Rec} (h1 : x.alive = true) (h2 : x.dying = none) : Fine x.addRef :=
  Or.inl ⟨h1, h2, by simp [Rec.addRef]⟩

theorem sim_make {P : Plat} {K : Nat} {s s' : State} {es : List Event} {σ : Spec} (h : Inv P s σ) (o : Nat)
    (hs : step P K s (.make o) = some (s', es)) : Follows next (Inv P s') σ es := by
  simp only [step] at hs
  split at hs <;> cases hs
  rename_i hf
  have hfr := fresh_iff hf
  have hf' : σ.refs.any (fun r => r.1 == o) = false := by simpa [fresh, h.refs] using hf
  have hz : nref s.refs s.nr = 0 := by
    simp only [nref, List.countP_eq_zero]
    intro r hr; have := h.bound r hr
    simp; omega
  simp only [Follows, next, hf', Bool.false_eq_true, if_false, h.n, if_true]
  refine h.set s.nr (fun d' hd' => by simp only at hd'; omega) (Nat.le_succ _) (Nat.lt_succ_self _) rfl ?_ (by simp [h.refs]) ?_ ?_ ?_ ?_ ?_ ?_ (Nat.le_refl _) ?_ ?_ ?_ ?_
  · intro d' e; simp [setRec, upd_ne e]
  · simp only [List.pairwise_cons]
    exact ⟨fun r hr => (hfr r hr).symm, h.names⟩
  · intro r hr
    simp only [List.mem_cons] at hr
    rcases hr with rfl | hr
    · exact Nat.lt_succ_self _
    · exact Nat.lt_succ_of_lt (h.bound r hr)
  · intro d' e
    have : ¬ s.nr = d' := fun h => e h.symm
    simp [nref_cons, this]
  · intro d' e; simp [upd_ne e]
  · have hdead : σ.dead s.nr = false := h.unborn s.nr (Nat.le_refl _)
    simp only [setRec, upd_same, nref_cons, hz, hdead]
    constructor <;> simp [Rec.blank, selfOf, hold, Fine, Stage.hidden, useOf, kind, there] <;> cases P <;> rfl
  · simp only [setRec, upd_same]
    constructor <;> simp [Rec.blank, inCur, pre, spawnedS, inXc]
  · intro d' e hd'; exact h.gl d' hd'
  · intro t d' hc; simp only [setRec] at hc
    exact Or.inl ⟨by have := (h.cur t d' hc).1; omega, hc⟩
  · intro t d' hc; simp only [setRec] at hc
    exact Or.inl ⟨by have := (h.lib t d' hc).1; omega, hc⟩
  · intro t d' hc; simp only [setRec] at hc
    exact Or.inl ⟨by have := (h.xc t d' hc).1; omega, hc⟩

theorem upd_id {α : Type} (f : Nat → α) (i : Nat) : upd f i (f i) = f := by
  funext j; by_cases e : j = i
  · subst e; simp
  · simp [upd_ne e]

theorem Loc.busy {P : Plat} {n : Nat} {x : Rec} {u : Use} {dd : Bool} (h : Loc P n x u dd) (h1 : x.stage ≠ .over) (h2 : x.stage ≠ .refused) :
    0 < x.count := by
  have hc := h.count
  have hs := h.self
  have hh := h.hidden
  have ht := h.there
  rw [hs] at hc
  cases P <;> cases hx : x.stage <;> rw [hx] at hc hh ht h1 h2 <;> simp [selfOf, hold, Stage.hidden, there] at hc hh ht h1 h2 <;> first | omega | cases ht

theorem Loc.live {P : Plat} {n : Nat} {x : Rec} {u : Use} {dd : Bool} (h : Loc P n x u dd) (hc : 0 < x.count) :
    x.ok = true ∧ x.alive = true ∧ x.dying = none ∧ dd = false := by
  obtain ⟨a, b, c⟩ := h.ok hc
  exact ⟨a, b, c, by simp [h.dead, b]⟩

theorem Inv.eps {P : Plat} {s : State} {σ : Spec} (h : Inv P s σ) (d : Nat) (hd : d < s.nr) (x : Rec)
    (hthr : x.thr = (s.dat d).thr) (hlib : x.lib = (s.dat d).lib)
    (hloc : Loc P (nref s.refs d) x (σ.use d) (σ.dead d))
    (h1 : inCur x.stage = inCur (s.dat d).stage) (h2 : pre x.stage = true → pre (s.dat d).stage = true)
    (h3 : spawnedS x.stage = spawnedS (s.dat d).stage) (h4 : x.lib = false → inXc x.stage = inXc (s.dat d).stage) :
    Inv P (setRec s d x) σ := by
  simpa [upd_id] using h.put d hd x (σ.use d) (σ.dead d) hthr hlib hloc h1 h2 h3 h4

theorem sim_arm {P : Plat} {K : Nat} {s s' : State} {es : List Event} {σ : Spec} (h : Inv P s σ) (d : Nat)
    (hs : step P K s (.arm d) = some (s', es)) : Follows next (Inv P s') σ es := by
  simp only [step] at hs
  split at hs
  · rename_i hd
    have L := h.loc d hd
    split at hs
    · rename_i hst
      obtain ⟨hok, ha, hdy, hdd⟩ := L.live (L.busy (by simp [hst]) (by simp [hst]))
      simp only [hok, if_true] at hs
      cases hs
      refine h.eps d hd _ rfl rfl ⟨?_, rfl, fine_addRef ha hdy, ?_, ?_, ?_, ?_, rfl, ?_⟩ ?_ ?_ ?_ ?_
      · have := L.count; have h5 := L.self; rw [hst] at h5
        simp_all [Rec.addRef, selfOf, hold]
      · intro _; exact L.hidden (by simp [hst, Stage.hidden])
      · exact L.dead
      · rw [L.use]; simp [useOf, hst, Rec.addRef]
      · have := L.kind; simp [kind, hst] at this; simp [kind, Rec.addRef, this]
      · simp
      all_goals simp [hst, inCur, pre, spawnedS, inXc]
    · rename_i hst
      obtain ⟨hok, ha, hdy, hdd⟩ := L.live (L.busy (by simp [hst]) (by simp [hst]))
      simp only [hok, if_true] at hs
      cases hs
      have h5 := L.self; rw [hst] at h5; simp [selfOf] at h5
      refine h.eps d hd _ rfl rfl ⟨?_, by simpa [Rec.addRef, selfOf] using h5, fine_addRef ha hdy, ?_, ?_, ?_, ?_, rfl, ?_⟩ ?_ ?_ ?_ ?_
      · have := L.count
        simp_all [Rec.addRef, selfOf, hold]
      · intro _; exact L.hidden (by simp [hst, Stage.hidden])
      · exact L.dead
      · rw [L.use]; simp [useOf, hst, Rec.addRef]
      · have := L.kind; simp [kind, hst] at this; simp [kind, Rec.addRef, this]
      · simp
      all_goals simp [hst, inCur, pre, spawnedS, inXc]
    · rename_i hst
      obtain ⟨hok, ha, hdy, hdd⟩ := L.live (L.busy (by simp [hst]) (by simp [hst]))
      simp only [hok, if_true] at hs
      cases hs
      have h5 := L.self; rw [hst] at h5; simp [selfOf] at h5
      refine h.eps d hd _ rfl rfl ⟨?_, by simpa [Rec.addRef, selfOf] using h5, fine_addRef ha hdy, ?_, ?_, ?_, ?_, rfl, ?_⟩ ?_ ?_ ?_ ?_
      · have := L.count
        simp_all [Rec.addRef, selfOf, hold]
      · intro _; exact L.hidden (by simp [hst, Stage.hidden])
      · exact L.dead
      · rw [L.use]; simp [useOf, hst, Rec.addRef]
      · have := L.kind; simp [kind, hst] at this; simp [kind, Rec.addRef, this]
      · simp
      all_goals simp [hst, inCur, pre, spawnedS, inXc]
    · cases hs
  · cases hs

/-- A thread has been created for `d`. -/
theorem Inv.spawned {P : Plat} {s : State} {σ : Spec} (h : Inv P s σ) (d : Nat) (hd : d < s.nr) (st : Stage)
    (hst : (s.dat d).stage = .made ∨ (s.dat d).stage = .armed) (hp : pre st = true)
    (hloc : Loc P (nref s.refs d) { s.dat d with stage := st, thr := s.nt } (σ.use d) (σ.dead d)) (hl : (s.dat d).lib = true) :
    Inv P (spawned s d (s.dat d) st) σ := by
  have hcn : s.cur s.nt = none := by
    cases hc : s.cur s.nt with
    | none => rfl
    | some d' => have := (h.cur _ _ hc).2.2.2; omega
  have hsp : spawnedS st = true := by cases st <;> simp_all [pre, spawnedS]
  have hnc : inCur st = false := by cases st <;> simp_all [pre, inCur]
  refine h.set d (fun d' hd' => Or.inr hd') (Nat.le_refl _) hd h.n ?_ h.refs h.names h.bound (fun _ _ => rfl) (fun _ _ => ⟨rfl, rfl⟩) ?_ ?_ (Nat.le_succ _) ?_ ?_ ?_ ?_
  · intro d' e; simp [Lifetime.spawned, setRec, upd_ne e]
  · simpa [Lifetime.spawned, setRec] using hloc
  · simp only [Lifetime.spawned, setRec, upd_same]
    exact ⟨fun hc => by simp [hnc] at hc, fun _ => hcn, fun _ _ => by simp, fun hc => by simp [hl] at hc⟩
  · intro d' e hd'
    have g := h.gl d' hd'
    refine ⟨g.cur, g.pre, fun a b => ?_, g.xc⟩
    have h1 := g.lib a b
    have h2 := (h.lib _ _ h1).2.2.2.2
    simp only [Lifetime.spawned, setRec]
    rw [upd_ne (by omega)]; exact h1
  · intro t d' hc
    simp only [Lifetime.spawned, setRec] at hc
    refine Or.inl ⟨fun e => ?_, hc⟩
    subst e
    have := (h.cur t _ hc).2.2.1
    rcases hst with hst | hst <;> simp [hst, inCur] at this
  · intro t d' hc
    simp only [Lifetime.spawned, setRec] at hc
    by_cases e : t = s.nt
    · subst e; simp only [upd_same, Option.some.injEq] at hc; subst hc
      exact Or.inr ⟨rfl, by simp [Lifetime.spawned, setRec], by simp [Lifetime.spawned, setRec, hl], by simp [Lifetime.spawned, setRec, hsp], Nat.lt_succ_self _⟩
    · rw [upd_ne e] at hc
      refine Or.inl ⟨fun e => ?_, hc⟩
      subst e
      have := (h.lib t _ hc).2.2.2.1
      rcases hst with hst | hst <;> simp [hst, spawnedS] at this
  · intro t d' hc
    simp only [Lifetime.spawned, setRec] at hc
    refine Or.inl ⟨fun e => ?_, hc⟩
    subst e
    have := (h.xc t _ hc).2.2.2
    rcases hst with hst | hst <;> simp [hst, inXc] at this

theorem sim_spawn {P : Plat} {K : Nat} {s s' : State} {es : List Event} {σ : Spec} (h : Inv P s σ) (d : Nat) (ok : Bool) (t : Nat)
    (hs : step P K s (.spawn d ok t) = some (s', es)) : Follows next (Inv P s') σ es := by
  simp only [step] at hs
  split at hs
  · rename_i hd
    have L := h.loc d hd
    have hnd : d < σ.n := by rw [h.n]; exact hd
    split at hs
    · rename_i hst
      have hc := L.busy (by simp [hst]) (by simp [hst])
      obtain ⟨hok, ha, hdy, hdd⟩ := L.live hc
      have h5 := L.self; rw [hst] at h5; simp [selfOf] at h5
      have h6 := L.kind; simp [kind, hst] at h6
      have h7 := L.hidden (by simp [hst, Stage.hidden])
      have h8 := L.count
      simp only [h5, hst, if_true, hold] at h8
      simp only [hok, if_true] at hs
      split at hs <;> cases hs
      · refine h.spawned d hd _ (Or.inr hst) rfl ⟨?_, ?_, ?_, ?_, ?_, ?_, ?_, rfl, ?_⟩ h6
        · simp [h8, h5, hold]
        · simp [h5, selfOf]
        · exact L.fine
        · simp [Stage.hidden]
        · exact L.dead
        · rw [L.use]; simp [useOf, hst]
        · simp [kind, h6]
        · simp
      · have hu : σ.use d = .starting := by rw [L.use]; simp [useOf, hst]
        simp only [Follows, next, hnd, hu, hdd, and_self, if_true]
        have := h.put d hd { (s.dat d).selfReset t with stage := .refused } .none (σ.dead d) (by simp [Rec.selfReset, h5, Rec.release]) (by simp [Rec.selfReset, h5, Rec.release])
          ⟨?_, ?_, ?_, ?_, ?_, ?_, ?_, ?_, ?_⟩ ?_ ?_ ?_ ?_
        · simpa [upd_id] using this
        · simp [Rec.selfReset, h5, Rec.release, hold]; omega
        · simp [Rec.selfReset, h5, Rec.release, selfOf]
        · have := fine_release t ha hdy hc
          simpa [Rec.selfReset, h5, Fine] using this
        · simp [Stage.hidden]
        · simp [Rec.selfReset, h5, Rec.release, L.dead]
        · simp [useOf]
        · simp [kind, Rec.selfReset, h5, Rec.release, h6]
        · simp [there]
        · simp
        all_goals simp [hst, inCur, pre, spawnedS, inXc]
    · rename_i hst
      have hc := L.busy (by simp [hst]) (by simp [hst])
      obtain ⟨hok, ha, hdy, hdd⟩ := L.live hc
      have h5 := L.self; rw [hst] at h5; simp [selfOf] at h5
      have h6 := L.kind; simp [kind, hst] at h6
      have h7 := L.hidden (by simp [hst, Stage.hidden])
      have h8 := L.count
      simp only [h5, hst, if_true, hold] at h8
      simp only [hok, if_true] at hs
      split at hs <;> cases hs
      · refine h.spawned d hd _ (Or.inr hst) rfl ⟨?_, ?_, ?_, ?_, ?_, ?_, ?_, rfl, ?_⟩ h6
        · simp [h8, h5, hold]
        · simp [h5, selfOf]
        · exact L.fine
        · simp [Stage.hidden]
        · exact L.dead
        · rw [L.use]; simp [useOf, hst]
        · simp [kind, h6]
        · simp
      · have hu : σ.use d = .starting := by rw [L.use]; simp [useOf, hst]
        simp only [Follows, next, hnd, hu, hdd, and_self, if_true]
        have := h.put d hd { (s.dat d).release t with stage := .refused } .none (σ.dead d) rfl rfl
          ⟨?_, ?_, fine_release t ha hdy hc, ?_, ?_, ?_, ?_, ?_, ?_⟩ ?_ ?_ ?_ ?_
        · simpa [upd_id] using this
        · simp at h8; simp [h5, Rec.release, hold]; omega
        · simp [h5, Rec.release, selfOf]
        · simp [Stage.hidden]
        · simp [Rec.release, L.dead]
        · simp [useOf]
        · simp [kind, Rec.release, h6]
        · simp [there]
        · simp
        all_goals simp [hst, inCur, pre, spawnedS, inXc]
    · rename_i hst
      have hc := L.busy (by simp [hst]) (by simp [hst])
      obtain ⟨hok, ha, hdy, hdd⟩ := L.live hc
      have h5 := L.self; rw [hst] at h5; simp [selfOf] at h5
      have h6 := L.kind; simp [kind, hst] at h6
      have h7 := L.hidden (by simp [hst, Stage.hidden])
      have h8 := L.count
      simp only [h5, hst, if_true, hold] at h8
      simp only [hok, if_true] at hs
      split at hs <;> cases hs
      · refine h.spawned d hd _ (Or.inl hst) rfl ⟨?_, ?_, ?_, ?_, ?_, ?_, ?_, rfl, ?_⟩ h6
        · simp [h8, h5, hold]
        · simp [h5, selfOf]
        · exact L.fine
        · intro _; exact h7
        · exact L.dead
        · rw [L.use]; simp [useOf, hst]
        · simp [kind, h6]
        · simp
      · have hu : σ.use d = .starting := by rw [L.use]; simp [useOf, hst]
        simp only [Follows, next, hnd, hu, hdd, and_self, if_true]
        have := h.put d hd { s.dat d with stage := .refused } .none (σ.dead d) rfl rfl
          ⟨?_, ?_, L.fine, ?_, L.dead, ?_, ?_, ?_, ?_⟩ ?_ ?_ ?_ ?_
        · simpa [upd_id] using this
        · simp [h5, hold]; simpa [h5] using h8
        · simp [h5, selfOf]
        · simp [Stage.hidden]
        · simp [useOf]
        · simp [kind, h6]
        · simp [there]
        · simp
        all_goals simp [hst, inCur, pre, spawnedS, inXc]
    · cases hs
  · cases hs

theorem sim_resume {P : Plat} {K : Nat} {s s' : State} {es : List Event} {σ : Spec} (h : Inv P s σ) (d : Nat)
    (hs : step P K s (.resume d) = some (s', es)) : Follows next (Inv P s') σ es := by
  simp only [step] at hs
  split at hs
  · rename_i hd
    have L := h.loc d hd
    split at hs
    · rename_i hst
      obtain ⟨hok, ha, hdy, hdd⟩ := L.live (L.busy (by simp [hst]) (by simp [hst]))
      simp only [hok, if_true] at hs
      cases hs
      have h5 := L.self; rw [hst] at h5; simp [selfOf] at h5
      refine h.eps d hd _ rfl rfl ⟨?_, by simpa [selfOf] using h5, L.fine, ?_, L.dead, ?_, ?_, rfl, ?_⟩ ?_ ?_ ?_ ?_
      · have := L.count; rw [hst] at this; simpa [hold] using this
      · simp [Stage.hidden]
      · rw [L.use]; simp [useOf, hst]
      · have := L.kind; simp [kind, hst] at this; simp [kind, this]
      · simp
      all_goals simp [hst, inCur, pre, spawnedS, inXc]
    · cases hs
  · cases hs

theorem sim_ret {P : Plat} {K : Nat} {s s' : State} {es : List Event} {σ : Spec} (h : Inv P s σ) (d : Nat)
    (hs : step P K s (.ret d) = some (s', es)) : Follows next (Inv P s') σ es := by
  simp only [step] at hs
  split at hs
  · rename_i hd
    have L := h.loc d hd
    have hnd : d < σ.n := by rw [h.n]; exact hd
    split at hs
    · rename_i hst
      obtain ⟨hok, ha, hdy, hdd⟩ := L.live (L.busy (by simp [hst]) (by simp [hst]))
      simp only [hok, if_true] at hs
      cases hs
      have h5 := L.self; rw [hst] at h5
      have h5' : (s.dat d).self = false := by rw [h5]; cases P <;> rfl
      have h6 := L.kind; simp [kind, hst] at h6
      have h8 := L.count
      have hu : σ.use d = .running (s.dat d).thr := by rw [L.use]; simp [useOf, hst]
      simp only [Follows, next, hnd, hu, hdd, and_self, if_true]
      have := h.put d hd { (if P = .posix then (s.dat d).addRef else s.dat d) with stage := .clean } (.ending (s.dat d).thr) (σ.dead d) (by cases P <;> rfl) (by cases P <;> rfl)
          ⟨?_, ?_, ?_, ?_, ?_, ?_, ?_, ?_, ?_⟩ ?_ ?_ ?_ ?_
      · simpa [upd_id] using this
      · rw [hst, h5'] at h8
        cases P <;> simp [Rec.addRef, hold, h5'] at h8 ⊢ <;> omega
      · cases P <;> simp [Rec.addRef, selfOf, h5']
      · cases P
        · exact fine_addRef ha hdy
        · exact L.fine
        · exact L.fine
      · simp [Stage.hidden]
      · cases P <;> exact L.dead
      · cases P <;> simp [useOf, Rec.addRef, h6]
      · simp [kind]
      · cases P <;> simp [there]
      · intro hP hl; subst hP; simp [Rec.addRef, h6] at hl
      all_goals (try simp [hst, inCur, pre, spawnedS, inXc])
      cases P <;> simp [Rec.addRef, h6]
    · cases hs
  · cases hs

end Verif.Lifetime
