import Verif.ThreadExec.Model
/-!
# `thread_executor`: the model follows the specification
-/
set_option linter.unusedSimpArgs false
set_option linter.unusedVariables false

namespace Verif.ThreadExec

@[simp] theorem upd_same {α : Type} (f : Nat → α) (i : Nat) (x : α) : upd f i x i = x := by simp [upd]
theorem upd_other {α : Type} (f : Nat → α) {i j : Nat} (x : α) (h : j ≠ i) : upd f i x j = f j := by simp [upd, h]
@[simp] theorem updW_same {α : Type} (f : Who → α) (w : Who) (x : α) : updW f w x w = x := by simp [updW]
theorem updW_other {α : Type} (f : Who → α) {w v : Who} (x : α) (h : v ≠ w) : updW f w x v = f v := by simp [updW, h]

/-- The closure a call of `submit` is about. -/
def Pc.sub : Pc → Option Nat
  | .lock (.submit c) | .act (.submit c) | .unlock (.submit c) _ => some c
  | _ => none

/-- In the destructor's `close`. -/
def Pc.dtor : Pc → Bool
  | .lock .closeD | .act .closeD | .unlock .closeD _ => true
  | _ => false

def Pc.holds : Pc → Bool
  | .act _ | .unlock _ _ => true
  | _ => false

/-- The executor as far as it concerns a call. -/
structure View where
  closed : Bool
  asked : Bool
  nc : Nat
  cst : Nat → CSt
  sub : Nat → Sub

def View.submitting (v : View) (c : Nat) (x : Option Call) : Prop :=
  (x = some (.submit c false) ∨ (x = some (.submit c true) ∧ v.closed = true)) ∧ c < v.nc ∧ v.sub c = .offered

def View.submitted (v : View) (c : Nat) (x : Option Call) : Res → Prop
  | .accepted => x = some (.submit c false) ∧ v.cst c ≠ .absent
  | .refused => v.asked = true ∧ v.cst c = .absent
  | .failed => x = some (.submit c false) ∧ v.cst c = .absent
  | _ => False

def View.asking (v : View) (x : Option Call) : Prop := x = some (.ask false) ∨ (x = some (.ask true) ∧ v.closed = true)

def View.answered (v : View) (x : Option Call) : Res → Prop
  | .is b => (b = false → x = some (.ask false)) ∧ (b = true → v.asked = true)
  | _ => False

def View.ok (v : View) (x : Option Call) : Pc → Prop
  | .idle => x = none
  | .lock (.submit c) | .act (.submit c) => v.submitting c x ∧ v.cst c = .absent
  | .unlock (.submit c) r => v.submitting c x ∧ v.submitted c x r
  | .lock .close | .act .close => x = some .close ∧ v.asked = true
  | .unlock .close _ => x = some .close ∧ v.asked = true ∧ v.closed = true
  | .lock .closeD | .act .closeD => x = none ∧ v.asked = true
  | .unlock .closeD _ => x = none ∧ v.asked = true ∧ v.closed = true
  | .lock .ask | .act .ask => v.asking x
  | .unlock .ask r => v.asking x ∧ v.answered x r

theorem View.submitting.mono {v v' : View} {c : Nat} {x : Option Call} (h : v.submitting c x) (h1 : v.closed = true → v'.closed = true)
    (h2 : v.nc ≤ v'.nc) (h3 : v'.sub c = v.sub c) : v'.submitting c x := by
  obtain ⟨a, b, d⟩ := h
  refine ⟨?_, Nat.lt_of_lt_of_le b h2, by rw [h3]; exact d⟩
  rcases a with a | ⟨a, a'⟩
  · exact Or.inl a
  · exact Or.inr ⟨a, h1 a'⟩

theorem View.asking.mono {v v' : View} {x : Option Call} (h : v.asking x) (h1 : v.closed = true → v'.closed = true) : v'.asking x := by
  rcases h with a | ⟨a, a'⟩
  · exact Or.inl a
  · exact Or.inr ⟨a, h1 a'⟩

theorem View.ok.mono {v v' : View} {x : Option Call} {p : Pc} (h : v.ok x p) (h1 : v.closed = true → v'.closed = true) (h0 : v.asked = true → v'.asked = true)
    (h2 : v.nc ≤ v'.nc) (h3 : ∀ c, p.sub = some c → v'.sub c = v.sub c ∧ (v'.cst c = .absent ↔ v.cst c = .absent)) : v'.ok x p := by
  cases p with
  | idle => exact h
  | lock op =>
    cases op with
    | submit c => exact ⟨h.1.mono h1 h2 (h3 c rfl).1, (h3 c rfl).2.2 h.2⟩
    | close => exact ⟨h.1, h0 h.2⟩
    | closeD => exact ⟨h.1, h0 h.2⟩
    | ask => exact View.asking.mono h h1
  | act op =>
    cases op with
    | submit c => exact ⟨h.1.mono h1 h2 (h3 c rfl).1, (h3 c rfl).2.2 h.2⟩
    | close => exact ⟨h.1, h0 h.2⟩
    | closeD => exact ⟨h.1, h0 h.2⟩
    | ask => exact View.asking.mono h h1
  | unlock op r =>
    cases op with
    | submit c =>
      refine ⟨h.1.mono h1 h2 (h3 c rfl).1, ?_⟩
      have := h.2
      cases r with
      | accepted => exact ⟨this.1, fun e => this.2 ((h3 c rfl).2.1 e)⟩
      | refused => exact ⟨h0 this.1, (h3 c rfl).2.2 this.2⟩
      | failed => exact ⟨this.1, (h3 c rfl).2.2 this.2⟩
      | none => exact this
      | is b => exact this
    | close => exact ⟨h.1, h0 h.2.1, h1 h.2.2⟩
    | closeD => exact ⟨h.1, h0 h.2.1, h1 h.2.2⟩
    | ask =>
      refine ⟨View.asking.mono h.1 h1, ?_⟩
      have := h.2
      cases r with
      | is b => exact ⟨this.1, fun e => h0 (this.2 e)⟩
      | _ => exact this

def CSt.shown : CSt → Exec
  | .absent | .created => .fresh
  | .running => .running
  | .over => .over

def view (s : St) (σ : Sys) : View := ⟨s.closed, σ.asked, s.nc, s.cst, σ.sub⟩

/-- The phase and the destructor's thread. -/
def PhaseR (s : St) (σ : Sys) : Prop :=
  match s.phase with
  | .alive => σ.dying = none ∧ σ.gone = false ∧ ∀ w, (s.pc w).dtor = false
  | .closing i => σ.dying = some i ∧ σ.gone = false ∧ (s.pc (.client i)).dtor = true ∧ ∀ j, j ≠ i → s.pc (.client j) = .idle
  | .members i => σ.dying = some i ∧ σ.gone = false ∧ s.closed = true ∧ ∀ j, s.pc (.client j) = .idle
  | .joining i l => σ.dying = some i ∧ σ.gone = false ∧ s.closed = true ∧ (∀ w, s.pc w = .idle) ∧ ∀ c, s.cst c = .absent ∨ s.cst c = .over ∨ c ∈ l
  | .gone => (∃ i, σ.dying = some i) ∧ σ.gone = true ∧ s.closed = true ∧ (∀ w, s.pc w = .idle) ∧ ∀ c, s.cst c = .absent ∨ s.cst c = .over

structure R (s : St) (σ : Sys) : Prop where
  nc : σ.nc = s.nc
  exec : ∀ c, σ.exec c = (s.cst c).shown
  ok : ∀ w, (view s σ).ok (σ.call w) (s.pc w)
  uniq : ∀ w v c, (s.pc w).sub = some c → (s.pc v).sub = some c → w = v
  known : ∀ c, s.cst c ≠ .absent → c < s.nc ∧ σ.sub c ≠ .dead
  pending : ∀ c, c < s.nc → s.cst c = .absent → σ.sub c = .dead ∨ ∃ w, (s.pc w).sub = some c
  inside : ∀ i, i ∈ σ.inside ↔ σ.call (.client i) ≠ none
  closed : σ.closed = true → s.closed = true
  asked : s.closed = true → σ.asked = true
  dying : s.phase ≠ .alive → σ.asked = true
  phase : PhaseR s σ
  busy : ∀ c, s.pc (.closure c) ≠ .idle → s.cst c = .running
  clos : ∀ c, (s.pc (.closure c)).dtor = false
  threads : ∀ c, s.cst c ≠ .absent → c ∈ s.threads
  mtx : ∀ w, s.mtx = some w → s.pc w ≠ .idle
  fresh : ∀ c, s.nc ≤ c → σ.sub c = .offered

theorem R_init : R init {} := by
  refine ⟨rfl, fun _ => rfl, fun _ => rfl, ?_, ?_, ?_, ?_, ?_, ?_, ?_, ?_, ?_, ?_, ?_, ?_, ?_⟩ <;> simp [init, Pc.sub, PhaseR, Pc.dtor]

/-- No closure uses the executor when its destructor has come to the members. -/
def plain (s : St) : Label → Bool
  | .call (.closure _) _ => !s.phase.mutexGone
  | .destroyMutex => (List.range s.nc).all fun c => decide (s.pc (.closure c) = .idle)
  | _ => true

/-- Thread `w` is somewhere else in the same call. -/
theorem R.goto {s : St} {σ : Sys} (h : R s σ) {w : Who} {p : Pc} (hs : p.sub = (s.pc w).sub) (hd : p.dtor = (s.pc w).dtor) (hp : p ≠ .idle) (hw : s.pc w ≠ .idle)
    (hok : (view s σ).ok (σ.call w) p) : R (s.goto w p) σ := by
  have e : ∀ v, ((s.goto w p).pc v).sub = (s.pc v).sub ∧ ((s.goto w p).pc v).dtor = (s.pc v).dtor ∧ ((s.goto w p).pc v = .idle ↔ s.pc v = .idle) := by
    intro v
    by_cases hv : v = w
    · subst hv; simp only [St.goto, updW_same]; exact ⟨hs, hd, fun x => absurd x hp, fun x => absurd x hw⟩
    · simp only [St.goto, updW_other _ _ hv]; exact ⟨trivial, trivial, trivial⟩
  refine ⟨h.nc, h.exec, ?_, ?_, h.known, ?_, h.inside, h.closed, h.asked, h.dying, ?_, ?_, ?_, h.threads, ?_, h.fresh⟩
  · intro v
    by_cases hv : v = w
    · subst hv; simp only [St.goto, updW_same]; exact hok
    · simp only [St.goto, updW_other _ _ hv]; exact h.ok v
  · intro a b c h1 h2; rw [(e a).1] at h1; rw [(e b).1] at h2; exact h.uniq a b c h1 h2
  · intro c h1 h2
    rcases h.pending c h1 h2 with h3 | ⟨v, h3⟩
    · exact Or.inl h3
    · exact Or.inr ⟨v, by rw [(e v).1]; exact h3⟩
  · have hph := h.phase
    unfold PhaseR at hph ⊢
    have hpe : (s.goto w p).phase = s.phase := rfl
    rw [hpe]
    cases hx : s.phase with
    | alive => rw [hx] at hph; exact ⟨hph.1, hph.2.1, fun v => by rw [(e v).2.1]; exact hph.2.2 v⟩
    | closing i => rw [hx] at hph; exact ⟨hph.1, hph.2.1, by rw [(e _).2.1]; exact hph.2.2.1, fun j hj => (e _).2.2.2 (hph.2.2.2 j hj)⟩
    | members i => rw [hx] at hph; exact ⟨hph.1, hph.2.1, hph.2.2.1, fun j => (e _).2.2.2 (hph.2.2.2 j)⟩
    | joining i l => rw [hx] at hph; exact ⟨hph.1, hph.2.1, hph.2.2.1, fun v => (e _).2.2.2 (hph.2.2.2.1 v), hph.2.2.2.2⟩
    | gone => rw [hx] at hph; exact ⟨hph.1, hph.2.1, hph.2.2.1, fun v => (e _).2.2.2 (hph.2.2.2.1 v), hph.2.2.2.2⟩
  · intro c h1; exact h.busy c (fun h2 => h1 ((e _).2.2.2 h2))
  · intro c; rw [(e _).2.1]; exact h.clos c
  · intro v h1 h2; exact h.mtx v h1 ((e v).2.2.1 h2)

theorem R.lock {s : St} {σ : Sys} (h : R s σ) {w : Who} (hw : s.pc w ≠ .idle) : R { s with mtx := some w } σ := by
  refine ⟨h.nc, h.exec, h.ok, h.uniq, h.known, h.pending, h.inside, h.closed, h.asked, h.dying, h.phase, h.busy, h.clos, h.threads, ?_, h.fresh⟩
  intro v hv
  cases hv
  exact hw

theorem R.unlock {s : St} {σ : Sys} (h : R s σ) : R { s with mtx := none } σ := by
  refine ⟨h.nc, h.exec, h.ok, h.uniq, h.known, h.pending, h.inside, h.closed, h.asked, h.dying, h.phase, h.busy, h.clos, h.threads, ?_, h.fresh⟩
  intro v hv
  cases hv

theorem R.lt {s : St} {σ : Sys} (h : R s σ) {v : Who} {c : Nat} (hc : (s.pc v).sub = some c) : c < s.nc := by
  have := h.ok v
  cases hpc : s.pc v with
  | idle => rw [hpc] at hc; cases hc
  | lock op => cases op <;> rw [hpc] at hc this <;> cases hc; exact this.1.2.1
  | act op => cases op <;> rw [hpc] at hc this <;> cases hc; exact this.1.2.1
  | unlock op r => cases op <;> rw [hpc] at hc this <;> cases hc; exact this.1.2.1

/-- A call has begun. -/
theorem R.enter {s : St} {σ : Sys} (h : R s σ) {w : Who} {p : Pc} {x : Call} {n : Nat} {a : Bool} (hu : s.user w = true) (hg : s.phase.mutexGone = false)
    (hp : p ≠ .idle) (hd : p.dtor = false) (hn : s.nc ≤ n) (ha : σ.asked = true → a = true) (hsub : ∀ c, c < s.nc → p.sub ≠ some c)
    (hpend : ∀ c, s.nc ≤ c → c < n → p.sub = some c)
    (hok : (⟨s.closed, a, n, s.cst, σ.sub⟩ : View).ok (some x) p) :
    R { s.goto w p with nc := n } { σ.enter w x with nc := n, asked := a } := by
  simp only [St.user, Bool.and_eq_true, decide_eq_true_eq] at hu
  obtain ⟨hi, hu⟩ := hu
  have e : ∀ v, v ≠ w → updW s.pc w p v = s.pc v := fun v hv => updW_other _ _ hv
  have lt := fun v c => h.lt (v := v) (c := c)
  refine ⟨rfl, h.exec, ?_, ?_, ?_, ?_, ?_, h.closed, ?_, ?_, ?_, ?_, ?_, h.threads, ?_, fun c hc => h.fresh c (Nat.le_trans hn hc)⟩
  · intro v
    by_cases hv : v = w
    · subst hv; simp only [St.goto, Sys.enter, updW_same, view]; exact hok
    · simp only [St.goto, Sys.enter, updW_other _ _ hv]
      exact (h.ok v).mono (fun x => x) ha hn (fun c _ => ⟨rfl, Iff.rfl⟩)
  · intro a b c h1 h2
    simp only [St.goto] at h1 h2
    by_cases ha : a = w
    · by_cases hb : b = w
      · rw [ha, hb]
      · rw [ha, updW_same] at h1
        rw [e b hb] at h2
        exact absurd h1 (hsub c (lt b c h2))
    · rw [e a ha] at h1
      by_cases hb : b = w
      · rw [hb, updW_same] at h2
        exact absurd h2 (hsub c (lt a c h1))
      · rw [e b hb] at h2; exact h.uniq a b c h1 h2
  · intro c hc; exact ⟨Nat.lt_of_lt_of_le (h.known c hc).1 hn, (h.known c hc).2⟩
  · intro c h1 h2
    by_cases hc : c < s.nc
    · rcases h.pending c hc h2 with h3 | ⟨v, h3⟩
      · exact Or.inl h3
      · refine Or.inr ⟨v, ?_⟩
        have hv : v ≠ w := by intro he; subst he; rw [hi] at h3; cases h3
        simp only [St.goto]; rw [e v hv]; exact h3
    · exact Or.inr ⟨w, by simp only [St.goto, updW_same]; exact hpend c (by omega) h1⟩
  · intro j
    have := h.inside j
    cases w with
    | client i =>
      simp only [Sys.enter, List.mem_cons]
      by_cases hj : j = i
      · subst hj; simp
      · rw [updW_other _ _ (by intro he; cases he; exact hj rfl)]
        constructor
        · rintro (h1 | h1)
          · exact absurd h1 hj
          · exact this.1 h1
        · exact fun h1 => Or.inr (this.2 h1)
    | closure c => simp only [Sys.enter]; rw [updW_other _ _ (by simp)]; exact this
  · intro hc; exact ha (h.asked hc)
  · intro hc; exact ha (h.dying hc)
  · have hph := h.phase
    unfold PhaseR at hph ⊢
    show match s.phase with
      | .alive => _
      | .closing i => _
      | .members i => _
      | .joining i l => _
      | .gone => _
    cases hx : s.phase with
    | alive =>
      rw [hx] at hph
      refine ⟨hph.1, hph.2.1, fun v => ?_⟩
      simp only [St.goto]
      by_cases hv : v = w
      · rw [hv, updW_same]; exact hd
      · rw [e v hv]; exact hph.2.2 v
    | closing i =>
      rw [hx] at hph
      cases w with
      | client j => rw [hx] at hu; simp at hu
      | closure c =>
        refine ⟨hph.1, hph.2.1, ?_, fun j hj => ?_⟩
        · simp only [St.goto]; rw [e _ (by simp)]; exact hph.2.2.1
        · simp only [St.goto]; rw [e _ (by simp)]; exact hph.2.2.2 j hj
    | members i =>
      rw [hx] at hph
      cases w with
      | client j => rw [hx] at hu; simp at hu
      | closure c =>
        refine ⟨hph.1, hph.2.1, hph.2.2.1, fun j => ?_⟩
        simp only [St.goto]; rw [e _ (by simp)]; exact hph.2.2.2 j
    | joining i l => rw [hx] at hg; cases hg
    | gone => rw [hx] at hg; cases hg
  · intro c h1
    simp only [St.goto] at h1
    by_cases hv : Who.closure c = w
    · subst hv; exact of_decide_eq_true hu
    · rw [e _ hv] at h1; exact h.busy c h1
  · intro c
    simp only [St.goto]
    by_cases hv : Who.closure c = w
    · rw [hv, updW_same]; exact hd
    · rw [e _ hv]; exact h.clos c
  · intro v h1
    simp only [St.goto]
    by_cases hv : v = w
    · rw [hv, updW_same]; exact hp
    · rw [e v hv]; exact h.mtx v h1

/-- A call has ended. -/
theorem R.leave {s : St} {σ : Sys} (h : R s σ) {w : Who} {su : Nat → Sub} {cl : Bool} (hw : s.pc w ≠ .idle) (hd : (s.pc w).dtor = false)
    (hcl : cl = true → s.closed = true) (hs : ∀ c, su c = σ.sub c ∨ (s.pc w).sub = some c) (hdead : ∀ c, su c = .dead → s.cst c = .absent ∨ σ.sub c = .dead)
    (hgone : ∀ c, (s.pc w).sub = some c → s.cst c = .absent → su c = .dead) :
    R { s.goto w .idle with mtx := none } { σ.leave w with sub := su, closed := cl } := by
  have e : ∀ v, v ≠ w → updW s.pc w .idle v = s.pc v := fun v hv => updW_other _ _ hv
  refine ⟨h.nc, h.exec, ?_, ?_, ?_, ?_, ?_, hcl, h.asked, h.dying, ?_, ?_, ?_, h.threads, ?_, ?_⟩
  · intro v
    by_cases hv : v = w
    · subst hv; simp only [St.goto, Sys.leave, updW_same]; rfl
    · simp only [St.goto, Sys.leave, updW_other _ _ hv]
      refine (h.ok v).mono (fun x => x) (fun x => x) (Nat.le_refl _) (fun c hc => ⟨?_, Iff.rfl⟩)
      rcases hs c with h1 | h1
      · exact h1
      · exact absurd (h.uniq v w c hc h1) hv
  · intro a b c h1 h2
    simp only [St.goto] at h1 h2
    have ha : a ≠ w := by intro he; subst he; rw [updW_same] at h1; cases h1
    have hb : b ≠ w := by intro he; subst he; rw [updW_same] at h2; cases h2
    rw [e a ha] at h1; rw [e b hb] at h2
    exact h.uniq a b c h1 h2
  · intro c hc
    refine ⟨(h.known c hc).1, fun hx => ?_⟩
    rcases hdead c hx with h1 | h1
    · exact hc h1
    · exact (h.known c hc).2 h1
  · intro c h1 h2
    rcases h.pending c h1 h2 with h3 | ⟨v, h3⟩
    · rcases hs c with h4 | h4
      · exact Or.inl (by show su c = _; rw [h4]; exact h3)
      · exact Or.inl (hgone c h4 h2)
    · by_cases hv : v = w
      · subst hv; exact Or.inl (hgone c h3 h2)
      · exact Or.inr ⟨v, by simp only [St.goto]; rw [e v hv]; exact h3⟩
  · intro j
    have := h.inside j
    cases w with
    | client i =>
      simp only [Sys.leave, List.mem_filter, decide_eq_true_eq]
      by_cases hj : j = i
      · subst hj; simp
      · rw [updW_other _ _ (by intro he; cases he; exact hj rfl)]
        exact ⟨fun h1 => this.1 h1.1, fun h1 => ⟨this.2 h1, hj⟩⟩
    | closure c => simp only [Sys.leave]; rw [updW_other _ _ (by simp)]; exact this
  · have hph := h.phase
    unfold PhaseR at hph ⊢
    show match s.phase with
      | .alive => _
      | .closing i => _
      | .members i => _
      | .joining i l => _
      | .gone => _
    cases hx : s.phase with
    | alive =>
      rw [hx] at hph
      refine ⟨hph.1, hph.2.1, fun v => ?_⟩
      simp only [St.goto]
      by_cases hv : v = w
      · rw [hv, updW_same]; rfl
      · rw [e v hv]; exact hph.2.2 v
    | closing i =>
      rw [hx] at hph
      cases w with
      | client j =>
        by_cases hj : j = i
        · subst hj; rw [hph.2.2.1] at hd; cases hd
        · exact absurd (hph.2.2.2 j hj) hw
      | closure c =>
        refine ⟨hph.1, hph.2.1, ?_, fun j hj => ?_⟩
        · simp only [St.goto]; rw [e _ (by simp)]; exact hph.2.2.1
        · simp only [St.goto]; rw [e _ (by simp)]; exact hph.2.2.2 j hj
    | members i =>
      rw [hx] at hph
      refine ⟨hph.1, hph.2.1, hph.2.2.1, fun j => ?_⟩
      simp only [St.goto]
      by_cases hv : Who.client j = w
      · rw [hv, updW_same]
      · rw [e _ hv]; exact hph.2.2.2 j
    | joining i l => rw [hx] at hph; exact absurd (hph.2.2.2.1 w) hw
    | gone => rw [hx] at hph; exact absurd (hph.2.2.2.1 w) hw
  · intro c h1
    simp only [St.goto] at h1
    by_cases hv : Who.closure c = w
    · rw [hv, updW_same] at h1; exact absurd rfl h1
    · rw [e _ hv] at h1; exact h.busy c h1
  · intro c
    simp only [St.goto]
    by_cases hv : Who.closure c = w
    · rw [hv, updW_same]; rfl
    · rw [e _ hv]; exact h.clos c
  · intro v hv; cases hv
  · intro c hc
    rcases hs c with h1 | h1
    · exact h1.trans (h.fresh c hc)
    · exact absurd (h.lt h1) (Nat.not_lt_of_le hc)

theorem begins_ok {s s' : St} {σ σ' : Sys} (h : R s σ) {w : Who} (hu : s.user w = true) (hg : s.phase.mutexGone = false) (h' : R s' σ') :
    σ.begins w σ' = .ok σ' := by
  simp only [St.user, Bool.and_eq_true, decide_eq_true_eq] at hu
  obtain ⟨hi, hu⟩ := hu
  have hc : σ.call w = none := by have := h.ok w; rw [hi] at this; exact this
  have hph := h.phase
  unfold PhaseR at hph
  cases w with
  | client i =>
    simp only [decide_eq_true_eq] at hu
    rw [hu] at hph
    simp [Sys.begins, Sys.may, hc, hph.1]
  | closure c =>
    simp only [decide_eq_true_eq] at hu
    have hx : σ.exec c = .running := by rw [h.exec, hu]; rfl
    have hgo : σ.gone = false := by
      cases hp : s.phase with
      | gone => rw [hp] at hg; cases hg
      | alive => rw [hp] at hph; exact hph.2.1
      | closing i => rw [hp] at hph; exact hph.2.1
      | members i => rw [hp] at hph; exact hph.2.1
      | joining i l => rw [hp] at hph; exact hph.2.1
    simp [Sys.begins, Sys.may, hc, hx, hgo]

theorem call_ok {s : St} {σ : Sys} (h : R s σ) {w : Who} {r : Req} (hu : s.user w = true) (hg : s.phase.mutexGone = false) :
    Follows next (R (stepCall s w r).1) σ (stepCall s w r).2 := by
  cases r with
  | submit =>
    have h' : R { s.goto w (.lock (.submit s.nc)) with nc := s.nc + 1 } { σ.enter w (.submit s.nc σ.closed) with nc := s.nc + 1 } := by
      refine h.enter (a := σ.asked) hu hg (by simp) rfl (Nat.le_succ _) (fun x => x) ?_ ?_ ?_
      · intro c hc he; cases he; exact Nat.lt_irrefl _ hc
      · intro c h1 h2; show some s.nc = some c; rw [show c = s.nc by omega]
      · have hab : s.cst s.nc = .absent := by
          cases hx : s.cst s.nc with
          | absent => rfl
          | _ => exact absurd (h.known s.nc (by rw [hx]; simp)).1 (Nat.lt_irrefl _)
        refine ⟨⟨?_, Nat.lt_succ_self _, ?_⟩, hab⟩
        · cases hcl : σ.closed with
          | false => exact Or.inl rfl
          | true => exact Or.inr ⟨rfl, h.closed hcl⟩
        · exact h.fresh s.nc (Nat.le_refl _)
    simp only [stepCall, Follows, next]
    rw [if_pos h.nc.symm, begins_ok h hu hg h']
    exact h'
  | close =>
    have h' : R (s.goto w (.lock .close)) { σ.enter w .close with asked := true } := by
      have := h.enter (p := .lock .close) (x := .close) (n := s.nc) (a := true) hu hg (by simp) rfl (Nat.le_refl _) (fun _ => rfl) (by simp [Pc.sub])
        (fun c h1 h2 => absurd h2 (Nat.not_lt_of_le h1)) ⟨rfl, rfl⟩
      have e : { σ.enter w .close with nc := s.nc, asked := true } = { σ.enter w .close with asked := true } := by rw [← h.nc]; rfl
      rw [e] at this
      exact this
    simp only [stepCall, Follows, next]
    rw [begins_ok h hu hg h']
    exact h'
  | ask =>
    have h' : R (s.goto w (.lock .ask)) (σ.enter w (.ask σ.closed)) := by
      have := h.enter (p := .lock .ask) (x := .ask σ.closed) (n := s.nc) (a := σ.asked) hu hg (by simp) rfl (Nat.le_refl _) (fun x => x) (by simp [Pc.sub])
        (fun c h1 h2 => absurd h2 (Nat.not_lt_of_le h1)) (by
          cases hcl : σ.closed with
          | false => exact Or.inl rfl
          | true => exact Or.inr ⟨rfl, h.closed hcl⟩)
      have e : { σ.enter w (.ask σ.closed) with nc := s.nc, asked := σ.asked } = σ.enter w (.ask σ.closed) := by rw [← h.nc]; rfl
      rw [e] at this
      exact this
    simp only [stepCall, Follows, next]
    rw [begins_ok h hu hg h']
    exact h'

theorem R.setClosed {s : St} {σ : Sys} (h : R s σ) (ha : σ.asked = true) : R { s with closed := true } σ := by
  refine ⟨h.nc, h.exec, ?_, h.uniq, h.known, h.pending, h.inside, fun _ => rfl, fun _ => ha, h.dying, ?_, h.busy, h.clos, h.threads, h.mtx, h.fresh⟩
  · intro w; exact (h.ok w).mono (fun _ => rfl) (fun x => x) (Nat.le_refl _) (fun c _ => ⟨rfl, Iff.rfl⟩)
  · have hph := h.phase
    unfold PhaseR at hph ⊢
    show match s.phase with
      | .alive => _
      | .closing i => _
      | .members i => _
      | .joining i l => _
      | .gone => _
    cases hx : s.phase with
    | alive => rw [hx] at hph; exact hph
    | closing i => rw [hx] at hph; exact hph
    | members i => rw [hx] at hph; exact ⟨hph.1, hph.2.1, rfl, hph.2.2.2⟩
    | joining i l => rw [hx] at hph; exact ⟨hph.1, hph.2.1, rfl, hph.2.2.2⟩
    | gone => rw [hx] at hph; exact ⟨hph.1, hph.2.1, rfl, hph.2.2.2⟩

theorem act_ok {s : St} {σ : Sys} (h : R s σ) {w : Who} {fails : Bool} {op : Op} (hp : s.pc w = .act op) : R (stepAct s w fails op) σ := by
  have hok := h.ok w
  rw [hp] at hok
  have hw : s.pc w ≠ .idle := by rw [hp]; simp
  cases op with
  | submit c =>
    obtain ⟨hsub, hab⟩ := hok
    have hab : s.cst c = .absent := hab
    simp only [stepAct]
    split
    · rename_i hc
      exact h.goto (by rw [hp]; rfl) (by rw [hp]; rfl) (by simp) hw ⟨hsub, h.asked hc, hab⟩
    · rename_i hc
      have hcall : σ.call w = some (.submit c false) := by
        rcases hsub.1 with h1 | ⟨-, h1⟩
        · exact h1
        · exact absurd h1 hc
      split
      · exact h.goto (by rw [hp]; rfl) (by rw [hp]; rfl) (by simp) hw ⟨hsub, hcall, hab⟩
      · have hcf : s.closed = false := by simpa using hc
        have ec : ∀ d, d ≠ c → upd s.cst c .created d = s.cst d := fun d hd => upd_other _ _ hd
        have e : ∀ v, v ≠ w → updW s.pc w (.unlock (.submit c) .accepted) v = s.pc v := fun v hv => updW_other _ _ hv
        have es : ∀ v, (updW s.pc w (.unlock (.submit c) .accepted) v).sub = (s.pc v).sub := by
          intro v
          by_cases hv : v = w
          · rw [hv, updW_same, hp]; rfl
          · rw [e v hv]
        refine ⟨h.nc, ?_, ?_, ?_, ?_, ?_, h.inside, h.closed, h.asked, h.dying, ?_, ?_, ?_, ?_, ?_, h.fresh⟩
        · intro d
          by_cases hd : d = c
          · subst hd; simp only [upd_same]; rw [h.exec, hab]; rfl
          · simp only [ec d hd]; exact h.exec d
        · intro v
          by_cases hv : v = w
          · subst hv
            simp only [St.goto, updW_same]
            exact ⟨hsub, hcall, by simp [view]⟩
          · simp only [St.goto, e v hv]
            refine (h.ok v).mono (fun x => x) (fun x => x) (Nat.le_refl _) (fun d hd => ⟨rfl, ?_⟩)
            have hdc : d ≠ c := by intro he; subst he; exact hv (h.uniq v w d hd (by rw [hp]; rfl))
            simp only [view, ec d hdc]
        · intro a b d h1 h2
          simp only [St.goto] at h1 h2
          rw [es] at h1 h2
          exact h.uniq a b d h1 h2
        · intro d hd
          simp only [St.goto] at hd
          by_cases hdc : d = c
          · subst hdc; exact ⟨hsub.2.1, by rw [show σ.sub d = .offered from hsub.2.2]; simp⟩
          · rw [ec d hdc] at hd; exact h.known d hd
        · intro d h1 h2
          have hdc : d ≠ c := by intro he; subst he; simp at h2
          simp only [ec d hdc] at h2
          rcases h.pending d h1 h2 with h3 | ⟨v, h3⟩
          · exact Or.inl h3
          · exact Or.inr ⟨v, by simp only [St.goto]; rw [es]; exact h3⟩
        · have hph := h.phase
          unfold PhaseR at hph ⊢
          show match s.phase with
            | .alive => _
            | .closing i => _
            | .members i => _
            | .joining i l => _
            | .gone => _
          cases hx : s.phase with
          | alive =>
            rw [hx] at hph
            refine ⟨hph.1, hph.2.1, fun v => ?_⟩
            simp only [St.goto]
            by_cases hv : v = w
            · rw [hv, updW_same]; rfl
            · rw [e v hv]; exact hph.2.2 v
          | closing i =>
            rw [hx] at hph
            have hwi : ∀ j, Who.client j ≠ w := by
              intro j hj
              subst hj
              by_cases hji : j = i
              · subst hji; have := hph.2.2.1; rw [hp] at this; cases this
              · have := hph.2.2.2 j hji; rw [hp] at this; cases this
            refine ⟨hph.1, hph.2.1, ?_, fun j hj => ?_⟩
            · simp only [St.goto]; rw [e _ (hwi i)]; exact hph.2.2.1
            · simp only [St.goto]; rw [e _ (hwi j)]; exact hph.2.2.2 j hj
          | members i => rw [hx] at hph; rw [hcf] at hph; cases hph.2.2.1
          | joining i l => rw [hx] at hph; rw [hcf] at hph; cases hph.2.2.1
          | gone => rw [hx] at hph; rw [hcf] at hph; cases hph.2.2.1
        · intro d h1
          simp only [St.goto] at h1 ⊢
          have h2 : s.pc (.closure d) ≠ .idle := by
            by_cases hv : Who.closure d = w
            · rw [hv]; exact hw
            · rw [e _ hv] at h1; exact h1
          have h3 := h.busy d h2
          have hdc : d ≠ c := by intro he; subst he; rw [hab] at h3; cases h3
          rw [ec d hdc]; exact h3
        · intro d
          simp only [St.goto]
          by_cases hv : Who.closure d = w
          · rw [hv, updW_same]; rfl
          · rw [e _ hv]; exact h.clos d
        · intro d hd
          simp only [St.goto] at hd ⊢
          by_cases hdc : d = c
          · subst hdc; simp
          · rw [ec d hdc] at hd; exact List.mem_append_left _ (h.threads d hd)
        · intro v hv
          simp only [St.goto]
          by_cases hvw : v = w
          · rw [hvw, updW_same]; simp
          · rw [e v hvw]; exact h.mtx v hv
  | close => exact (h.setClosed hok.2).goto (p := .unlock .close .none) (w := w) (by rw [show _ = _ from hp]; rfl) (by rw [show _ = _ from hp]; rfl) (by simp) hw ⟨hok.1, hok.2, rfl⟩
  | closeD => exact (h.setClosed hok.2).goto (p := .unlock .closeD .none) (w := w) (by rw [show _ = _ from hp]; rfl) (by rw [show _ = _ from hp]; rfl) (by simp) hw ⟨hok.1, hok.2, rfl⟩
  | ask =>
    refine h.goto (by rw [hp]; rfl) (by rw [hp]; rfl) (by simp) hw ⟨hok, ?_, fun hb => h.asked hb⟩
    intro hb
    rcases hok with h1 | ⟨-, h1⟩
    · exact h1
    · have h1' : s.closed = true := h1
      rw [hb] at h1'; cases h1'

theorem unlock_ok {s : St} {σ : Sys} (h : R s σ) {w : Who} {op : Op} {r : Res} (hp : s.pc w = .unlock op r) :
    Follows next (R (stepUnlock s w op r).1) σ (stepUnlock s w op r).2 := by
  have hok := h.ok w
  rw [hp] at hok
  have hw : s.pc w ≠ .idle := by rw [hp]; simp
  cases op with
  | submit c =>
    obtain ⟨hsub, hres⟩ := hok
    have hd : (s.pc w).dtor = false := by rw [hp]; rfl
    have hsc : (s.pc w).sub = some c := by rw [hp]; rfl
    have hother : ∀ (x : Sub) d, upd σ.sub c x d = σ.sub d ∨ (s.pc w).sub = some d := by
      intro x d
      by_cases hdc : d = c
      · exact Or.inr (by rw [hdc]; exact hsc)
      · exact Or.inl (upd_other _ _ hdc)
    have e : ∀ x : Sub, R { s.goto w .idle with mtx := none } { σ.leave w with sub := upd σ.sub c x, closed := σ.closed } →
        R (stepUnlock s w (.submit c) r).1 { σ.leave w with sub := upd σ.sub c x } := fun x hx => hx
    cases r with
    | accepted =>
      simp only [stepUnlock, returned, Follows, next]
      rw [if_pos hres.1]
      refine e _ (h.leave (cl := σ.closed) hw hd h.closed (hother _) ?_ ?_)
      · intro d hdd
        by_cases hdc : d = c
        · subst hdc; simp at hdd
        · rw [upd_other _ _ hdc] at hdd; exact Or.inr hdd
      · intro d h1 h2
        rw [hsc] at h1; cases h1
        exact absurd h2 hres.2
    | refused =>
      have hex : σ.exec c = .fresh := by rw [h.exec, show s.cst c = .absent from hres.2]; rfl
      have hcall : σ.call w = some (.submit c false) ∨ σ.call w = some (.submit c true) := by
        rcases hsub.1 with h1 | ⟨h1, -⟩
        · exact Or.inl h1
        · exact Or.inr h1
      simp only [stepUnlock, returned, Follows, next]
      rw [if_pos ⟨hcall, hres.1, hex⟩]
      refine e _ (h.leave (cl := σ.closed) hw hd h.closed (hother _) ?_ ?_)
      · intro d hdd
        by_cases hdc : d = c
        · subst hdc; exact Or.inl hres.2
        · rw [upd_other _ _ hdc] at hdd; exact Or.inr hdd
      · intro d h1 h2
        rw [hsc] at h1; cases h1
        simp
    | failed =>
      have hex : σ.exec c = .fresh := by rw [h.exec, show s.cst c = .absent from hres.2]; rfl
      simp only [stepUnlock, returned, Follows, next]
      rw [if_pos ⟨hres.1, hex⟩]
      refine e _ (h.leave (cl := σ.closed) hw hd h.closed (hother _) ?_ ?_)
      · intro d hdd
        by_cases hdc : d = c
        · subst hdc; exact Or.inl hres.2
        · rw [upd_other _ _ hdc] at hdd; exact Or.inr hdd
      · intro d h1 h2
        rw [hsc] at h1; cases h1
        simp
    | none => exact hres.elim
    | is b => exact hres.elim
  | close =>
    simp only [stepUnlock, returned, Follows, next]
    rw [if_pos hok.1]
    exact h.leave (su := σ.sub) (cl := true) hw (by rw [hp]; rfl) (fun _ => hok.2.2) (fun _ => Or.inl rfl) (fun _ hd => Or.inr hd)
      (fun c hc => by rw [hp] at hc; cases hc)
  | ask =>
    obtain ⟨hask, hans⟩ := hok
    cases r with
    | is b =>
      simp only [stepUnlock, returned, Follows, next]
      rw [if_pos ?_]
      · exact h.leave (su := σ.sub) (cl := σ.closed) hw (by rw [hp]; rfl) h.closed (fun _ => Or.inl rfl) (fun _ hd => Or.inr hd)
          (fun c hc => by rw [hp] at hc; cases hc)
      · cases b with
        | false => exact Or.inl ⟨hans.1 rfl, rfl⟩
        | true =>
          refine Or.inr ⟨hans.2 rfl, rfl, ?_⟩
          rcases hask with h1 | ⟨h1, -⟩
          · exact Or.inl h1
          · exact Or.inr h1
    | accepted => exact hans.elim
    | refused => exact hans.elim
    | failed => exact hans.elim
    | none => exact hans.elim
  | closeD =>
    have hph := h.phase
    unfold PhaseR at hph
    have hdt : (s.pc w).dtor = true := by rw [hp]; rfl
    have hclient : ∃ j, w = .client j := by
      cases w with
      | client j => exact ⟨j, rfl⟩
      | closure c => rw [h.clos c] at hdt; cases hdt
    obtain ⟨j, rfl⟩ := hclient
    have hclosing : s.phase = .closing j := by
      cases hx : s.phase with
      | alive => rw [hx] at hph; rw [hph.2.2] at hdt; cases hdt
      | closing i =>
        rw [hx] at hph
        by_cases hji : j = i
        · rw [hji]
        · rw [hph.2.2.2 j hji] at hdt; cases hdt
      | members i => rw [hx] at hph; rw [hph.2.2.2 j] at hdt; cases hdt
      | joining i l => rw [hx] at hph; rw [hph.2.2.2.1] at hdt; cases hdt
      | gone => rw [hx] at hph; rw [hph.2.2.2.1] at hdt; cases hdt
    rw [hclosing] at hph
    have e : ∀ v, v ≠ Who.client j → updW s.pc (.client j) .idle v = s.pc v := fun v hv => updW_other _ _ hv
    simp only [stepUnlock, returned, Follows]
    rw [show s.phase.after .closeD = .members j by rw [hclosing]; rfl]
    refine ⟨h.nc, h.exec, ?_, ?_, h.known, ?_, h.inside, h.closed, h.asked, fun _ => hok.2.1, ?_, ?_, ?_, h.threads, ?_, h.fresh⟩
    · intro v
      by_cases hv : v = .client j
      · subst hv; simp only [St.goto, updW_same]; exact hok.1
      · simp only [St.goto, e v hv]; exact h.ok v
    · intro a b c h1 h2
      simp only [St.goto] at h1 h2
      have ha : a ≠ .client j := by intro he; subst he; rw [updW_same] at h1; cases h1
      have hb : b ≠ .client j := by intro he; subst he; rw [updW_same] at h2; cases h2
      rw [e a ha] at h1; rw [e b hb] at h2
      exact h.uniq a b c h1 h2
    · intro c h1 h2
      rcases h.pending c h1 h2 with h3 | ⟨v, h3⟩
      · exact Or.inl h3
      · have hv : v ≠ .client j := by intro he; subst he; rw [hp] at h3; cases h3
        exact Or.inr ⟨v, by simp only [St.goto]; rw [e v hv]; exact h3⟩
    · refine ⟨hph.1, hph.2.1, hok.2.2, fun i => ?_⟩
      simp only [St.goto]
      by_cases hv : Who.client i = .client j
      · rw [hv, updW_same]
      · rw [e _ hv]; exact hph.2.2.2 i (by intro he; exact hv (by rw [he]))
    · intro c h1
      simp only [St.goto] at h1
      rw [e _ (by simp)] at h1; exact h.busy c h1
    · intro c; simp only [St.goto]; rw [e _ (by simp)]; exact h.clos c
    · intro v hv; cases hv

theorem R.set {s : St} {σ : Sys} (h : R s σ) {c : Nat} {x : CSt} {y : Exec} (h0 : s.cst c ≠ .absent) (hx : x ≠ .absent) (hy : x.shown = y)
    (hb : s.pc (.closure c) = .idle ∨ x = .running) (ho : x = .over ∨ s.cst c ≠ .over ∧ s.cst c ≠ .absent) :
    R { s with cst := upd s.cst c x } { σ with exec := upd σ.exec c y } := by
  have e : ∀ d, d ≠ c → upd s.cst c x d = s.cst d := fun d hd => upd_other _ _ hd
  have ab : ∀ d, upd s.cst c x d = .absent ↔ s.cst d = .absent := by
    intro d
    by_cases hd : d = c
    · subst hd; rw [upd_same]; exact ⟨fun h1 => absurd h1 hx, fun h1 => absurd h1 h0⟩
    · rw [e d hd]
  refine ⟨h.nc, ?_, ?_, h.uniq, ?_, ?_, h.inside, h.closed, h.asked, h.dying, ?_, ?_, h.clos, ?_, h.mtx, h.fresh⟩
  · intro d
    by_cases hd : d = c
    · subst hd; simp only [upd_same]; exact hy.symm
    · simp only [upd_other _ _ hd]; exact h.exec d
  · intro w; exact (h.ok w).mono (fun x => x) (fun x => x) (Nat.le_refl _) (fun d _ => ⟨rfl, ab d⟩)
  · intro d hd; exact h.known d (fun h1 => hd ((ab d).2 h1))
  · intro d h1 h2; exact h.pending d h1 ((ab d).1 h2)
  · have hph := h.phase
    unfold PhaseR at hph ⊢
    show match s.phase with
      | .alive => _
      | .closing i => _
      | .members i => _
      | .joining i l => _
      | .gone => _
    cases hp : s.phase with
    | alive => rw [hp] at hph; exact hph
    | closing i => rw [hp] at hph; exact hph
    | members i => rw [hp] at hph; exact hph
    | joining i l =>
      rw [hp] at hph
      refine ⟨hph.1, hph.2.1, hph.2.2.1, hph.2.2.2.1, fun d => ?_⟩
      rcases hph.2.2.2.2 d with h1 | h1 | h1
      · exact Or.inl ((ab d).2 h1)
      · by_cases hd : d = c
        · subst hd
          rcases ho with ho | ho
          · exact Or.inr (Or.inl (by simp [ho]))
          · exact absurd h1 ho.1
        · exact Or.inr (Or.inl (by simp only [e d hd]; exact h1))
      · exact Or.inr (Or.inr h1)
    | gone =>
      rw [hp] at hph
      refine ⟨hph.1, hph.2.1, hph.2.2.1, hph.2.2.2.1, fun d => ?_⟩
      rcases hph.2.2.2.2 d with h1 | h1
      · exact Or.inl ((ab d).2 h1)
      · by_cases hd : d = c
        · subst hd
          rcases ho with ho | ho
          · exact Or.inr (by simp [ho])
          · exact absurd h1 ho.1
        · exact Or.inr (by simp only [e d hd]; exact h1)
  · intro d hd
    by_cases hdc : d = c
    · subst hdc
      simp only [upd_same]
      rcases hb with hb | hb
      · exact absurd hb hd
      · exact hb
    · simp only [e d hdc]; exact h.busy d hd
  · intro d hd; exact h.threads d (fun h1 => hd ((ab d).2 h1))

theorem R.notGone {s : St} {σ : Sys} (h : R s σ) {c : Nat} (h1 : s.cst c ≠ .absent) (h2 : s.cst c ≠ .over) : σ.gone = false := by
  have hph := h.phase
  unfold PhaseR at hph
  cases hx : s.phase with
  | gone =>
    rw [hx] at hph
    rcases hph.2.2.2.2 c with h3 | h3
    · exact absurd h3 h1
    · exact absurd h3 h2
  | alive => rw [hx] at hph; exact hph.2.1
  | closing i => rw [hx] at hph; exact hph.2.1
  | members i => rw [hx] at hph; exact hph.2.1
  | joining i l => rw [hx] at hph; exact hph.2.1

/-- The destructor is called. -/
theorem R.dtor {s : St} {σ : Sys} (h : R s σ) {i : Nat} (ha : s.phase = .alive) (hi : s.pc (.client i) = .idle) (hin : σ.inside = []) :
    R { s.goto (.client i) (.lock .closeD) with phase := .closing i } { σ with dying := some i, asked := true } := by
  have e : ∀ v, v ≠ Who.client i → updW s.pc (.client i) (.lock .closeD) v = s.pc v := fun v hv => updW_other _ _ hv
  have hph := h.phase
  unfold PhaseR at hph
  rw [ha] at hph
  have idle : ∀ j, s.pc (.client j) = .idle := by
    intro j
    have hc : σ.call (.client j) = none := by
      cases hx : σ.call (.client j) with
      | none => rfl
      | some y =>
        have := (h.inside j).2 (by rw [hx]; simp)
        rw [hin] at this; cases this
    have hok := h.ok (.client j)
    have hnd := hph.2.2 (.client j)
    rw [hc] at hok
    cases hp : s.pc (.client j) with
    | idle => rfl
    | lock op =>
      rw [hp] at hok hnd
      cases op with
      | submit c => rcases hok.1.1 with h1 | ⟨h1, -⟩ <;> cases h1
      | close => cases hok.1
      | closeD => cases hnd
      | ask => rcases hok with h1 | ⟨h1, -⟩ <;> cases h1
    | act op =>
      rw [hp] at hok hnd
      cases op with
      | submit c => rcases hok.1.1 with h1 | ⟨h1, -⟩ <;> cases h1
      | close => cases hok.1
      | closeD => cases hnd
      | ask => rcases hok with h1 | ⟨h1, -⟩ <;> cases h1
    | unlock op r =>
      rw [hp] at hok hnd
      cases op with
      | submit c => rcases hok.1.1 with h1 | ⟨h1, -⟩ <;> cases h1
      | close => cases hok.1
      | closeD => cases hnd
      | ask => rcases hok.1 with h1 | ⟨h1, -⟩ <;> cases h1
  refine ⟨h.nc, h.exec, ?_, ?_, h.known, ?_, h.inside, h.closed, fun _ => rfl, fun _ => rfl, ?_, ?_, ?_, h.threads, ?_, h.fresh⟩
  · intro v
    by_cases hv : v = .client i
    · subst hv
      simp only [St.goto, updW_same]
      have := h.ok (.client i)
      rw [hi] at this
      exact ⟨this, rfl⟩
    · simp only [St.goto, e v hv]
      exact (h.ok v).mono (fun x => x) (fun _ => rfl) (Nat.le_refl _) (fun c _ => ⟨rfl, Iff.rfl⟩)
  · intro a b c h1 h2
    simp only [St.goto] at h1 h2
    have ha : a ≠ .client i := by intro he; subst he; rw [updW_same] at h1; cases h1
    have hb : b ≠ .client i := by intro he; subst he; rw [updW_same] at h2; cases h2
    rw [e a ha] at h1; rw [e b hb] at h2
    exact h.uniq a b c h1 h2
  · intro c h1 h2
    rcases h.pending c h1 h2 with h3 | ⟨v, h3⟩
    · exact Or.inl h3
    · have hv : v ≠ .client i := by intro he; subst he; rw [hi] at h3; cases h3
      exact Or.inr ⟨v, by simp only [St.goto]; rw [e v hv]; exact h3⟩
  · refine ⟨rfl, hph.2.1, ?_, fun j hj => ?_⟩
    · simp only [St.goto, updW_same]; rfl
    · simp only [St.goto]; rw [e _ (by intro he; cases he; exact hj rfl)]; exact idle j
  · intro c h1
    simp only [St.goto] at h1
    rw [e _ (by simp)] at h1; exact h.busy c h1
  · intro c; simp only [St.goto]; rw [e _ (by simp)]; exact h.clos c
  · intro v hv
    simp only [St.goto]
    by_cases hvi : v = .client i
    · rw [hvi, updW_same]; simp
    · rw [e v hvi]; exact h.mtx v hv

theorem Follows.weaken {P Q : Sys → Prop} (hpq : ∀ σ, P σ → Q σ) {es : List Event} {σ : Sys} (h : Follows next P σ es) : Follows next Q σ es := by
  induction es generalizing σ with
  | nil => exact hpq σ h
  | cons e es ih =>
    simp only [Follows] at h ⊢
    cases hn : next σ e with
    | ok σ' => rw [hn] at h; exact ih h
    | undefined => trivial
    | illegal => rw [hn] at h; exact h

/-- The state of a program that has ended does not matter. -/
def Rd (s : St) (σ : Sys) : Prop := s.dead = true ∨ R s σ

theorem step_ok {s s' : St} {σ : Sys} {l : Label} {es : List Event} (h : Rd s σ) (hP : plain s l = true) (hs : step s l = some (s', es)) :
    Follows next (Rd s') σ es := by
  unfold step at hs
  split at hs
  · cases hs
  rename_i hdead
  have h : R s σ := by
    rcases h with h | h
    · exact absurd h hdead
    · exact h
  have lift : ∀ {s'' : St} {es' : List Event}, Follows next (R s'') σ es' → Follows next (Rd s'') σ es' := by
    intro s'' es' hf
    exact Follows.weaken (fun σ' hx => Or.inr hx) hf
  have hph := h.phase
  unfold PhaseR at hph
  cases l with
  | call w r =>
    simp only at hs
    by_cases hu : s.user w = true
    case neg => rw [if_neg hu] at hs; cases hs
    rw [if_pos hu] at hs
    have he : stepCall s w r = (s', es) := Option.some.inj hs
    have hs' : s' = (stepCall s w r).1 := by rw [he]
    have hes : es = (stepCall s w r).2 := by rw [he]
    subst hs' hes
    refine lift (call_ok h hu ?_)
    cases w with
    | closure c => simpa [plain] using hP
    | client i =>
      simp only [St.user, Bool.and_eq_true, decide_eq_true_eq] at hu
      rw [hu.2]; rfl
  | lock w =>
    simp only at hs
    split at hs
    · rename_i op hp
      have hw : s.pc w ≠ .idle := by rw [hp]; simp
      split at hs
      · rename_i hg
        exfalso
        cases hx : s.phase with
        | joining i l => rw [hx] at hph; exact hw (hph.2.2.2.1 w)
        | gone => rw [hx] at hph; exact hw (hph.2.2.2.1 w)
        | alive => rw [hx] at hg; cases hg
        | closing i => rw [hx] at hg; cases hg
        | members i => rw [hx] at hg; cases hg
      · split at hs <;> cases hs
        refine lift ?_
        simp only [Follows]
        have hok := h.ok w
        rw [hp] at hok
        have h1 : R (s.goto w (.act op)) σ := h.goto (by rw [hp]; cases op <;> rfl) (by rw [hp]; cases op <;> rfl) (by simp) hw (by cases op <;> exact hok)
        exact h1.lock (w := w) (by simp [St.goto])
    · cases hs
  | act w fails =>
    simp only at hs
    split at hs
    · rename_i op hp
      cases hs
      exact lift (act_ok h hp)
    · cases hs
  | unlock w =>
    simp only at hs
    split at hs
    · rename_i op r hp
      cases hs
      exact lift (unlock_ok h hp)
    · cases hs
  | destroy i =>
    simp only at hs
    split at hs <;> cases hs
    rename_i hc
    simp only [Follows, next]
    rw [hc.1] at hph
    by_cases hin : σ.inside = []
    · rw [if_pos ⟨hin, hph.1⟩]
      exact Or.inr (h.dtor hc.1 hc.2 hin)
    · rw [if_neg (fun hx => hin hx.1)]
      trivial
  | destroyMutex =>
    simp only at hs
    split at hs
    · rename_i i hp
      rw [hp] at hph
      have idle : ∀ w, s.pc w = .idle := by
        intro w
        cases w with
        | client j => exact hph.2.2.2 j
        | closure c =>
          cases hx : decide (s.pc (.closure c) = .idle) with
          | true => exact of_decide_eq_true hx
          | false =>
            have hne : s.pc (.closure c) ≠ .idle := of_decide_eq_false hx
            have hlt := (h.known c (by rw [h.busy c hne]; simp)).1
            simp only [plain, List.all_eq_true, List.mem_range, decide_eq_true_eq] at hP
            exact hP c hlt
      split at hs
      · cases hs
        refine lift ?_
        simp only [Follows]
        refine ⟨h.nc, h.exec, h.ok, h.uniq, h.known, h.pending, h.inside, h.closed, h.asked, fun _ => h.dying (by rw [hp]; simp), ?_, h.busy, h.clos, h.threads,
          h.mtx, h.fresh⟩
        refine ⟨hph.1, hph.2.1, hph.2.2.1, idle, fun c => ?_⟩
        cases hx : s.cst c with
        | absent => exact Or.inl rfl
        | _ => exact Or.inr (Or.inr (h.threads c (by rw [hx]; simp)))
      · rename_i hm
        cases hmm : s.mtx with
        | none => exact absurd hmm hm
        | some w => exact absurd (idle w) (h.mtx w hmm)
    · cases hs
  | join =>
    simp only at hs
    split at hs
    · rename_i i c l hp
      rw [hp] at hph
      split at hs <;> cases hs
      rename_i ho
      refine lift ?_
      simp only [Follows]
      refine ⟨h.nc, h.exec, h.ok, h.uniq, h.known, h.pending, h.inside, h.closed, h.asked, fun _ => h.dying (by rw [hp]; simp), ?_, h.busy, h.clos, h.threads,
        h.mtx, h.fresh⟩
      refine ⟨hph.1, hph.2.1, hph.2.2.1, hph.2.2.2.1, fun d => ?_⟩
      rcases hph.2.2.2.2 d with h1 | h1 | h1
      · exact Or.inl h1
      · exact Or.inr (Or.inl h1)
      · rcases List.mem_cons.1 h1 with h2 | h2
        · subst h2; exact Or.inr (Or.inl ho)
        · exact Or.inr (Or.inr h2)
    · rename_i i hp
      rw [hp] at hph
      cases hs
      have hall : ∀ c, s.cst c = .absent ∨ s.cst c = .over := by
        intro c
        rcases hph.2.2.2.2 c with h1 | h1 | h1
        · exact Or.inl h1
        · exact Or.inr h1
        · cases h1
      have hend : ∀ c ∈ List.range σ.nc, σ.sub c = .dead ∨ σ.exec c = .over := by
        intro c hc
        rw [List.mem_range, h.nc] at hc
        rcases hall c with h1 | h1
        · rcases h.pending c hc h1 with h2 | ⟨w, h2⟩
          · exact Or.inl h2
          · rw [hph.2.2.2.1 w] at h2; cases h2
        · exact Or.inr (by rw [h.exec, h1]; rfl)
      refine lift ?_
      simp only [Follows, next]
      rw [if_pos ⟨hph.1, hph.2.1, hend⟩]
      · refine ⟨h.nc, h.exec, h.ok, h.uniq, h.known, h.pending, h.inside, h.closed, h.asked, fun _ => h.dying (by rw [hp]; simp), ?_, h.busy, h.clos, h.threads,
          h.mtx, h.fresh⟩
        exact ⟨⟨i, hph.1⟩, rfl, hph.2.2.1, hph.2.2.2.1, hall⟩
    · cases hs
  | begin c =>
    simp only at hs
    split at hs <;> cases hs
    rename_i hc
    have hne : s.cst c ≠ .absent := by rw [hc]; simp
    refine lift ?_
    simp only [Follows, next]
    rw [if_pos ⟨by rw [h.nc]; exact (h.known c hne).1, by rw [h.exec, hc]; rfl, (h.known c hne).2, h.notGone hne (by rw [hc]; simp)⟩]
    exact h.set hne (by simp) rfl (Or.inr rfl) (Or.inr ⟨by rw [hc]; simp, hne⟩)
  | finish c =>
    simp only at hs
    split at hs <;> cases hs
    rename_i hc
    have hcall : σ.call (.closure c) = none := by have := h.ok (.closure c); rw [hc.2] at this; exact this
    refine lift ?_
    simp only [Follows, next]
    rw [if_pos ⟨by rw [h.exec, hc.1]; rfl, hcall⟩]
    exact h.set (by rw [hc.1]; simp) (by simp) rfl (Or.inl hc.2) (Or.inl rfl)
  | throw c =>
    simp only at hs
    split at hs <;> cases hs
    rename_i hc
    have hcall : σ.call (.closure c) = none := by have := h.ok (.closure c); rw [hc.2] at this; exact this
    simp only [Follows, next]
    rw [if_pos ⟨by rw [h.exec, hc.1]; rfl, hcall⟩]
    exact Or.inl rfl

end Verif.ThreadExec
