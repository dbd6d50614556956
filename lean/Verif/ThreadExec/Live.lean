import Verif.ThreadExec.Sim
/-!
# thread_executor: the destructor ends
-/
set_option linter.unusedSimpArgs false
set_option linter.unusedVariables false

namespace Verif.ThreadExec

def stepPlain (s : St) (l : Label) : Option (St × List Event) := if plain s l = true then step s l else none

theorem of_plain {s s' : St} {l : Label} {es : List Event} (h : stepPlain s l = some (s', es)) : plain s l = true ∧ step s l = some (s', es) := by
  unfold stepPlain at h
  split at h
  · exact ⟨by assumption, h⟩
  · cases h

/-- Steps in which no call begins and no closure throws. -/
def wind : Label → Bool
  | .call _ _ | .destroy _ | .throw _ => false
  | .act _ fails => !fails
  | _ => true

def calls : Event → Bool
  | .submits _ _ | .closes _ | .asks _ | .destroys _ => true
  | _ => false

theorem begins_undefined {σ σ' : Sys} {e : Event} (he : calls e = false) (h : next σ e = .undefined) : False := by
  cases e <;> first | (simp only [next] at h; split at h <;> cases h; done) | (cases h; done) | (cases he; done)

theorem Follows.reach {P : Sys → Prop} {es : List Event} {σ : Sys} (h : Follows next P σ es) (hes : ∀ e ∈ es, calls e = false) : ∃ σ', P σ' := by
  induction es generalizing σ with
  | nil => exact ⟨σ, h⟩
  | cons e es ih =>
    simp only [Follows] at h
    cases hn : next σ e with
    | ok σ' => rw [hn] at h; exact ih h (fun x hx => hes x (List.mem_cons_of_mem _ hx))
    | undefined => exact absurd hn (fun hx => begins_undefined (σ' := σ) (hes e List.mem_cons_self) hx)
    | illegal => rw [hn] at h; exact h.elim

theorem returned_calls (w : Who) (op : Op) (r : Res) : ∀ e ∈ returned w op r, calls e = false := by
  intro e he
  cases op <;> cases r <;> simp [returned] at he <;> (subst he; rfl)

theorem wind_calls {s s' : St} {l : Label} {es : List Event} (hw : wind l = true) (hs : step s l = some (s', es)) : ∀ e ∈ es, calls e = false := by
  unfold step at hs
  split at hs
  · cases hs
  cases l with
  | call w r => cases hw
  | destroy i => cases hw
  | throw c => cases hw
  | unlock w =>
    simp only at hs
    split at hs
    · cases hs; exact returned_calls _ _ _
    · cases hs
  | _ =>
    simp only at hs
    repeat' split at hs
    all_goals first | (cases hs; done) | (cases hs; intro e he; simp at he; try (subst he; rfl))

/-- The mutex and the thread objects. -/
structure LInv (s : St) : Prop where
  held : ∀ w, s.mtx = some w → (s.pc w).holds = true
  thr : ∀ c ∈ s.threads, s.cst c ≠ .absent
  left : ∀ i l, s.phase = .joining i l → ∀ c ∈ l, s.cst c ≠ .absent

theorem linv_init : LInv init := by
  refine ⟨?_, ?_, ?_⟩ <;> simp [init]

theorem mem_upd {cst : Nat → CSt} {c d : Nat} {x : CSt} (hx : x ≠ .absent) (h : cst d ≠ .absent) : upd cst c x d ≠ .absent := by
  by_cases hd : d = c
  · subst hd; rw [upd_same]; exact hx
  · rw [upd_other _ _ hd]; exact h

theorem LInv.set {s : St} (h : LInv s) {c : Nat} {x : CSt} (hx : x ≠ .absent) : LInv { s with cst := upd s.cst c x } :=
  ⟨h.held, fun d hd => mem_upd hx (h.thr d hd), fun i l hl d hd => mem_upd hx (h.left i l hl d hd)⟩

theorem LInv.goto {s : St} (h : LInv s) {w : Who} {p : Pc} (hp : s.mtx = some w → p.holds = true) : LInv (s.goto w p) := by
  refine ⟨?_, h.thr, h.left⟩
  intro v hv
  by_cases e : v = w
  · subst e; simp only [St.goto, updW_same]; exact hp hv
  · simp only [St.goto, updW_other _ _ e]; exact h.held v hv

theorem linv_step {s s' : St} {l : Label} {es : List Event} (h : LInv s) (hs : step s l = some (s', es)) : LInv s' := by
  unfold step at hs
  split at hs
  · cases hs
  have nh : ∀ {w : Who}, (s.pc w).holds = false → s.mtx ≠ some w := by
    intro w h1 h2
    rw [h.held w h2] at h1; cases h1
  cases l with
  | call w r =>
    simp only at hs
    split at hs
    · rename_i hu
      have hi : s.pc w = .idle := by
        simp only [St.user, Bool.and_eq_true, decide_eq_true_eq] at hu; exact hu.1
      have hx : ∀ p, LInv (s.goto w p) := fun p => h.goto (fun h1 => absurd h1 (nh (by rw [hi]; rfl)))
      cases r <;> cases hs
      · have := hx (.lock (.submit s.nc)); exact ⟨this.held, this.thr, this.left⟩
      · exact hx _
      · exact hx _
    · cases hs
  | lock w =>
    simp only at hs
    split at hs
    · split at hs
      · cases hs; exact ⟨h.held, h.thr, h.left⟩
      · split at hs <;> cases hs
        refine ⟨?_, h.thr, h.left⟩
        intro v hv
        cases hv
        simp only [St.goto, updW_same]; rfl
    · cases hs
  | act w fails =>
    simp only at hs
    split at hs <;> cases hs
    rename_i op hp
    cases op with
    | submit c =>
      unfold stepAct
      simp only
      split
      · exact h.goto (fun _ => rfl)
      · split
        · exact h.goto (fun _ => rfl)
        · have h1 := (h.goto (w := w) (p := .unlock (.submit c) .accepted) (fun _ => rfl)).set (c := c) (x := .created) (by simp)
          refine ⟨h1.held, ?_, h1.left⟩
          intro d hd
          rcases List.mem_append.1 hd with h2 | h2
          · exact h1.thr d h2
          · rw [List.mem_singleton] at h2; subst h2; simp [upd_same]
    | close => have := h.goto (w := w) (p := .unlock .close .none) (fun _ => rfl); exact ⟨this.held, this.thr, this.left⟩
    | closeD => have := h.goto (w := w) (p := .unlock .closeD .none) (fun _ => rfl); exact ⟨this.held, this.thr, this.left⟩
    | ask => exact h.goto (fun _ => rfl)
  | unlock w =>
    simp only at hs
    split at hs <;> cases hs
    rename_i op r hp
    refine ⟨?_, h.thr, ?_⟩
    · intro v hv; cases hv
    · intro i l hl
      have : s.phase = .joining i l := by
        cases op with
        | closeD =>
          simp only [Phase.after] at hl
          split at hl
          · cases hl
          · exact hl
        | _ => exact hl
      exact h.left i l this
  | destroy i =>
    simp only at hs
    split at hs <;> cases hs
    rename_i hc
    have := h.goto (w := .client i) (p := .lock .closeD) (fun h1 => absurd h1 (nh (by rw [hc.2]; rfl)))
    refine ⟨this.held, this.thr, ?_⟩
    intro j l hl; cases hl
  | destroyMutex =>
    simp only at hs
    split at hs
    · split at hs <;> cases hs
      · refine ⟨h.held, h.thr, ?_⟩
        intro j l hl; cases hl; exact h.thr
      · exact ⟨h.held, h.thr, h.left⟩
    · cases hs
  | join =>
    simp only at hs
    split at hs
    · split at hs <;> cases hs
      rename_i i c l hp _
      refine ⟨h.held, h.thr, ?_⟩
      intro j m hm; cases hm
      intro d hd; exact h.left _ _ hp d (List.mem_cons_of_mem _ hd)
    · cases hs
      refine ⟨h.held, h.thr, ?_⟩
      intro j m hm; cases hm
    · cases hs
  | begin c => simp only at hs; split at hs <;> cases hs; exact h.set (by simp)
  | finish c => simp only at hs; split at hs <;> cases hs; exact h.set (by simp)
  | throw c => simp only at hs; split at hs <;> cases hs; exact ⟨h.held, h.thr, h.left⟩

/-- The states from which the rest is shown. -/
structure Good (s : St) : Prop where
  live : s.dead = false
  rel : ∃ σ, R s σ
  inv : LInv s

theorem wind_dead {s s' : St} {l : Label} {es : List Event} (h : Good s) (hP : plain s l = true) (hw : wind l = true) (hs : step s l = some (s', es)) : s'.dead = false := by
  obtain ⟨σ, hr⟩ := h.rel
  have hf := step_ok (Or.inr hr) hP hs
  have hd := h.live
  have bad : ∀ w, ¬ Follows next (Rd { s with dead := true }) σ [.broken w] := by
    intro w hx; simp only [Follows, next] at hx
  unfold step at hs
  rw [if_neg (by rw [hd]; simp)] at hs
  cases l with
  | call w r => cases hw
  | destroy i => cases hw
  | throw c => cases hw
  | act w fails =>
    simp only at hs
    split at hs <;> cases hs
    rename_i op hp
    unfold stepAct
    split
    · split
      · exact hd
      · split
        · exact hd
        · exact hd
    · exact hd
    · exact hd
    · exact hd
  | lock w =>
    simp only at hs
    split at hs
    · split at hs
      · cases hs; exact absurd hf (bad w)
      · split at hs <;> cases hs; exact hd
    · cases hs
  | destroyMutex =>
    simp only at hs
    split at hs
    · split at hs <;> cases hs
      · exact hd
      · exact absurd hf (bad _)
    · cases hs
  | unlock w => simp only at hs; split at hs <;> cases hs; exact hd
  | join =>
    simp only at hs
    split at hs
    · split at hs <;> cases hs; exact hd
    · cases hs; exact hd
    · cases hs
  | begin c => simp only at hs; split at hs <;> cases hs; exact hd
  | finish c => simp only at hs; split at hs <;> cases hs; exact hd

theorem Good.step {s s' : St} {l : Label} {es : List Event} (h : Good s) (hP : plain s l = true) (hw : wind l = true) (hs : step s l = some (s', es)) : Good s' := by
  have hd := wind_dead h hP hw hs
  obtain ⟨σ, hr⟩ := h.rel
  refine ⟨hd, ?_, linv_step h.inv hs⟩
  obtain ⟨σ', h'⟩ := Follows.reach (step_ok (Or.inr hr) hP hs) (wind_calls hw hs)
  rcases h' with h' | h'
  · rw [hd] at h'; cases h'
  · exact ⟨σ', h'⟩

/-- `s'` can be reached from `s` by the steps described above. -/
def Winds (s s' : St) : Prop := ∃ ls es, (∀ l ∈ ls, wind l = true) ∧ run stepPlain s ls = some (s', es)

theorem Winds.refl (s : St) : Winds s s := ⟨[], [], by simp, rfl⟩

theorem Winds.trans {a b c : St} (h1 : Winds a b) (h2 : Winds b c) : Winds a c := by
  obtain ⟨l1, e1, w1, r1⟩ := h1
  obtain ⟨l2, e2, w2, r2⟩ := h2
  refine ⟨l1 ++ l2, e1 ++ e2, ?_, run_append r1 r2⟩
  intro l hl
  rcases List.mem_append.1 hl with h | h
  · exact w1 l h
  · exact w2 l h

theorem Winds.one {s s' : St} {l : Label} {es : List Event} (hP : plain s l = true) (hw : wind l = true) (hs : step s l = some (s', es)) : Winds s s' := by
  refine ⟨[l], es ++ [], by simpa using hw, ?_⟩
  have : stepPlain s l = some (s', es) := by unfold stepPlain; rw [if_pos hP]; exact hs
  simp only [run, this]

/-- The thread that executes the destructor. -/
def Phase.owner : Phase → Option Nat
  | .closing i | .members i | .joining i _ => some i
  | _ => none

structure Eff (s s' : St) : Prop where
  winds : Winds s s'
  good : Good s'
  nc : s'.nc = s.nc
  idle : ∀ v, s.pc v = .idle → s'.pc v = .idle
  owner : s'.phase.owner = s.phase.owner
  gone : s'.phase.mutexGone = s.phase.mutexGone

theorem Eff.trans {a b c : St} (h1 : Eff a b) (h2 : Eff b c) : Eff a c :=
  ⟨h1.winds.trans h2.winds, h2.good, by rw [h2.nc, h1.nc], fun v hv => h2.idle v (h1.idle v hv), by rw [h2.owner, h1.owner], by rw [h2.gone, h1.gone]⟩

theorem after_owner (p : Phase) (op : Op) : (p.after op).owner = p.owner ∧ (p.after op).mutexGone = p.mutexGone := by
  cases op <;> cases p <;> exact ⟨rfl, rfl⟩

theorem eff_unlock {s : St} (h : Good s) {w : Who} {op : Op} {r : Res} (hp : s.pc w = .unlock op r) :
    ∃ s', Eff s s' ∧ s'.mtx = none ∧ s'.pc w = .idle := by
  have hs : step s (.unlock w) = some (stepUnlock s w op r) := by unfold step; rw [if_neg (by rw [h.live]; simp)]; simp only [hp]
  refine ⟨_, ⟨Winds.one rfl rfl hs, h.step rfl rfl hs, rfl, ?_, (after_owner _ _).1, (after_owner _ _).2⟩, rfl, ?_⟩
  · intro v hv
    by_cases e : v = w
    · subst e; simp [stepUnlock, St.goto]
    · simp only [stepUnlock, St.goto, updW_other _ _ e]; exact hv
  · simp [stepUnlock, St.goto]

theorem eff_act {s : St} (h : Good s) {w : Who} {op : Op} (hp : s.pc w = .act op) :
    ∃ s', Eff s s' ∧ s'.mtx = none ∧ s'.pc w = .idle := by
  have hs : step s (.act w false) = some (stepAct s w false op, []) := by unfold step; rw [if_neg (by rw [h.live]; simp)]; simp only [hp]
  have hg := h.step (l := .act w false) rfl rfl hs
  have key : ∃ r, (stepAct s w false op).pc w = .unlock op r ∧ (∀ v, s.pc v = .idle → (stepAct s w false op).pc v = .idle) ∧
      (stepAct s w false op).nc = s.nc ∧ (stepAct s w false op).phase = s.phase := by
    have oth : ∀ p v, s.pc v = .idle → updW s.pc w p v = .idle := by
      intro p v hv
      by_cases e : v = w
      · subst e; rw [hp] at hv; cases hv
      · rw [updW_other _ _ e]; exact hv
    cases op with
    | submit c =>
      unfold stepAct
      simp only [Bool.false_eq_true, if_false]
      split
      · exact ⟨.refused, by simp [St.goto], oth _, rfl, rfl⟩
      · exact ⟨.accepted, by simp [St.goto], oth _, rfl, rfl⟩
    | close => exact ⟨.none, by simp [stepAct, St.goto], oth _, rfl, rfl⟩
    | closeD => exact ⟨.none, by simp [stepAct, St.goto], oth _, rfl, rfl⟩
    | ask => exact ⟨.is s.closed, by simp [stepAct, St.goto], oth _, rfl, rfl⟩
  obtain ⟨r, k1, k2, k3, k4⟩ := key
  obtain ⟨s', e', h1, h2⟩ := eff_unlock hg k1
  have e0 : Eff s (stepAct s w false op) := ⟨Winds.one (l := .act w false) rfl rfl hs, hg, k3, k2, by rw [k4], by rw [k4]⟩
  exact ⟨s', e0.trans e', h1, h2⟩

theorem eff_lock {s : St} (h : Good s) (hm : s.mtx = none) (hg : s.phase.mutexGone = false) {w : Who} {op : Op} (hp : s.pc w = .lock op) :
    ∃ s', Eff s s' ∧ s'.mtx = none ∧ s'.pc w = .idle := by
  have hs : step s (.lock w) = some ({ s.goto w (.act op) with mtx := some w }, []) := by
    unfold step; rw [if_neg (by rw [h.live]; simp)]; simp only [hp]; rw [if_neg (by rw [hg]; simp), if_pos hm]
  have hg' := h.step (l := .lock w) rfl rfl hs
  obtain ⟨s', e', h1, h2⟩ := eff_act hg' (w := w) (op := op) (by simp [St.goto])
  have e0 : Eff s { s.goto w (.act op) with mtx := some w } := by
    refine ⟨Winds.one (l := .lock w) rfl rfl hs, hg', rfl, ?_, rfl, rfl⟩
    intro v hv
    by_cases e : v = w
    · subst e; rw [hp] at hv; cases hv
    · simp only [St.goto, updW_other _ _ e]; exact hv
  exact ⟨s', e0.trans e', h1, h2⟩

theorem Eff.refl {s : St} (h : Good s) : Eff s s := ⟨.refl s, h, rfl, fun _ h => h, rfl, rfl⟩

/-- The mutex is released. -/
theorem eff_free {s : St} (h : Good s) : ∃ s', Eff s s' ∧ s'.mtx = none := by
  cases hm : s.mtx with
  | none => exact ⟨s, .refl h, hm⟩
  | some w =>
    have := h.inv.held w hm
    cases hp : s.pc w with
    | idle => rw [hp] at this; cases this
    | lock op => rw [hp] at this; cases this
    | act op => obtain ⟨s', e, h1, _⟩ := eff_act h hp; exact ⟨s', e, h1⟩
    | unlock op r => obtain ⟨s', e, h1, _⟩ := eff_unlock h hp; exact ⟨s', e, h1⟩

/-- The call of `w` returns. -/
theorem eff_one {s : St} (h : Good s) (hm : s.mtx = none) (hg : s.phase.mutexGone = false) (w : Who) : ∃ s', Eff s s' ∧ s'.mtx = none ∧ s'.pc w = .idle := by
  cases hp : s.pc w with
  | idle => exact ⟨s, .refl h, hm, hp⟩
  | lock op => exact eff_lock h hm hg hp
  | act op => exact eff_act h hp
  | unlock op r => exact eff_unlock h hp

theorem eff_all {s : St} (h : Good s) (hm : s.mtx = none) (hg : s.phase.mutexGone = false) (l : List Who) : ∃ s', Eff s s' ∧ s'.mtx = none ∧ ∀ w ∈ l, s'.pc w = .idle := by
  induction l with
  | nil => exact ⟨s, .refl h, hm, by simp⟩
  | cons w l ih =>
    obtain ⟨s1, e1, m1, i1⟩ := ih
    obtain ⟨s2, e2, m2, i2⟩ := eff_one e1.good m1 (by rw [e1.gone]; exact hg) w
    refine ⟨s2, e1.trans e2, m2, ?_⟩
    intro v hv
    rcases List.mem_cons.1 hv with hv | hv
    · subst hv; exact i2
    · exact e2.idle v (i1 v hv)

theorem joining_idle {s : St} (h : Good s) {i : Nat} {l : List Nat} (hp : s.phase = .joining i l) (w : Who) : s.pc w = .idle := by
  obtain ⟨σ, hr⟩ := h.rel
  have := hr.phase
  unfold PhaseR at this
  rw [hp] at this
  exact this.2.2.2.1 w

/-- The threads end and are joined. -/
theorem join_all {s : St} (h : Good s) {i : Nat} {l : List Nat} (hp : s.phase = .joining i l) : ∃ s', Winds s s' ∧ Good s' ∧ s'.phase = .joining i [] := by
  induction l generalizing s with
  | nil => exact ⟨s, .refl s, h, hp⟩
  | cons c l ih =>
    have go : ∀ s, Good s → s.phase = .joining i (c :: l) → s.cst c = .over → ∃ s', Winds s s' ∧ Good s' ∧ s'.phase = .joining i [] := by
      intro s h hp hc
      have hs : step s .join = some ({ s with phase := .joining i l }, []) := by
        unfold step; rw [if_neg (by rw [h.live]; simp)]; simp only [hp]; rw [if_pos hc]
      obtain ⟨s', w, g, p⟩ := ih (h.step (l := .join) rfl rfl hs) rfl
      exact ⟨s', (Winds.one (l := .join) rfl rfl hs).trans w, g, p⟩
    have fin : ∀ s, Good s → s.phase = .joining i (c :: l) → s.cst c = .running → ∃ s', Winds s s' ∧ Good s' ∧ s'.phase = .joining i [] := by
      intro s h hp hc
      have hs : step s (.finish c) = some ({ s with cst := upd s.cst c .over }, [.ended c]) := by
        unfold step; rw [if_neg (by rw [h.live]; simp)]; simp only; rw [if_pos ⟨hc, joining_idle h hp _⟩]
      obtain ⟨s', w, g, p⟩ := go _ (h.step (l := .finish c) rfl rfl hs) hp (by simp)
      exact ⟨s', (Winds.one (l := .finish c) rfl rfl hs).trans w, g, p⟩
    cases hc : s.cst c with
    | absent => exact absurd hc (h.inv.left i _ hp c List.mem_cons_self)
    | over => exact go s h hp hc
    | running => exact fin s h hp hc
    | created =>
      have hs : step s (.begin c) = some ({ s with cst := upd s.cst c .running }, [.began c]) := by
        unfold step; rw [if_neg (by rw [h.live]; simp)]; simp only; rw [if_pos hc]
      obtain ⟨s', w, g, p⟩ := fin _ (h.step (l := .begin c) rfl rfl hs) hp (by simp)
      exact ⟨s', (Winds.one (l := .begin c) rfl rfl hs).trans w, g, p⟩

theorem to_joining {s : St} (h : Good s) {i : Nat} (hi : s.phase.owner = some i) : ∃ s' l, Winds s s' ∧ Good s' ∧ s'.phase = .joining i l := by
  by_cases hg : s.phase.mutexGone = true
  · cases hp : s.phase with
    | joining j l => rw [hp] at hi; cases hi; exact ⟨s, l, .refl s, h, hp⟩
    | alive => rw [hp] at hg; cases hg
    | closing j => rw [hp] at hg; cases hg
    | members j => rw [hp] at hg; cases hg
    | gone => rw [hp] at hi; cases hi
  · have hg : s.phase.mutexGone = false := by simpa using hg
    obtain ⟨s1, e1, m1⟩ := eff_free h
    obtain ⟨s2, e2, m2, i2⟩ := eff_all e1.good m1 (by rw [e1.gone]; exact hg) (.client i :: (List.range s1.nc).map .closure)
    have ho : s2.phase.owner = some i := by rw [e2.owner, e1.owner]; exact hi
    have hgg : s2.phase.mutexGone = false := by rw [e2.gone, e1.gone]; exact hg
    have hp2 : s2.phase = .members i := by
      cases hp : s2.phase with
      | joining j l => rw [hp] at hgg; cases hgg
      | alive => rw [hp] at ho; cases ho
      | gone => rw [hp] at ho; cases ho
      | members j => rw [hp] at ho; cases ho; rfl
      | closing j =>
        rw [hp] at ho; cases ho
        obtain ⟨σ, hr⟩ := e2.good.rel
        have := hr.phase
        unfold PhaseR at this
        rw [hp] at this
        have h3 := this.2.2.1
        rw [i2 (.client i) List.mem_cons_self] at h3
        cases h3
    have hP : plain s2 .destroyMutex = true := by
      simp only [plain, List.all_eq_true, List.mem_range, decide_eq_true_eq]
      intro c hc
      refine i2 _ (List.mem_cons_of_mem _ (List.mem_map.2 ⟨c, ?_, rfl⟩))
      rw [e2.nc] at hc
      exact List.mem_range.2 hc
    have hs : step s2 .destroyMutex = some ({ s2 with phase := .joining i s2.threads }, []) := by
      unfold step; rw [if_neg (by rw [e2.good.live]; simp)]; simp only [hp2]; rw [if_pos m2]
    exact ⟨_, _, (e1.winds.trans e2.winds).trans (Winds.one hP rfl hs), e2.good.step hP rfl hs, rfl⟩

theorem Good.ends {s : St} (h : Good s) {i : Nat} (hi : s.phase.owner = some i) :
    ∃ ls s' es, (∀ l ∈ ls, wind l = true) ∧ run stepPlain s ls = some (s', es ++ [.destroyed i]) := by
  obtain ⟨s1, l, w1, g1, p1⟩ := to_joining h hi
  obtain ⟨s2, w2, g2, p2⟩ := join_all g1 p1
  obtain ⟨ls, es, w, r⟩ := w1.trans w2
  have hs : stepPlain s2 .join = some ({ s2 with phase := .gone }, [.destroyed i]) := by
    unfold stepPlain _root_.Verif.ThreadExec.step; rw [if_pos (show plain s2 .join = true from rfl), if_neg (by rw [g2.live]; simp)]; simp only [p2]
  have hr : run stepPlain s2 [.join] = some ({ s2 with phase := .gone }, [.destroyed i]) := by simp only [run, hs, List.append_nil]
  refine ⟨ls ++ [.join], _, es, ?_, run_append r hr⟩
  intro x hx
  rcases List.mem_append.1 hx with h | h
  · exact w x h
  · rw [List.mem_singleton] at h; subst h; rfl

end Verif.ThreadExec
