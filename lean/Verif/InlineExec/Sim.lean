import Verif.InlineExec.Model
/-!
# inline_executor: the model follows the specification
-/
set_option linter.unusedSimpArgs false
set_option linter.unusedVariables false

namespace Verif.InlineExec

@[simp] theorem upd_same {α : Type} (f : Nat → α) (i : Nat) (x : α) : upd f i x i = x := by simp [upd]
theorem upd_other {α : Type} (f : Nat → α) {i j : Nat} (x : α) (h : j ≠ i) : upd f i x j = f j := by simp [upd, h]

def Pc.dtor : Pc → Bool
  | .lock .closeD | .act .closeD | .unlock .closeD _ => true
  | _ => false

def Pc.holds : Pc → Bool
  | .act _ | .unlock _ _ => true
  | _ => false

/-- The closures being executed. -/
def base (k : List Nat) : List Call := k.map fun c => .submit c false .running

/-- A thread at `p` that executes the closures `k` has the calls `x` in progress. -/
def Shown (closed asked : Bool) (k : List Nat) (x : List Call) : Pc → Prop
  | .idle => x = base k
  | .lock (.submit c) | .act (.submit c) => ∃ late, x = .submit c late .fresh :: base k ∧ (late = true → closed = true)
  | .unlock (.submit c) .go => x = .submit c false .fresh :: base k
  | .unlock (.submit c) .refused => ∃ late, x = .submit c late .fresh :: base k ∧ asked = true
  | .unlock (.submit _) _ => False
  | .lock .close | .act .close => x = .close :: base k ∧ asked = true
  | .unlock .close _ => x = .close :: base k ∧ asked = true ∧ closed = true
  | .lock .closeD | .act .closeD | .unlock .closeD _ => x = base k ∧ asked = true
  | .lock .ask | .act .ask => ∃ late, x = .ask late :: base k ∧ (late = true → closed = true)
  | .unlock .ask (.is b) => ∃ late, x = .ask late :: base k ∧ (late = true → b = true) ∧ (b = true → asked = true)
  | .unlock .ask _ => False
  | .start c => x = .submit c false .fresh :: base k
  | .ret c => x = .submit c false .over :: base k

theorem Shown.mono {c a c' a' : Bool} {k : List Nat} {x : List Call} {p : Pc} (h : Shown c a k x p) (hc : c = true → c' = true) (ha : a = true → a' = true) :
    Shown c' a' k x p := by
  cases p with
  | idle => exact h
  | start d => exact h
  | ret d => exact h
  | lock op =>
    cases op with
    | submit d => obtain ⟨l, h1, h2⟩ := h; exact ⟨l, h1, fun e => hc (h2 e)⟩
    | close => exact ⟨h.1, ha h.2⟩
    | closeD => exact ⟨h.1, ha h.2⟩
    | ask => obtain ⟨l, h1, h2⟩ := h; exact ⟨l, h1, fun e => hc (h2 e)⟩
  | act op =>
    cases op with
    | submit d => obtain ⟨l, h1, h2⟩ := h; exact ⟨l, h1, fun e => hc (h2 e)⟩
    | close => exact ⟨h.1, ha h.2⟩
    | closeD => exact ⟨h.1, ha h.2⟩
    | ask => obtain ⟨l, h1, h2⟩ := h; exact ⟨l, h1, fun e => hc (h2 e)⟩
  | unlock op r =>
    cases op with
    | submit d =>
      cases r with
      | go => exact h
      | refused => obtain ⟨l, h1, h2⟩ := h; exact ⟨l, h1, ha h2⟩
      | none => exact h
      | is b => exact h
    | close => exact ⟨h.1, ha h.2.1, hc h.2.2⟩
    | closeD => exact ⟨h.1, ha h.2⟩
    | ask =>
      cases r with
      | is b => obtain ⟨l, h1, h2, h3⟩ := h; exact ⟨l, h1, h2, fun e => ha (h3 e)⟩
      | _ => exact h

def PhaseR (s : St) (σ : Sys) : Prop :=
  match s.phase with
  | .alive => σ.dying = none ∧ σ.gone = false ∧ ∀ w, (s.pc w).dtor = false
  | .closing v => σ.dying = some v ∧ σ.gone = false ∧ σ.inside = [] ∧ (s.pc v).dtor = true ∧ ∀ w, w ≠ v → s.pc w = .idle
  | .members v => σ.dying = some v ∧ σ.gone = false ∧ σ.inside = [] ∧ ∀ w, s.pc w = .idle
  | .gone => (∃ v, σ.dying = some v) ∧ σ.gone = true ∧ σ.inside = [] ∧ ∀ w, s.pc w = .idle

structure R (s : St) (σ : Sys) : Prop where
  nc : σ.nc = s.nc
  over : σ.over = false
  shown : ∀ w, Shown s.closed σ.asked (s.stack w) (σ.stack w) (s.pc w)
  inside : ∀ w, σ.inside.count w = (σ.stack w).length
  closed : σ.closed = true → s.closed = true
  asked : s.closed = true → σ.asked = true
  phase : PhaseR s σ
  mtx : ∀ w, s.mtx = some w → (s.pc w).holds = true

theorem R_init : R init {} := by
  refine ⟨rfl, rfl, fun _ => rfl, ?_, ?_, ?_, ?_, ?_⟩ <;> simp [init, PhaseR, Pc.dtor]

/-- A thread in the middle of a call: the destructor has not been called. -/
theorem R.alive {s : St} {σ : Sys} (h : R s σ) {w : Nat} (hw : s.pc w ≠ .idle ∧ (s.pc w).dtor = false ∨ σ.stack w ≠ []) :
    s.phase = .alive ∧ σ.dying = none ∧ σ.gone = false ∧ ∀ w, (s.pc w).dtor = false := by
  have hph := h.phase
  unfold PhaseR at hph
  have hin : σ.inside = [] → σ.stack w = [] := by
    intro he
    have := h.inside w
    rw [he] at this
    exact List.eq_nil_of_length_eq_zero this.symm
  cases hp : s.phase with
  | alive => rw [hp] at hph; exact ⟨rfl, hph⟩
  | closing v =>
    rw [hp] at hph
    rcases hw with ⟨h1, h2⟩ | h1
    · by_cases hv : w = v
      · subst hv; rw [hph.2.2.2.1] at h2; cases h2
      · exact absurd (hph.2.2.2.2 w hv) h1
    · exact absurd (hin hph.2.2.1) h1
  | members v =>
    rw [hp] at hph
    rcases hw with ⟨h1, h2⟩ | h1
    · exact absurd (hph.2.2.2 w) h1
    · exact absurd (hin hph.2.2.1) h1
  | gone =>
    rw [hp] at hph
    rcases hw with ⟨h1, h2⟩ | h1
    · exact absurd (hph.2.2.2 w) h1
    · exact absurd (hin hph.2.2.1) h1

/-- Something happens in thread `w`. -/
theorem R.move {s s' : St} {σ σ' : Sys} (h : R s σ) {w : Nat} (hal : s'.phase = .alive ∧ σ'.dying = none ∧ σ'.gone = false ∧ ∀ v, v ≠ w → (s.pc v).dtor = false)
    (hnc : σ'.nc = s'.nc) (hov : σ'.over = false)
    (h1 : ∀ v, v ≠ w → s'.pc v = s.pc v) (h2 : ∀ v, v ≠ w → s'.stack v = s.stack v) (h3 : ∀ v, v ≠ w → σ'.stack v = σ.stack v)
    (h4 : Shown s'.closed σ'.asked (s'.stack w) (σ'.stack w) (s'.pc w)) (h5 : (s'.pc w).dtor = false)
    (h6 : ∀ v, σ'.inside.count v = (σ'.stack v).length)
    (h7 : s.closed = true → s'.closed = true) (h8 : σ.asked = true → σ'.asked = true)
    (h9 : σ'.closed = true → s'.closed = true) (h10 : s'.closed = true → σ'.asked = true)
    (h11 : ∀ v, s'.mtx = some v → (s'.pc v).holds = true) : R s' σ' := by
  refine ⟨hnc, hov, ?_, h6, h9, h10, ?_, h11⟩
  · intro v
    by_cases hv : v = w
    · subst hv; exact h4
    · rw [h1 v hv, h2 v hv, h3 v hv]; exact (h.shown v).mono h7 h8
  · unfold PhaseR
    rw [hal.1]
    refine ⟨hal.2.1, hal.2.2.1, fun v => ?_⟩
    by_cases hv : v = w
    · subst hv; exact h5
    · rw [h1 v hv]; exact hal.2.2.2 v hv

theorem count_push {σ : Sys} (h : ∀ v, σ.inside.count v = (σ.stack v).length) (w : Nat) (x : Call) :
    ∀ v, (σ.push w x).inside.count v = ((σ.push w x).stack v).length := by
  intro v
  by_cases hv : v = w
  · subst hv; simp [Sys.push, h]
  · simp only [Sys.push, upd_other _ _ hv]
    rw [List.count_cons_of_ne (fun e => hv e.symm)]; exact h v

theorem count_pop {σ : Sys} (h : ∀ v, σ.inside.count v = (σ.stack v).length) (w : Nat) :
    ∀ v, (σ.pop w).inside.count v = ((σ.pop w).stack v).length := by
  intro v
  by_cases hv : v = w
  · subst hv; simp [Sys.pop, List.count_erase_self, h]
  · simp only [Sys.pop, upd_other _ _ hv]
    rw [List.count_erase_of_ne hv]; exact h v

theorem count_top {σ : Sys} (h : ∀ v, σ.inside.count v = (σ.stack v).length) {w : Nat} (x : Call) {y : Call} {l : List Call} (hl : σ.stack w = y :: l) :
    ∀ v, (σ.top w x).inside.count v = ((σ.top w x).stack v).length := by
  intro v
  by_cases hv : v = w
  · subst hv; simp [Sys.top, h, hl]
  · simp only [Sys.top, upd_other _ _ hv]; exact h v

theorem base_user (k : List Nat) : inUserCode (base k) = true := by cases k <;> rfl

/-- The mutex stays with its owner. -/
theorem R.held {s : St} {σ : Sys} (h : R s σ) {w : Nat} {p : Pc} (hp : s.mtx = some w → p.holds = true) :
    ∀ v, s.mtx = some v → (upd s.pc w p v).holds = true := by
  intro v hv
  by_cases e : v = w
  · subst e; rw [upd_same]; exact hp hv
  · rw [upd_other _ _ e]; exact h.mtx v hv

theorem R.free {s : St} {σ : Sys} (h : R s σ) {w : Nat} (hw : (s.pc w).holds = false) : s.mtx ≠ some w := by
  intro he
  rw [h.mtx w he] at hw; cases hw

theorem call_ok {s : St} {σ : Sys} (h : R s σ) {w : Nat} {r : Req} (hi : s.pc w = .idle) (hd : s.dead = false) :
    Follows next (R (stepCall s w r).1) σ (stepCall s w r).2 := by
  have hs := h.shown w
  rw [hi] at hs
  have hs : σ.stack w = base (s.stack w) := hs
  have hu : inUserCode (σ.stack w) = true := by rw [hs]; exact base_user _
  have hf : s.mtx ≠ some w := h.free (by rw [hi]; rfl)
  have key : ∀ σ' e, next σ e = σ.begins w σ' → (σ.dying = none → R (stepCall s w r).1 σ') → Follows next (R (stepCall s w r).1) σ [e] := by
    intro σ' e he hx
    simp only [Follows, he, Sys.begins, hu, if_true]
    by_cases hdy : σ.dying = none
    · rw [if_pos hdy]; exact hx hdy
    · rw [if_neg hdy]; trivial
  have al : σ.dying = none → s.phase = .alive ∧ σ.dying = none ∧ σ.gone = false ∧ ∀ v, v ≠ w → (s.pc v).dtor = false := by
    intro hdy
    have hph := h.phase
    unfold PhaseR at hph
    cases hp : s.phase with
    | alive => rw [hp] at hph; exact ⟨rfl, hph.1, hph.2.1, fun v _ => hph.2.2 v⟩
    | closing v => rw [hp] at hph; rw [hph.1] at hdy; cases hdy
    | members v => rw [hp] at hph; rw [hph.1] at hdy; cases hdy
    | gone => rw [hp] at hph; obtain ⟨⟨v, hv⟩, -⟩ := hph; rw [hv] at hdy; cases hdy
  cases r with
  | submit =>
    refine key { σ.push w (.submit s.nc σ.closed .fresh) with nc := s.nc + 1 } _ ?_ (fun hdy => ?_)
    · simp only [next, h.over, Bool.false_eq_true, if_false, h.nc, if_true]
    · refine h.move (w := w) (al hdy) rfl h.over (fun v hv => upd_other _ _ hv) (fun _ _ => rfl) (fun v hv => upd_other _ _ hv) ?_ ?_ (count_push h.inside w _) (fun x => x)
        (fun x => x) h.closed h.asked (h.held (fun x => absurd x hf))
      · show Shown s.closed σ.asked (s.stack w) (upd σ.stack w (_ :: σ.stack w) w) (upd s.pc w _ w)
        rw [upd_same, upd_same]; exact ⟨σ.closed, by rw [hs], h.closed⟩
      · show (upd s.pc w _ w).dtor = false
        rw [upd_same]; rfl
  | close =>
    refine key { σ.push w .close with asked := true } _ ?_ (fun hdy => ?_)
    · simp only [next, h.over, Bool.false_eq_true, if_false]
    · refine h.move (w := w) (al hdy) h.nc h.over (fun v hv => upd_other _ _ hv) (fun _ _ => rfl) (fun v hv => upd_other _ _ hv) ?_ ?_ (count_push h.inside w _) (fun x => x)
        (fun x => rfl) h.closed (fun _ => rfl) (h.held (fun x => absurd x hf))
      · show Shown s.closed true (s.stack w) (upd σ.stack w (_ :: σ.stack w) w) (upd s.pc w _ w)
        rw [upd_same, upd_same]; exact ⟨by rw [hs], rfl⟩
      · show (upd s.pc w _ w).dtor = false
        rw [upd_same]; rfl
  | ask =>
    refine key (σ.push w (.ask σ.closed)) _ ?_ (fun hdy => ?_)
    · simp only [next, h.over, Bool.false_eq_true, if_false]
    · refine h.move (w := w) (al hdy) h.nc h.over (fun v hv => upd_other _ _ hv) (fun _ _ => rfl) (fun v hv => upd_other _ _ hv) ?_ ?_ (count_push h.inside w _) (fun x => x)
        (fun x => x) h.closed h.asked (h.held (fun x => absurd x hf))
      · show Shown s.closed σ.asked (s.stack w) (upd σ.stack w (_ :: σ.stack w) w) (upd s.pc w _ w)
        rw [upd_same, upd_same]; exact ⟨σ.closed, by rw [hs], h.closed⟩
      · show (upd s.pc w _ w).dtor = false
        rw [upd_same]; rfl

/-- A thread goes on inside the library: nothing is seen. -/
theorem R.inner {s : St} {σ : Sys} (h : R s σ) {w : Nat} {p : Pc} {cl : Bool} {m : Option Nat} (hw : s.pc w ≠ .idle) (hp : p ≠ .idle)
    (hd : p.dtor = (s.pc w).dtor) (hm : ∀ v, m = some v → (v = w ∧ p.holds = true) ∨ (v ≠ w ∧ s.mtx = some v))
    (hcl : s.closed = true → cl = true) (hca : cl = true → σ.asked = true)
    (hs : Shown cl σ.asked (s.stack w) (σ.stack w) p) : R { s with pc := upd s.pc w p, closed := cl, mtx := m } σ := by
  have hm' : ∀ v, m = some v → (upd s.pc w p v).holds = true := by
    intro v hv
    rcases hm v hv with ⟨rfl, h1⟩ | ⟨h1, h2⟩
    · rw [upd_same]; exact h1
    · rw [upd_other _ _ h1]; exact h.mtx v h2
  refine ⟨h.nc, h.over, ?_, h.inside, fun x => hcl (h.closed x), hca, ?_, hm'⟩
  · intro v
    by_cases hv : v = w
    · subst hv; show Shown cl σ.asked _ _ (upd s.pc v p v); rw [upd_same]; exact hs
    · show Shown cl σ.asked _ _ (upd s.pc w p v); rw [upd_other _ _ hv]; exact (h.shown v).mono hcl (fun x => x)
  · have hph := h.phase
    unfold PhaseR at hph ⊢
    show match s.phase with
      | .alive => _
      | .closing v => _
      | .members v => _
      | .gone => _
    cases hx : s.phase with
    | alive =>
      rw [hx] at hph
      refine ⟨hph.1, hph.2.1, fun v => ?_⟩
      by_cases hv : v = w
      · subst hv; show (upd s.pc v p v).dtor = false; rw [upd_same, hd]; exact hph.2.2 v
      · show (upd s.pc w p v).dtor = false; rw [upd_other _ _ hv]; exact hph.2.2 v
    | closing u =>
      rw [hx] at hph
      have hwu : w = u := by
        by_cases e : w = u
        · exact e
        · exact absurd (hph.2.2.2.2 w e) hw
      subst hwu
      refine ⟨hph.1, hph.2.1, hph.2.2.1, ?_, fun v hv => ?_⟩
      · show (upd s.pc w p w).dtor = true; rw [upd_same, hd]; exact hph.2.2.2.1
      · show upd s.pc w p v = .idle; rw [upd_other _ _ hv]; exact hph.2.2.2.2 v hv
    | members u => rw [hx] at hph; exact absurd (hph.2.2.2 w) hw
    | gone => rw [hx] at hph; exact absurd (hph.2.2.2 w) hw

theorem act_ok {s : St} {σ : Sys} (h : R s σ) {w : Nat} {op : Op} (hp : s.pc w = .act op) : R (stepAct s w op) σ := by
  have hs := h.shown w
  rw [hp] at hs
  have hw : s.pc w ≠ .idle := by rw [hp]; simp
  have hm : ∀ q : Pc, q.holds = true → ∀ v, s.mtx = some v → (v = w ∧ q.holds = true) ∨ (v ≠ w ∧ s.mtx = some v) := by
    intro q hq v hv
    by_cases e : v = w
    · exact Or.inl ⟨e, hq⟩
    · exact Or.inr ⟨e, hv⟩
  cases op with
  | submit c =>
    obtain ⟨late, h1, h2⟩ := hs
    unfold stepAct
    simp only
    split
    · rename_i hc
      exact h.inner (p := .unlock (.submit c) .refused) (cl := s.closed) hw (by simp) (by rw [hp]; rfl) (hm _ rfl) (fun x => x) h.asked ⟨late, h1, h.asked hc⟩
    · rename_i hc
      have hl : late = false := by cases late with
        | false => rfl
        | true => exact absurd (h2 rfl) hc
      subst hl
      exact h.inner (p := .unlock (.submit c) .go) (cl := s.closed) hw (by simp) (by rw [hp]; rfl) (hm _ rfl) (fun x => x) h.asked h1
  | close => exact h.inner (p := .unlock .close .none) (cl := true) hw (by simp) (by rw [hp]; rfl) (hm _ rfl) (fun _ => rfl) (fun _ => hs.2) ⟨hs.1, hs.2, rfl⟩
  | closeD => exact h.inner (p := .unlock .closeD .none) (cl := true) hw (by simp) (by rw [hp]; rfl) (hm _ rfl) (fun _ => rfl) (fun _ => hs.2) hs
  | ask =>
    obtain ⟨late, h1, h2⟩ := hs
    exact h.inner (p := .unlock .ask (.is s.closed)) (cl := s.closed) hw (by simp) (by rw [hp]; rfl) (hm _ rfl) (fun x => x) h.asked ⟨late, h1, h2, h.asked⟩

/-- The innermost call of `w` returns. -/
theorem R.leave {s : St} {σ : Sys} (h : R s σ) {w : Nat} {cl : Bool} {x : Call} {m : Option Nat} (hw : s.pc w ≠ .idle) (hd : (s.pc w).dtor = false)
    (hm : ∀ v, m = some v → v ≠ w ∧ s.mtx = some v)
    (hs : σ.stack w = x :: base (s.stack w)) (hcl : cl = true → s.closed = true) :
    R { s with pc := upd s.pc w .idle, mtx := m } { σ.pop w with closed := cl } := by
  obtain ⟨a1, a2, a3, a4⟩ := h.alive (w := w) (Or.inl ⟨hw, hd⟩)
  refine h.move (w := w) ⟨a1, a2, a3, fun v _ => a4 v⟩ h.nc h.over (fun v hv => upd_other _ _ hv) (fun _ _ => rfl) (fun v hv => upd_other _ _ hv) ?_ ?_
    (count_pop h.inside w) (fun x => x) (fun x => x) hcl h.asked ?_
  · show Shown s.closed σ.asked (s.stack w) (upd σ.stack w (σ.stack w).tail w) (upd s.pc w .idle w)
    rw [upd_same, upd_same, hs]; rfl
  · show (upd s.pc w .idle w).dtor = false
    rw [upd_same]; rfl
  · intro v hv
    obtain ⟨h1, h2⟩ := hm v hv
    show (upd s.pc w .idle v).holds = true
    rw [upd_other _ _ h1]; exact h.mtx v h2

theorem Sys.pop_closed (σ : Sys) (w : Nat) : ({ σ.pop w with closed := σ.closed } : Sys) = σ.pop w := rfl

theorem unlock_ok {s : St} {σ : Sys} (h : R s σ) {w : Nat} {op : Op} {r : Res} (hp : s.pc w = .unlock op r) :
    Follows next (R (stepUnlock s w op r).1) σ (stepUnlock s w op r).2 := by
  have hs := h.shown w
  rw [hp] at hs
  have hw : s.pc w ≠ .idle := by rw [hp]; simp
  have hno : ∀ v, (none : Option Nat) = some v → v ≠ w ∧ s.mtx = some v := by intro v hv; cases hv
  cases op with
  | submit c =>
    have hd : (s.pc w).dtor = false := by rw [hp]; rfl
    cases r with
    | go => exact h.inner (p := .start c) (cl := s.closed) (m := none) hw (by simp) (by rw [hp]; rfl) (by simp) (fun x => x) h.asked hs
    | refused =>
      obtain ⟨late, h1, h2⟩ := hs
      have := h.leave (w := w) (m := none) (cl := σ.closed) hw hd hno h1 h.closed
      simp only [stepUnlock, returned, Follows, next, h.over, Bool.false_eq_true, if_false]
      rw [if_pos ⟨by rw [h1]; cases late <;> simp, h2⟩]
      exact this
    | none => exact hs.elim
    | is b => exact hs.elim
  | close =>
    have hd : (s.pc w).dtor = false := by rw [hp]; rfl
    have := h.leave (w := w) (m := none) (cl := true) hw hd hno hs.1 (fun _ => hs.2.2)
    have e : after .close r = .idle := by cases r <;> rfl
    have e' : returned w .close r = [.hasClosed w] := by cases r <;> rfl
    simp only [stepUnlock, e, e', Follows, next, h.over, Bool.false_eq_true, if_false]
    rw [if_pos (by rw [hs.1]; rfl)]
    exact this
  | ask =>
    have hd : (s.pc w).dtor = false := by rw [hp]; rfl
    cases r with
    | is b =>
      obtain ⟨late, h1, h2, h3⟩ := hs
      have := h.leave (w := w) (m := none) (cl := σ.closed) hw hd hno h1 h.closed
      simp only [stepUnlock, returned, Follows, next, h.over, Bool.false_eq_true, if_false]
      have hc : ((σ.stack w).head? = some (.ask false) ∧ b = false) ∨
        (σ.asked = true ∧ b = true ∧ ((σ.stack w).head? = some (.ask false) ∨ (σ.stack w).head? = some (.ask true))) := by
        rw [h1]
        cases b with
        | false =>
          cases late with
          | false => exact Or.inl ⟨rfl, rfl⟩
          | true => cases h2 rfl
        | true => exact Or.inr ⟨h3 rfl, rfl, by cases late <;> simp⟩
      rw [if_pos hc]
      exact this
    | go => exact hs.elim
    | refused => exact hs.elim
    | none => exact hs.elim
  | closeD =>
    have e : after .closeD r = .idle := by cases r <;> rfl
    have e' : returned w .closeD r = [] := by cases r <;> rfl
    simp only [stepUnlock, e, e', Follows]
    have hph := h.phase
    unfold PhaseR at hph
    have hwd : (s.pc w).dtor = true := by rw [hp]; rfl
    cases hx : s.phase with
    | alive => rw [hx] at hph; rw [hph.2.2 w] at hwd; cases hwd
    | members u => rw [hx] at hph; exact absurd (hph.2.2.2 w) hw
    | gone => rw [hx] at hph; exact absurd (hph.2.2.2 w) hw
    | closing u =>
      rw [hx] at hph
      have hwu : w = u := by
        by_cases e : w = u
        · exact e
        · exact absurd (hph.2.2.2.2 w e) hw
      subst hwu
      refine ⟨h.nc, h.over, ?_, h.inside, h.closed, h.asked, ?_, ?_⟩
      · intro v
        by_cases hv : v = w
        · subst hv; show Shown s.closed σ.asked _ _ (upd s.pc v .idle v); rw [upd_same]; exact hs.1
        · show Shown s.closed σ.asked _ _ (upd s.pc w .idle v); rw [upd_other _ _ hv]; exact h.shown v
      · refine ⟨hph.1, hph.2.1, hph.2.2.1, fun v => ?_⟩
        show upd s.pc w .idle v = .idle
        by_cases hv : v = w
        · subst hv; rw [upd_same]
        · rw [upd_other _ _ hv]; exact hph.2.2.2.2 v hv
      · intro v hv; cases hv

/-- The state of a program that has ended does not matter. -/
def Rd (s : St) (σ : Sys) : Prop := s.dead = true ∨ R s σ

theorem Follows.weaken {P Q : Sys → Prop} (hpq : ∀ σ, P σ → Q σ) {es : List Event} {σ : Sys} (h : Follows next P σ es) : Follows next Q σ es := by
  induction es generalizing σ with
  | nil => exact hpq σ h
  | cons e es ih =>
    simp only [Follows] at h ⊢
    cases hn : next σ e with
    | ok σ' => rw [hn] at h; exact ih h
    | undefined => trivial
    | illegal => rw [hn] at h; exact h

theorem step_ok {s s' : St} {σ : Sys} {l : Label} {es : List Event} (h : Rd s σ) (hs : step s l = some (s', es)) : Follows next (Rd s') σ es := by
  unfold step at hs
  split at hs
  · cases hs
  rename_i hdead
  have hdd : s.dead = false := by simpa using hdead
  have h : R s σ := by
    rcases h with h | h
    · exact absurd h hdead
    · exact h
  have lift : ∀ {s'' : St} {es' : List Event}, Follows next (R s'') σ es' → Follows next (Rd s'') σ es' := by
    intro s'' es' hf
    exact Follows.weaken (fun σ' hx => Or.inr hx) hf
  have hph := h.phase
  unfold PhaseR at hph
  cases l with
  | call w r =>
    simp only at hs
    by_cases hu : s.pc w = .idle
    case neg => rw [if_neg hu] at hs; cases hs
    rw [if_pos hu] at hs
    have he : stepCall s w r = (s', es) := Option.some.inj hs
    have hs' : s' = (stepCall s w r).1 := by rw [he]
    have hes : es = (stepCall s w r).2 := by rw [he]
    subst hs' hes
    exact lift (call_ok h hu hdd)
  | lock w =>
    simp only at hs
    split at hs
    · rename_i op hp
      have hw : s.pc w ≠ .idle := by rw [hp]; simp
      split at hs
      · rename_i hg
        rw [hg] at hph
        exact absurd (hph.2.2.2 w) hw
      · split at hs <;> cases hs
        rename_i hm
        have hok := h.shown w
        rw [hp] at hok
        refine lift ?_
        simp only [Follows]
        exact h.inner (p := .act op) (cl := s.closed) (m := some w) hw (by simp) (by rw [hp]; cases op <;> rfl) (fun v hv => by cases hv; exact Or.inl ⟨rfl, rfl⟩)
          (fun x => x) h.asked (by cases op <;> exact hok)
    · cases hs
  | act w =>
    simp only at hs
    split at hs <;> cases hs
    rename_i op hp
    exact lift (act_ok h hp)
  | unlock w =>
    simp only at hs
    split at hs <;> cases hs
    rename_i op r hp
    exact lift (unlock_ok h hp)
  | start w =>
    simp only at hs
    split at hs <;> cases hs
    rename_i c hp
    have hok := h.shown w
    rw [hp] at hok
    have hok : σ.stack w = _ := hok
    obtain ⟨a1, a2, a3, a4⟩ := h.alive (w := w) (Or.inl ⟨by rw [hp]; simp, by rw [hp]; rfl⟩)
    refine lift ?_
    simp only [Follows, next, h.over, Bool.false_eq_true, if_false]
    rw [if_pos (by rw [hok]; rfl)]
    refine h.move (w := w) ⟨a1, a2, a3, fun v _ => a4 v⟩ h.nc h.over (fun v hv => upd_other _ _ hv) (fun v hv => upd_other _ _ hv) (fun v hv => upd_other _ _ hv) ?_ ?_
      (count_top h.inside _ hok) (fun x => x) (fun x => x) h.closed h.asked (h.held (fun x => absurd x (h.free (by rw [hp]; rfl))))
    · show Shown s.closed σ.asked (upd s.stack w (c :: s.stack w) w) (upd σ.stack w (_ :: (σ.stack w).tail) w) (upd s.pc w .idle w)
      rw [upd_same, upd_same, upd_same, hok]; rfl
    · show (upd s.pc w .idle w).dtor = false
      rw [upd_same]; rfl
  | finish w =>
    simp only at hs
    split at hs
    · rename_i hi
      split at hs <;> cases hs
      rename_i c rest hk
      have hok := h.shown w
      rw [hi] at hok
      have hok : σ.stack w = _ := hok
      rw [hk] at hok
      have hok : σ.stack w = .submit c false .running :: base rest := hok
      obtain ⟨a1, a2, a3, a4⟩ := h.alive (w := w) (Or.inr (by rw [hok]; simp))
      refine lift ?_
      simp only [Follows, next, h.over, Bool.false_eq_true, if_false]
      rw [if_pos (by rw [hok]; rfl)]
      refine h.move (w := w) ⟨a1, a2, a3, fun v _ => a4 v⟩ h.nc h.over (fun v hv => upd_other _ _ hv) (fun v hv => upd_other _ _ hv) (fun v hv => upd_other _ _ hv) ?_ ?_
        (count_top h.inside _ hok) (fun x => x) (fun x => x) h.closed h.asked (h.held (fun x => absurd x (h.free (by rw [hi]; rfl))))
      · show Shown s.closed σ.asked (upd s.stack w rest w) (upd σ.stack w (_ :: (σ.stack w).tail) w) (upd s.pc w (.ret c) w)
        rw [upd_same, upd_same, upd_same, hok]; rfl
      · show (upd s.pc w (.ret c) w).dtor = false
        rw [upd_same]; rfl
    · cases hs
  | throw w =>
    simp only at hs
    split at hs
    · rename_i hi
      split at hs <;> cases hs
      rename_i c rest hk
      have hok := h.shown w
      rw [hi] at hok
      have hok : σ.stack w = _ := hok
      rw [hk] at hok
      have hok : σ.stack w = .submit c false .running :: base rest := hok
      simp only [Follows, next, h.over, Bool.false_eq_true, if_false]
      rw [if_pos (by rw [hok]; rfl)]
      exact Or.inl rfl
    · cases hs
  | ret w =>
    simp only at hs
    split at hs <;> cases hs
    rename_i c hp
    have hok := h.shown w
    rw [hp] at hok
    have hok : σ.stack w = _ := hok
    refine lift ?_
    simp only [Follows, next, h.over, Bool.false_eq_true, if_false]
    rw [if_pos (by rw [hok]; rfl)]
    exact h.leave (w := w) (m := s.mtx) (cl := σ.closed) (by rw [hp]; simp) (by rw [hp]; rfl)
      (fun v hv => ⟨fun e => h.free (w := w) (by rw [hp]; rfl) (by rw [← e]; exact hv), hv⟩) hok h.closed
  | destroy w =>
    simp only at hs
    split at hs <;> cases hs
    rename_i hi
    refine lift ?_
    simp only [Follows, next, h.over, Bool.false_eq_true, if_false]
    by_cases hc : σ.inside = [] ∧ σ.dying = none
    · rw [if_pos hc]
      have hst : ∀ v, σ.stack v = [] := by
        intro v
        have := h.inside v
        rw [hc.1] at this
        exact List.eq_nil_of_length_eq_zero this.symm
      have ha : s.phase = .alive := by
        cases hx : s.phase with
        | alive => rfl
        | closing v => rw [hx] at hph; rw [hph.1] at hc; cases hc.2
        | members v => rw [hx] at hph; rw [hph.1] at hc; cases hc.2
        | gone => rw [hx] at hph; obtain ⟨⟨v, hv⟩, -⟩ := hph; rw [hv] at hc; cases hc.2
      rw [ha] at hph
      have idle : ∀ v, s.pc v = .idle := by
        intro v
        have h1 := h.shown v
        have h2 := hph.2.2 v
        rw [hst v] at h1
        cases hx : s.pc v with
        | idle => rfl
        | start c => rw [hx] at h1; cases h1
        | ret c => rw [hx] at h1; cases h1
        | lock op =>
          rw [hx] at h1 h2
          cases op with
          | submit c => obtain ⟨_, h3, _⟩ := h1; cases h3
          | close => cases h1.1
          | closeD => cases h2
          | ask => obtain ⟨_, h3, _⟩ := h1; cases h3
        | act op =>
          rw [hx] at h1 h2
          cases op with
          | submit c => obtain ⟨_, h3, _⟩ := h1; cases h3
          | close => cases h1.1
          | closeD => cases h2
          | ask => obtain ⟨_, h3, _⟩ := h1; cases h3
        | unlock op r =>
          rw [hx] at h1 h2
          cases op with
          | submit c =>
            cases r with
            | go => cases h1
            | refused => obtain ⟨_, h3, _⟩ := h1; cases h3
            | none => exact h1.elim
            | is b => exact h1.elim
          | close => cases h1.1
          | closeD => cases h2
          | ask =>
            cases r with
            | is b => obtain ⟨_, h3, _⟩ := h1; cases h3
            | _ => exact h1.elim
      refine ⟨h.nc, rfl, ?_, h.inside, h.closed, fun _ => rfl, ?_, h.held (fun x => absurd x (h.free (by rw [hi]; rfl)))⟩
      · intro v
        by_cases hv : v = w
        · subst hv
          show Shown s.closed true (s.stack v) (σ.stack v) (upd s.pc v (.lock .closeD) v)
          rw [upd_same]
          have := h.shown v
          rw [hi] at this
          exact ⟨this, rfl⟩
        · show Shown s.closed true (s.stack v) (σ.stack v) (upd s.pc w (.lock .closeD) v)
          rw [upd_other _ _ hv]; exact (h.shown v).mono (fun x => x) (fun _ => rfl)
      · refine ⟨rfl, hph.2.1, hc.1, ?_, fun v hv => ?_⟩
        · show (upd s.pc w (.lock .closeD) w).dtor = true; rw [upd_same]; rfl
        · show upd s.pc w (.lock .closeD) v = .idle; rw [upd_other _ _ hv]; exact idle v
    · rw [if_neg hc]; trivial
  | destroyMutex =>
    simp only at hs
    split at hs
    · rename_i w hp
      rw [hp] at hph
      split at hs <;> cases hs
      · refine lift ?_
        simp only [Follows, next, h.over, Bool.false_eq_true, if_false]
        rw [if_pos ⟨hph.1, hph.2.1, hph.2.2.1⟩]
        exact ⟨h.nc, rfl, h.shown, h.inside, h.closed, h.asked, ⟨⟨w, hph.1⟩, rfl, hph.2.2.1, hph.2.2.2⟩, h.mtx⟩
      · rename_i hm
        cases hmm : s.mtx with
        | none => exact absurd hmm hm
        | some v => have := h.mtx v hmm; rw [hph.2.2.2 v] at this; cases this
    · cases hs

end Verif.InlineExec
