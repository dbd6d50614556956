import Verif.Testable.Spec
/-!
# `testable_mutex`: the properties
-/
set_option linter.unusedSimpArgs false

namespace Verif.Testable

def PC.op : PC → Option Op
  | .out => none
  | .acquire op | .store op => some op
  | .reset | .release => some .unlock

/-- The thread at this place has not got the mutex. -/
def PC.apart : PC → Bool
  | .out | .acquire _ => true
  | _ => false

/-- What the place of the owner says about the holder and `id_`. -/
def At (u : Nat) (h : Option (Nat × Nat)) (i : Option Nat) : PC → Prop
  | .out => h = some (u, 1) ∧ i = some u
  | .acquire _ => False
  | .store _ => h = none ∧ i = none
  | .reset => h = none ∧ i = some u
  | .release => h = none ∧ i = none

structure R (c : Cfg) (s : State) (σ : Spec) : Prop where
  over : s.over = false
  ended : σ.ended = false
  busy : ∀ t, σ.busy t = (s.pc t).op
  op : ∀ t op, s.pc t = .acquire op ∨ s.pc t = .store op → op ≠ .unlock
  apart : ∀ t, (∀ d, s.owner ≠ some (t, d)) → (s.pc t).apart = true
  owner : match s.owner with
    | none => σ.holder = none ∧ s.id = none
    | some (u, d) => d = 1 ∧ u < c.n ∧ At u σ.holder s.id (s.pc u)

def RO (c : Cfg) (s : State) (σ : Spec) : Prop := s.over = true ∨ R c s σ

variable {c : Cfg} {s s' : State} {σ : Spec} {t : Nat}

theorem R.init : R c init {} where
  over := rfl
  ended := rfl
  busy _ := rfl
  op _ _ h := by rcases h with h | h <;> cases h
  apart _ _ := rfl
  owner := ⟨rfl, rfl⟩

/-- `is_locked_by_this_thread` is right. -/
theorem R.mine (h : R c s σ) (hp : s.pc t = .out) : (s.id = some t) = (σ.holds t = true) := by
  have ho := h.owner
  unfold Spec.holds
  cases hw : s.owner with
  | none => simp only [hw] at ho; simp [ho.1, ho.2]
  | some x =>
    obtain ⟨u, d⟩ := x
    simp only [hw] at ho
    obtain ⟨-, -, ha⟩ := ho
    by_cases hu : u = t
    · subst hu; rw [hp] at ha; simp only [At] at ha; simp [ha.1, ha.2]
    · cases hpu : s.pc u <;> rw [hpu] at ha <;> simp only [At] at ha <;> simp [ha.1, ha.2, hu]

theorem R.held (h : R c s σ) {u d : Nat} (hh : σ.holder = some (u, d)) : d = 1 ∧ s.owner = some (u, 1) ∧ s.id = some u ∧ s.pc u = .out := by
  have ho := h.owner
  cases hw : s.owner with
  | none => simp only [hw] at ho; rw [hh] at ho; cases ho.1
  | some x =>
    obtain ⟨v, e⟩ := x
    simp only [hw] at ho
    obtain ⟨rfl, -, ha⟩ := ho
    cases hpu : s.pc v <;> rw [hpu] at ha <;> simp only [At, hh] at ha
    · obtain ⟨ha, hi⟩ := ha; cases ha; exact ⟨rfl, rfl, hi, hpu⟩
    all_goals simp at ha

/-- A step that leaves the mutex and `id_`, of a thread that has not got it. -/
theorem R.away {σ' : Spec} {q : PC} (h : R c s σ) (ho : ∀ d, s.owner ≠ some (t, d)) (hq : q.apart = true) (hop : ∀ op, q = .acquire op → op ≠ .unlock) (hs : s' = { s with pc := upd s.pc t q })
    (hσ : σ' = { σ with busy := upd σ.busy t q.op }) : R c s' σ' := by
  subst hs; subst hσ
  refine ⟨h.over, h.ended, fun u => ?_, fun u op hu => ?_, fun u hu => ?_, ?_⟩
  · simp only [upd_apply]; split
    · rfl
    · exact h.busy u
  · simp only [upd_apply] at hu
    split at hu
    · rcases hu with hu | hu
      · exact hop op hu
      · rw [hu] at hq; cases hq
    · exact h.op u op hu
  · simp only [upd_apply]; split
    · exact hq
    · exact h.apart u hu
  · have := h.owner
    simp only
    cases hw : s.owner with
    | none => simp only [hw] at this; exact this
    | some x =>
      obtain ⟨u, d⟩ := x
      simp only [hw] at this
      have hut : u ≠ t := fun e => ho d (by rw [hw, e])
      refine ⟨this.1, this.2.1, ?_⟩
      simp only [upd_apply, if_neg hut]
      exact this.2.2

/-- A step of the thread that has the mutex, or gets it. -/
theorem R.own {σ' : Spec} {q : PC} {i : Option Nat} {h' : Option (Nat × Nat)} (h : R c s σ) (ht : t < c.n) (ho : s.owner = none ∨ s.owner = some (t, 1)) (hop : ∀ op, q = .store op → op ≠ .unlock)
    (hs : s' = { s with pc := upd s.pc t q, owner := some (t, 1), id := i }) (hσ : σ' = { σ with busy := upd σ.busy t q.op, holder := h' }) (ha : At t h' i q) : R c s' σ' := by
  subst hs; subst hσ
  refine ⟨h.over, h.ended, fun u => ?_, fun u op hu => ?_, fun u hu => ?_, ?_⟩
  · simp only [upd_apply]; split
    · rfl
    · exact h.busy u
  · simp only [upd_apply] at hu
    split at hu
    · rcases hu with hu | hu
      · rw [hu] at ha; exact ha.elim
      · exact hop op hu
    · exact h.op u op hu
  · simp only [upd_apply]; split
    · rename_i he; subst he; exact absurd rfl (hu 1)
    · rename_i he
      refine h.apart u fun d hd => ?_
      rcases ho with ho | ho <;> rw [ho] at hd <;> cases hd
      exact he rfl
  · refine ⟨rfl, ht, ?_⟩
    simp only [upd_apply, ↓reduceIte]
    exact ha

theorem R.owns (h : R c s σ) (hp : (s.pc t).apart = false) : s.owner = some (t, 1) ∧ At t σ.holder s.id (s.pc t) := by
  have : ∃ d, s.owner = some (t, d) := by
    refine Classical.byContradiction fun hn => ?_
    have := h.apart t fun d hd => hn ⟨d, hd⟩
    rw [hp] at this; cases this
  obtain ⟨d, hd⟩ := this
  have ho := h.owner
  simp only [hd] at ho
  obtain ⟨rfl, -, ha⟩ := ho
  exact ⟨hd, ha⟩

theorem R.acquiring (h : R c s σ) {op : Op} (hp : s.pc t = .acquire op) (d : Nat) : s.owner ≠ some (t, d) := by
  intro hd
  have ho := h.owner
  simp only [hd, hp] at ho
  exact ho.2.2

theorem next_live (h : σ.ended = false) {b : Bool} {e : Event} : next c b σ e = nextLive c b σ e := by simp [next, h]

theorem upd_same {α : Type} {f : Nat → α} {x : α} (h : f t = x) : upd f t x = f := by
  funext u
  simp only [upd_apply]
  split
  · subst_vars; rfl
  · rfl

theorem go_sim (h : R c s σ) (ht : t < c.n) {es : List Event} (hs : go c s t = some (s', es)) : Follows (next c false) (RO c s') σ es := by
  have hb := h.busy t
  unfold go at hs
  cases hp : s.pc t with
  | out => simp only [hp] at hs; cases hs
  | acquire op =>
    simp only [hp, PC.op] at hs hb
    have hop := h.op t op (.inl hp)
    have hna := h.acquiring hp
    cases hw : s.owner with
    | none =>
      simp only [grant, hw] at hs
      cases hs
      have ho := h.owner
      simp only [hw] at ho
      refine .inr (h.own (q := .store op) (i := none) (h' := none) ht (.inl hw) (fun op' he => by cases he; exact hop) ?_ ?_ ⟨rfl, rfl⟩)
      · rw [← ho.2]
      · have := upd_same hb
        simp only [PC.op, this, ← ho.1]
    | some x =>
      obtain ⟨u, d⟩ := x
      have hut : u ≠ t := fun e => hna d (by rw [hw, e])
      simp only [grant, hw, hut, and_false, ↓reduceIte] at hs
      split at hs <;> cases hs
      rename_i hop'
      subst hop'
      have ho := h.owner
      simp only [hw] at ho
      have hbusy : σ.holder ≠ none ∧ σ.holds t = false ∨ ∃ v, v < c.n ∧ v ≠ t ∧ σ.busy v ≠ none := by
        cases hpu : s.pc u <;> rw [hpu] at ho
        · refine .inl ⟨by rw [ho.2.2.1]; simp, ?_⟩
          simp only [Spec.holds, ho.2.2.1, beq_eq_false_iff_ne]
          exact hut
        all_goals exact .inr ⟨u, ho.2.1, hut, by rw [h.busy u, hpu]; simp [PC.op]⟩
      simp only [Follows, next_live h.ended, nextLive, Bool.false_eq_true, ↓reduceIte]
      rw [if_pos ⟨hb, .inr ⟨trivial, hbusy⟩⟩]
      exact .inr (h.away hna (q := .out) rfl (by simp) (by rw [hw]) rfl)
  | store op =>
    simp only [hp, PC.op] at hs hb
    cases hs
    have hop := h.op t op (.inr hp)
    obtain ⟨hw, ha⟩ := h.owns (t := t) (by rw [hp]; rfl)
    rw [hp] at ha
    have hR : R c { s with id := some t, pc := upd s.pc t .out } { σ with busy := upd σ.busy t none, holder := some (t, 1) } :=
      h.own (q := .out) (i := some t) (h' := some (t, 1)) ht (.inr hw) (by simp) (by rw [← hw]) rfl ⟨rfl, rfl⟩
    have hn : next c false σ (.did t op) = .ok { σ with busy := upd σ.busy t none, holder := some (t, 1) } := by
      rw [next_live h.ended]
      have hao := ha.1
      cases op <;> simp_all [nextLive, ha.1]
    simp only [Follows, hn]
    exact .inr hR
  | reset =>
    simp only [hp, PC.op] at hs hb
    cases hs
    obtain ⟨hw, ha⟩ := h.owns (t := t) (by rw [hp]; rfl)
    rw [hp] at ha
    refine .inr (h.own (q := .release) (i := none) (h' := none) ht (.inr hw) (by simp) (by rw [← hw]) ?_ ⟨rfl, rfl⟩)
    have := upd_same hb
    simp only [PC.op, this, ← ha.1]
  | release =>
    simp only [hp, PC.op] at hs hb
    obtain ⟨hw, ha⟩ := h.owns (t := t) (by rw [hp]; rfl)
    rw [hp] at ha
    simp only [hw, ↓reduceIte, Nat.le_refl] at hs
    cases hs
    simp only [Follows, next_live h.ended, nextLive, Bool.false_eq_true, ↓reduceIte, hb]
    refine .inr ⟨h.over, h.ended, fun u => ?_, fun u op hu => ?_, fun u hu => ?_, ⟨ha.1, ha.2⟩⟩
    · simp only [upd_apply]; split
      · rfl
      · exact h.busy u
    · simp only [upd_apply] at hu
      split at hu
      · rcases hu with hu | hu <;> cases hu
      · exact h.op u op hu
    · simp only [upd_apply]; split
      · rfl
      · rename_i he
        refine h.apart u fun d hd => ?_
        rw [hw] at hd; cases hd; exact he rfl

theorem sim (h : RO c s σ) {l : Label} {es : List Event} (hs : step c s l = some (s', es)) : Follows (next c false) (RO c s') σ es := by
  unfold step at hs
  split at hs
  rotate_left
  · cases hs
  rename_i hg
  obtain ⟨hover, ht⟩ := hg
  have h : R c s σ := by
    rcases h with h | h
    · rw [hover] at h; cases h
    · exact h
  cases l with
  | go t => exact go_sim h ht hs
  | timeout t =>
    simp only [act] at hs
    split at hs <;> cases hs
    rename_i hp
    have hb := h.busy t
    rw [hp] at hb
    simp only [Follows, next_live h.ended, nextLive, Bool.false_eq_true, ↓reduceIte]
    rw [if_pos ⟨hb, .inl trivial⟩]
    exact .inr (h.away (h.acquiring hp) (q := .out) rfl (by simp) rfl rfl)
  | askMine t =>
    simp only [act] at hs
    split at hs <;> cases hs
    rename_i hp
    have hb := h.busy t
    rw [hp] at hb
    have : decide (s.id = some t) = σ.holds t := by
      have := h.mine hp
      cases hh : σ.holds t <;> simp_all
    simp only [Follows, next_live h.ended, nextLive, Bool.false_eq_true, ↓reduceIte]
    rw [if_pos ⟨hb, this⟩]
    exact .inr h
  | askLocked t =>
    simp only [act] at hs
    split at hs <;> cases hs
    rename_i hp
    have hb := h.busy t
    rw [hp] at hb
    simp only [Follows, next_live h.ended, nextLive, Bool.false_eq_true, ↓reduceIte]
    suffices hc : (σ.holder ≠ none → decide (s.id ≠ none) = true) ∧ (σ.holder = none ∧ (∀ u, u < c.n → σ.busy u = none) → decide (s.id ≠ none) = false) by
      rw [if_pos ⟨hb, hc⟩]
      exact .inr h
    refine ⟨fun hh => ?_, fun hh => ?_⟩
    · cases hx : σ.holder with
      | none => exact absurd hx hh
      | some x => obtain ⟨u, d⟩ := x; simp [(h.held hx).2.2.1]
    · have ho := h.owner
      cases hw : s.owner with
      | none => simp only [hw] at ho; simp [ho.2]
      | some x =>
        obtain ⟨u, d⟩ := x
        simp only [hw] at ho
        have := hh.2 u ho.2.1
        rw [h.busy u] at this
        have hpu : s.pc u = .out := by cases hpu : s.pc u <;> simp_all [PC.op]
        rw [hpu] at ho
        simp only [At] at ho
        rw [hh.1] at ho
        cases ho.2.2.1
  | askId t =>
    simp only [act] at hs
    split at hs <;> cases hs
    rename_i hp
    have hb := h.busy t
    rw [hp] at hb
    simp only [Follows, next_live h.ended, nextLive, Bool.false_eq_true, ↓reduceIte]
    suffices hc : (∀ h, σ.holder = some h → s.id = some h.1) ∧ (σ.holder = none → ∀ u, s.id = some u → σ.busy u ≠ none) by
      rw [if_pos ⟨hb, hc⟩]
      exact .inr h
    refine ⟨fun x hx => ?_, fun hh u hu => ?_⟩
    · obtain ⟨u, d⟩ := x; exact (h.held hx).2.2.1
    · have ho := h.owner
      cases hw : s.owner with
      | none => simp only [hw] at ho; rw [ho.2] at hu; cases hu
      | some x =>
        obtain ⟨v, d⟩ := x
        simp only [hw] at ho
        cases hpv : s.pc v <;> rw [hpv] at ho <;> simp only [At] at ho
        · rw [hh] at ho; cases ho.2.2.1
        · exact ho.2.2.elim
        · rw [hu] at ho; cases ho.2.2.2
        · rw [hu] at ho; cases ho.2.2.2; rw [h.busy u, hpv]; simp [PC.op]
        · rw [hu] at ho; cases ho.2.2.2
  | call t op =>
    simp only [Label.thread] at ht
    simp only [act] at hs
    split at hs
    rotate_left
    · cases hs
    rename_i hp
    have hb := h.busy t
    rw [hp] at hb
    have hm := h.mine hp
    have hno : σ.holds t = false → ∀ d, s.owner ≠ some (t, d) := by
      intro hh d hd
      have ho := h.owner
      simp only [hd, hp, At] at ho
      simp [Spec.holds, ho.2.2.1] at hh
    split at hs
    · rename_i hw
      cases hs
      simp only [Bool.and_eq_true] at hw
      cases op <;> simp only [wrong, decide_eq_true_eq, ne_eq, Bool.not_eq_true', decide_not, decide_eq_false_iff_not] at hw <;>
        simp only [Follows, next_live h.ended, nextLive, Bool.false_eq_true, ↓reduceIte]
      case unlock =>
        have : σ.holds t = false := by cases hh : σ.holds t <;> simp_all
        rw [if_pos ⟨hb, this⟩]
        exact .inl rfl
      all_goals
        rw [if_pos ⟨hb, hm ▸ hw.2, by simp⟩]
        exact .inl rfl
    · rename_i hw
      cases hs
      simp only [Bool.and_eq_true, not_and, Bool.not_eq_true] at hw
      have hbn : ¬ σ.busy t ≠ none := by simp [hb, PC.op]
      cases op with
      | unlock =>
        simp only [Follows, next_live h.ended, nextLive, Bool.false_eq_true, ↓reduceIte, if_neg hbn]
        cases hh : σ.holds t with
        | true =>
          simp only [↓reduceIte]
          have hx : ∃ d, σ.holder = some (t, d) := by
            unfold Spec.holds at hh
            cases hx : σ.holder with
            | none => simp [hx] at hh
            | some x => obtain ⟨u, d⟩ := x; simp [hx] at hh; exact ⟨d, by rw [hh]⟩
          obtain ⟨d, hx⟩ := hx
          obtain ⟨rfl, hw', hi, -⟩ := h.held hx
          refine .inr (h.own (q := .reset) (i := some t) (h' := none) ht (.inr hw') (by simp) ?_ ?_ ⟨rfl, rfl⟩)
          · rw [← hi, ← hw']; rfl
          · simp only [Spec.begin, Spec.drop, hx, Nat.le_refl, ↓reduceIte, PC.op]
        | false =>
          simp only [Bool.false_eq_true, ↓reduceIte]
          cases ha : c.asserts with
          | false => simp
          | true =>
            have := hw ha
            simp [wrong] at this
            rw [hm, hh] at this
            cases this
      | _ =>
        simp only [Follows, next_live h.ended, nextLive, Bool.false_eq_true, ↓reduceIte, if_neg hbn]
        cases hh : σ.holds t with
        | false =>
          simp only [↓reduceIte]
          exact .inr (h.away (q := .acquire _) (hno hh) rfl (by rintro _ ⟨⟩; simp) rfl rfl)
        | true =>
          simp only [Bool.false_eq_true, Bool.true_eq_false, ↓reduceIte, false_and]
          cases ha : c.asserts with
          | false => simp
          | true =>
            have := hw ha
            simp [wrong] at this
            rw [hm, hh] at this
            simp at this

/-- C65. Every history of a `testable_mutex` over an exclusive or a recursive mutex, with any number of threads, with and without assertions, is one that the specification allows: at most one
thread holds it; `is_locked_by_this_thread` says exactly whether the calling thread holds it; `is_locked` and `get_id` are right whenever a thread holds the mutex, and whenever no thread is locking
or unlocking it; assertions fail for every wrong use and only for wrong uses. Partial: recursive locking is left out (`recursive_forgets`, `recursive_aborts`). -/
theorem conforms_partial {ls : List Label} {es : List Event} (h : run (step c) init ls = some (s, es)) : Accepts (next c false) {} es :=
  simulation (RO c) (fun _ _ _ _ _ hR hs => sim hR hs) (.inr R.init) h

theorem state_partial {ls : List Label} {es : List Event} (h : run (step c) init ls = some (s, es)) (hσ : specState (next c false) {} es = some σ) : RO c s σ :=
  simulation_state (RO c) (fun _ _ _ _ _ hR hs => sim hR hs) (.inr R.init) h hσ

/-- C65. Only the thread that holds the mutex, or one that is locking or unlocking it, keeps a `lock` waiting: if there is none, `lock` returns by the thread's own steps. -/
theorem lock_returns {ls : List Label} {es : List Event} (h : run (step c) init ls = some (s, es)) (hσ : specState (next c false) {} es = some σ) (hov : s.over = false) (ht : t < c.n)
    (hp : s.pc t = .acquire .lock) (hh : σ.holder = none) (hb : ∀ u, u ≠ t → σ.busy u = none) : ∃ s', run (step c) s [.go t, .go t] = some (s', [.did t .lock]) ∧ s'.id = some t := by
  have hR : R c s σ := (state_partial h hσ).resolve_left (by simp [hov])
  have hw : s.owner = none := by
    have ho := hR.owner
    cases hw : s.owner with
    | none => rfl
    | some x =>
      obtain ⟨u, d⟩ := x
      simp only [hw] at ho
      have hut : u ≠ t := fun e => hR.acquiring hp d (by rw [hw, e])
      have := hb u hut
      rw [hR.busy u] at this
      have hpu : s.pc u = .out := by cases hpu : s.pc u <;> simp_all [PC.op]
      rw [hpu] at ho
      simp only [At, hh] at ho
      cases ho.2.2.1
  have h1 : step c s (.go t) = some ({ s with owner := some (t, 1), pc := upd s.pc t (.store .lock) }, []) := by
    unfold step
    rw [if_pos ⟨hov, ht⟩]
    simp only [act, go, hp, grant, hw]
  refine ⟨_, run_step h1 (run_step (e := [Event.did t .lock]) (m := { s with owner := some (t, 1), id := some t, pc := upd (upd s.pc t (.store .lock)) t .out }) ?_ run_nil), rfl⟩
  unfold step
  rw [if_pos ⟨hov, ht⟩]
  simp only [act, go, upd_apply, ↓reduceIte]

/-- C65. `unlock` of the holder waits for nothing. -/
theorem unlock_returns {ls : List Label} {es : List Event} (h : run (step c) init ls = some (s, es)) (hσ : specState (next c false) {} es = some σ) (hov : s.over = false) (ht : t < c.n) (hh : σ.holds t = true) : ∃ s', run (step c) s [.call t .unlock, .go t, .go t] = some (s', [.began t .unlock, .did t .unlock]) ∧ s'.owner = none ∧ s'.id = none := by
  have hR : R c s σ := (state_partial h hσ).resolve_left (by simp [hov])
  have hx : ∃ d, σ.holder = some (t, d) := by
    unfold Spec.holds at hh
    cases hx : σ.holder with
    | none => simp [hx] at hh
    | some x => obtain ⟨u, d⟩ := x; simp [hx] at hh; exact ⟨d, by rw [hh]⟩
  obtain ⟨d, hx⟩ := hx
  obtain ⟨rfl, hw, hi, hp⟩ := hR.held hx
  have h1 : step c s (.call t .unlock) = some ({ s with pc := upd s.pc t .reset }, [.began t .unlock]) := by
    unfold step
    rw [if_pos ⟨hov, ht⟩]
    simp [act, hp, wrong, hi, Op.first]
  have h2 : step c { s with pc := upd s.pc t .reset } (.go t) = some ({ s with id := none, pc := upd (upd s.pc t .reset) t .release }, []) := by
    unfold step
    rw [if_pos ⟨hov, ht⟩]
    simp only [act, go, upd_apply, ↓reduceIte]
  have h3 : step c { s with id := none, pc := upd (upd s.pc t .reset) t .release } (.go t) =
      some ({ s with owner := none, id := none, pc := upd (upd (upd s.pc t .reset) t .release) t .out }, [.did t .unlock]) := by
    unfold step
    rw [if_pos ⟨hov, ht⟩]
    simp only [act, go, upd_apply, ↓reduceIte, hw, Nat.le_refl]
  exact ⟨_, run_step h1 (run_step h2 (run_step h3 run_nil)), rfl, rfl⟩

/-! ## Concrete histories -/

def prog : List Label := [.call 0 .lock, .go 0, .askLocked 1, .go 0, .askMine 0, .askMine 1, .askId 1, .askLocked 1, .call 1 .tryLock, .go 1, .call 1 .lock, .call 0 .unlock, .go 0, .go 0, .go 1, .go 1, .askMine 0, .askMine 1]

def events : List Event := [.began 0 .lock, .isLocked 1 false, .did 0 .lock, .mine 0 true, .mine 1 false, .gotId 1 (some 0), .isLocked 1 true, .began 1 .tryLock, .failed 1 .tryLock, .began 1 .lock, .began 0 .unlock,
  .did 0 .unlock, .did 1 .lock, .mine 0 false, .mine 1 true]

example : (run (step ⟨2, false, true⟩) init prog).map (·.2) = some events := by decide +kernel

example : ClientOk (next ⟨2, false, true⟩ false) {} events := by decide +kernel

/-- After the `unlock` of thread 0, `lock_returns` applies to thread 1. -/
example : (run (step ⟨2, false, true⟩) init (prog.take 14)).map (fun x => (x.1.pc 1, x.1.over)) = some (.acquire .lock, false) := by decide +kernel

example : (specState (next ⟨2, false, true⟩ false) {} (events.take 12)).map (fun σ => (σ.holder, σ.busy 0, σ.busy 1)) = some (none, none, some .lock) := by decide +kernel

/-- ... and before it `unlock_returns` to thread 0. -/
example : (specState (next ⟨2, false, true⟩ false) {} (events.take 10)).map (fun σ => (σ.holds 0, σ.busy 0)) = some (true, none) := by decide +kernel

/-- Wrong uses end the program. -/
example : (run (step ⟨2, false, true⟩) init [.call 0 .lock, .go 0, .go 0, .call 1 .unlock]).map (·.2) = some [.began 0 .lock, .did 0 .lock, .assertion 1 .unlock] := by decide +kernel

example : (run (step ⟨2, false, true⟩) init [.call 0 .lock, .go 0, .go 0, .call 0 .tryLock]).map (·.2) = some [.began 0 .lock, .did 0 .lock, .assertion 0 .tryLock] := by decide +kernel

/-! ## Where the code falls short -/

/-- C65. Over a recursive mutex the first `unlock` forgets the owner: after two `lock` and one `unlock` the thread still has the mutex, and is told that it has not. -/
theorem recursive_forgets : ∃ ls s es, run (step ⟨1, true, false⟩) init ls = some (s, es) ∧ s.owner = some (0, 1) ∧ .mine 0 false ∈ es ∧ ¬ Accepts (next ⟨1, true, false⟩ true) {} es := by
  refine ⟨[.call 0 .lock, .go 0, .go 0, .call 0 .lock, .go 0, .go 0, .call 0 .unlock, .go 0, .go 0, .askMine 0], _, _, rfl, rfl, ?_, ?_⟩ <;> decide +kernel

/-- C65. With assertions, locking a recursive mutex twice ends the program. -/
theorem recursive_aborts : ∃ ls s es, run (step ⟨1, true, true⟩) init ls = some (s, es) ∧ s.over = true ∧ .assertion 0 .lock ∈ es ∧ ¬ Accepts (next ⟨1, true, true⟩ true) {} es := by
  refine ⟨[.call 0 .lock, .go 0, .go 0, .call 0 .lock], _, _, rfl, rfl, ?_, ?_⟩ <;> decide +kernel

/-- C65. `is_locked` may say `false` although the mutex cannot be locked: between locking and storing the identifier. The specification allows that. -/
theorem is_locked_lags : ∃ ls s es, run (step ⟨2, false, true⟩) init ls = some (s, es) ∧ s.owner = some (0, 1) ∧ .isLocked 1 false ∈ es ∧ .failed 1 .tryLock ∈ es ∧ Accepts (next ⟨2, false, true⟩ false) {} es := by
  refine ⟨[.call 0 .lock, .go 0, .askLocked 1, .call 1 .tryLock, .go 1], _, _, rfl, rfl, ?_, ?_, ?_⟩ <;> decide +kernel

/-! ## What the specification refuses -/

example : ¬ Accepts (next ⟨2, false, false⟩ false) {} [.began 0 .lock, .did 0 .lock, .mine 0 false] := by decide +kernel
example : ¬ Accepts (next ⟨2, false, false⟩ false) {} [.began 0 .lock, .did 0 .lock, .mine 1 true] := by decide +kernel
example : ¬ Accepts (next ⟨2, false, false⟩ false) {} [.began 0 .lock, .did 0 .lock, .isLocked 1 false] := by decide +kernel
example : ¬ Accepts (next ⟨2, false, false⟩ false) {} [.isLocked 1 true] := by decide +kernel
example : ¬ Accepts (next ⟨2, false, false⟩ false) {} [.began 0 .lock, .did 0 .lock, .began 1 .lock, .did 1 .lock] := by decide +kernel
example : ¬ Accepts (next ⟨2, false, false⟩ false) {} [.began 0 .tryLock, .failed 0 .tryLock] := by decide +kernel
example : ¬ Accepts (next ⟨2, false, true⟩ false) {} [.began 0 .unlock] := by decide +kernel
example : ¬ Accepts (next ⟨2, false, true⟩ false) {} [.assertion 0 .lock] := by decide +kernel

end Verif.Testable
