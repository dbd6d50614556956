import Verif.WaitCallback.Sim
/-! # Who holds the mutexes, and that they are released -/

set_option linter.unusedSimpArgs false

namespace Verif.WaitCallback

/-- At this place the call holds the mutex of its shared state. -/
def Frame.holds : Frame → Option Nat
  | .locked k _ | .check k _ _ => some k
  | _ => none

def Frame.isCb : Frame → Bool
  | .inCb _ _ => true
  | _ => false

def held (fs : List Frame) : Option Nat :=
  match fs with
  | f :: _ => f.holds
  | [] => none

structure Inv (n : Nat) (s : State) : Prop where
  mtx : ∀ k t, s.mtx k = some t ↔ held (s.stk t) = some k
  rest : ∀ t, ∀ f ∈ (s.stk t).tail, f.isCb = true
  out : ∀ t, n ≤ t → s.stk t = []
  slp : ∀ t k kd, .asleep k kd false ∈ s.stk t → s.res k = none

variable {n : Nat} {s s' : State} {t p k : Nat}

theorem Inv.init : Inv n init where
  mtx _ _ := by simp [WaitCallback.init, held]
  rest _ _ h := by cases h
  out _ _ := rfl
  slp _ _ _ h := by cases h

/-- The thread gets another stack and the mutexes change accordingly. -/
theorem Inv.top (h : Inv n s) (ht : t < n) {fs : List Frame} (hr : s'.res = s.res) (hs : s'.stk = upd s.stk t fs) (hm : ∀ k u, s'.mtx k = some u ↔ if u = t then held fs = some k else s.mtx k = some u)
    (hrest : ∀ f ∈ fs.tail, f.isCb = true) (hslp : ∀ k kd, .asleep k kd false ∈ fs → s.res k = none) : Inv n s' where
  mtx k u := by
    rw [hm, hs]
    simp only [upd_apply]
    split
    · exact Iff.rfl
    · exact h.mtx k u
  rest u := by
    rw [hs]
    simp only [upd_apply]
    split
    · exact hrest
    · exact h.rest u
  out u hu := by rw [hs]; simp only [upd_apply]; rw [if_neg (by omega)]; exact h.out u hu
  slp u k kd := by
    rw [hs, hr]
    simp only [upd_apply]
    split
    · exact hslp k kd
    · exact h.slp u k kd

theorem held_cb {fs : List Frame} (h : ∀ f ∈ fs, f.isCb = true) : held fs = none := by
  cases fs with
  | nil => rfl
  | cons f fs => have := h f List.mem_cons_self; cases f <;> simp_all [Frame.isCb, held, Frame.holds]

theorem no_sleep {fs : List Frame} (h : ∀ f ∈ fs, f.isCb = true) {k : Nat} {kd : Kind} {b : Bool} : .asleep k kd b ∉ fs := fun hm => by
  have := h _ hm
  cases this

theorem Inv.finish (h : Inv n s) (r : Res) (s₀ : State) (h1 : s₀.stk = s.stk) (h2 : s₀.mtx = s.mtx) (h3 : s₀.res = s.res) : Inv n (finish s₀ k r) where
  mtx k' t := by
    have := h.mtx k' t
    simp only [WaitCallback.finish, h1, h2]
    rw [this]
    cases s.stk t with
    | nil => rfl
    | cons f fs => cases f <;> simp [held, Frame.holds, Frame.notify]
  rest t f hf := by
    have := h.rest t
    simp only [WaitCallback.finish, h1] at hf
    rw [← List.map_tail] at hf
    obtain ⟨g, hg, rfl⟩ := List.mem_map.mp hf
    have := this g hg
    cases g <;> simp_all [Frame.isCb, Frame.notify]
  out t ht := by simp only [WaitCallback.finish, h1, h.out t ht]; rfl
  slp t k' kd hm := by
    simp only [WaitCallback.finish, h1, h3, upd_apply] at hm ⊢
    obtain ⟨g, hg, he⟩ := List.mem_map.mp hm
    cases g <;> simp [Frame.notify] at he
    obtain ⟨rfl, rfl, h4, h5⟩ := he
    rw [if_neg h5]
    exact h.slp t _ _ (h4 ▸ hg)

theorem Inv.same (h : Inv n s) (h1 : s'.stk = s.stk) (h2 : s'.mtx = s.mtx) (h3 : s'.res = s.res) : Inv n s' where
  mtx := by rw [h1, h2]; exact h.mtx
  rest := by rw [h1]; exact h.rest
  out := by rw [h1]; exact h.out
  slp := by rw [h1, h3]; exact h.slp

theorem Inv.tail (h : Inv n s) {f : Frame} {fs : List Frame} (hs : s.stk t = f :: fs) : ∀ g ∈ fs, g.isCb = true := by
  have := h.rest t
  rwa [hs] at this

theorem Inv.not_held (h : Inv n s) {f : Frame} {fs : List Frame} (hs : s.stk t = f :: fs) (hf : f.holds = none) (k : Nat) : s.mtx k ≠ some t := by
  intro hk
  have := (h.mtx k t).mp hk
  rw [hs] at this
  simp [held, hf] at this

/-- From a place without the mutex to another one. -/
theorem Inv.free (h : Inv n s) (ht : t < n) {f g : Frame} {fs : List Frame} (hst : s.stk t = f :: fs) (hf : f.holds = none) (hr : s'.res = s.res) (hs : s'.stk = upd s.stk t (g :: fs)) (hm : s'.mtx = s.mtx)
    (hg : g.holds = none) (hslp : ∀ k kd, g ≠ .asleep k kd false) : Inv n s' := by
  refine h.top ht hr hs (fun k u => ?_) (h.tail hst) fun k kd hm => ?_
  · rw [hm]
    split
    · rename_i he; subst he
      simp [held, hg, h.not_held hst hf k]
    · exact Iff.rfl
  · rcases List.mem_cons.mp hm with he | he
    · exact absurd he.symm (hslp k kd)
    · exact absurd he (no_sleep (h.tail hst))

/-- Locking. -/
theorem Inv.lock (h : Inv n s) (ht : t < n) {f g : Frame} {fs : List Frame} (hst : s.stk t = f :: fs) (hf : f.holds = none) (hk : s.mtx k = none) (hr : s'.res = s.res) (hs : s'.stk = upd s.stk t (g :: fs))
    (hm : s'.mtx = upd s.mtx k (some t)) (hg : g.holds = some k) : Inv n s' := by
  refine h.top ht hr hs (fun k' u => ?_) (h.tail hst) fun k' kd hm => ?_
  · rw [hm]
    simp only [upd_apply]
    split
    · rename_i he; subst he
      rw [hk]
      split
      · rename_i he; subst he; simp [held, hg]
      · rename_i he; simp; exact fun e => he e.symm
    · rename_i hkk
      split
      · rename_i he; subst he
        simp only [held, hg, h.not_held hst hf k', false_iff, Option.some.injEq]
        exact fun e => hkk e.symm
      · exact Iff.rfl
  · rcases List.mem_cons.mp hm with he | he
    · subst he; cases hg
    · exact absurd he (no_sleep (h.tail hst))

/-- Unlocking. -/
theorem Inv.unlock (h : Inv n s) (ht : t < n) {f : Frame} {fs gs : List Frame} (hst : s.stk t = f :: fs) (hf : f.holds = some k) (hr : s'.res = s.res) (hs : s'.stk = upd s.stk t gs)
    (hm : s'.mtx = upd s.mtx k none) (hg : held gs = none) (hrest : ∀ g ∈ gs.tail, g.isCb = true) (hslp : ∀ k kd, .asleep k kd false ∈ gs → s.res k = none) : Inv n s' := by
  refine h.top ht hr hs (fun k' u => ?_) hrest hslp
  have hk : s.mtx k = some t := (h.mtx k t).mpr (by rw [hst]; exact hf)
  rw [hm, hg]
  simp only [upd_apply]
  split
  · rename_i he; subst he
    rw [hk]
    split
    · simp
    · rename_i hu; simp; exact fun e => hu e.symm
  · rename_i hkk
    split
    · rename_i he; subst he
      simp only [iff_false, reduceCtorEq]
      intro hc
      have := (h.mtx k' u).mp hc
      rw [hst] at this
      simp only [held, hf, Option.some.injEq] at this
      exact hkk this.symm
    · exact Iff.rfl

theorem Inv.go (h : Inv n s) (ht : t < n) {es : List Event} (hs : go s t = some (s', es)) : Inv n s' := by
  unfold WaitCallback.go at hs
  cases hst : s.stk t with
  | nil => simp only [hst] at hs; cases hs
  | cons f fs =>
    simp only [hst] at hs
    cases f with
    | enter k kd =>
      simp only [lockAnd] at hs
      split at hs <;> cases hs
      exact h.lock ht hst rfl ‹_› rfl rfl rfl rfl
    | locked k kd =>
      simp only at hs
      split at hs <;> cases hs
      · refine h.unlock ht hst rfl rfl rfl rfl rfl (h.tail hst) fun k' kd' hm => ?_
        rcases List.mem_cons.mp hm with he | he
        · cases he
        · exact absurd he (no_sleep (h.tail hst))
      · refine h.top ht rfl rfl (fun k' u => ?_) (h.tail hst) fun k' kd' hm => ?_
        · show s.mtx k' = some u ↔ _
          split
          · rename_i he; subst he
            rw [h.mtx, hst]
            rfl
          · exact Iff.rfl
        · rcases List.mem_cons.mp hm with he | he
          · cases he
          · exact absurd he (no_sleep (h.tail hst))
    | calling k kd p => cases hs; exact h.free ht hst rfl rfl rfl rfl rfl (by simp)
    | inCb k kd => cases hs
    | relock k kd =>
      simp only [lockAnd] at hs
      split at hs <;> cases hs
      exact h.lock ht hst rfl ‹_› rfl rfl rfl rfl
    | unwind k kd =>
      simp only at hs
      split at hs <;> cases hs
      refine h.top ht rfl rfl (fun k' u => ?_) (fun g hg => h.tail hst g (List.mem_of_mem_tail hg)) fun k' kd' hm => absurd hm (no_sleep (h.tail hst))
      show s.mtx k' = some u ↔ _
      split
      · rename_i he; subst he
        simp [held_cb (h.tail hst), h.not_held hst rfl k']
      · exact Iff.rfl
    | check k kd to =>
      simp only at hs
      have hpop : ∀ s'' : State, s''.res = s.res → s''.stk = upd s.stk t fs → s''.mtx = upd s.mtx k none → Inv n s'' := fun s'' h1 h2 h3 =>
        h.unlock ht hst rfl h1 h2 h3 (held_cb (h.tail hst)) (fun g hg => h.tail hst g (List.mem_of_mem_tail hg)) fun k' kd' hm => absurd hm (no_sleep (h.tail hst))
      split at hs
      · cases hs; exact hpop _ rfl rfl rfl
      · rename_i hr
        split at hs <;> cases hs
        · exact hpop _ rfl rfl rfl
        · refine h.unlock ht hst rfl rfl rfl rfl rfl (h.tail hst) fun k' kd' hm => ?_
          rcases List.mem_cons.mp hm with he | he
          · cases he; exact hr
          · exact absurd he (no_sleep (h.tail hst))
    | asleep k kd ntf =>
      simp only at hs
      split at hs <;> cases hs
      exact h.free ht hst rfl rfl rfl rfl rfl (by simp)
    | awake k kd to =>
      simp only [lockAnd] at hs
      split at hs <;> cases hs
      exact h.lock ht hst rfl ‹_› rfl rfl rfl rfl

theorem Inv.step (h : Inv n s) {l : Label} {es : List Event} (hs : step n s l = some (s', es)) : Inv n s' := by
  unfold WaitCallback.step at hs
  split at hs
  rotate_left
  · cases hs
  rename_i hg
  obtain ⟨-, ht⟩ := hg
  cases l with
  | create t p =>
    simp only [act] at hs
    split at hs <;> cases hs
    exact h.same rfl rfl rfl
  | setCb t p =>
    simp only [act, setCb] at hs
    repeat' split at hs
    all_goals cases hs
    all_goals exact h.same rfl rfl rfl
  | move t p q =>
    simp only [act, move] at hs
    repeat' split at hs
    all_goals cases hs
    all_goals exact h.same rfl rfl rfl
  | destroy t p =>
    simp only [act, destroy] at hs
    repeat' split at hs
    all_goals cases hs
    all_goals first | exact h.same rfl rfl rfl | exact h.finish _ _ rfl rfl rfl
  | set t p r =>
    simp only [act, set] at hs
    repeat' split at hs
    all_goals cases hs
    all_goals first | exact h | exact h.same rfl rfl rfl | exact h.finish _ _ rfl rfl rfl
  | call t k kd =>
    simp only [Label.thread] at ht
    simp only [act] at hs
    split at hs <;> cases hs
    rename_i hf
    have hcb : ∀ f ∈ s.stk t, f.isCb = true := by
      unfold WaitCallback.free at hf
      intro f hm
      cases hst : s.stk t with
      | nil => rw [hst] at hm; cases hm
      | cons g gs =>
        have := h.tail hst
        rw [hst] at hm
        simp only [hst] at hf
        rcases List.mem_cons.mp hm with rfl | hm
        · cases f <;> simp_all [Frame.isCb]
        · exact this f hm
    refine h.top ht rfl rfl (fun k' u => ?_) hcb fun k' kd' hm => ?_
    · show s.mtx k' = some u ↔ _
      split
      · rename_i he; subst he
        rw [h.mtx, held_cb hcb]
        rfl
      · exact Iff.rfl
    · rcases List.mem_cons.mp hm with he | he
      · cases he
      · exact absurd he (no_sleep hcb)
  | go t => exact h.go ht hs
  | spurious t =>
    simp only [act] at hs
    split at hs <;> cases hs
    exact h.free ht ‹_› rfl rfl rfl rfl rfl (by simp)
  | timeout t =>
    simp only [act] at hs
    split at hs <;> cases hs
    exact h.free ht ‹_› rfl rfl rfl rfl rfl (by simp)
  | cbEnd t =>
    simp only [act] at hs
    split at hs <;> cases hs
    exact h.free ht ‹_› rfl rfl rfl rfl rfl (by simp)
  | cbThrow t =>
    simp only [act] at hs
    split at hs <;> cases hs
    exact h.free ht ‹_› rfl rfl rfl rfl rfl (by simp)

theorem reach_inv' {ls : List Label} {es : List Event} (h : run (WaitCallback.step n) WaitCallback.init ls = some (s, es)) : Inv n s :=
  run_inv (Inv n) (fun _ _ _ _ hi hs => hi.step hs) Inv.init h

theorem Inv.lt (h : Inv n s) {f : Frame} {fs : List Frame} (hst : s.stk t = f :: fs) : t < n := by
  refine Nat.lt_of_not_le fun hn => ?_
  rw [h.out t hn] at hst
  cases hst

/-- Steps of the library only. -/
def Goes (ls : List Label) : Prop := ∀ l ∈ ls, ∃ u, l = .go u

theorem step_go (hu : s.ub = false) (ht : t < n) : WaitCallback.step n s (.go t) = WaitCallback.go s t := by
  unfold WaitCallback.step
  rw [if_pos ⟨hu, ht⟩]
  rfl

/-- Whoever holds the mutex gives it back. -/
theorem release (h : Inv n s) (hub : s.ub = false) (k : Nat) : ∃ ls s' es, run (WaitCallback.step n) s ls = some (s', es) ∧ Goes ls ∧ Inv n s' ∧ s'.mtx k = none ∧ s'.res = s.res ∧ s'.obj = s.obj ∧ s'.ub = false ∧
    ∀ t, s.mtx k ≠ some t → s'.stk t = s.stk t := by
  have chk : ∀ {s : State}, Inv n s → s.ub = false → ∀ {t : Nat} {kd : Kind} {to : Bool} {fs : List Frame}, s.stk t = .check k kd to :: fs →
      ∃ s' es, WaitCallback.step n s (.go t) = some (s', es) ∧ s'.mtx k = none ∧ s'.res = s.res ∧ s'.obj = s.obj ∧ s'.ub = false ∧ ∀ u, u ≠ t → s'.stk u = s.stk u := by
    intro s h hub t kd to fs hst
    rw [step_go hub (h.lt hst)]
    simp only [WaitCallback.go, hst]
    cases hr : s.res k with
    | some r => exact ⟨_, _, rfl, by simp [upd_apply], rfl, rfl, hub, fun u hu => by simp [upd_apply, hu]⟩
    | none =>
      simp only
      cases to with
      | true => exact ⟨_, _, rfl, by simp [upd_apply], rfl, rfl, hub, fun u hu => by simp [upd_apply, hu]⟩
      | false => exact ⟨_, _, rfl, by simp [goto, upd_apply], rfl, rfl, hub, fun u hu => by simp [goto, upd_apply, hu]⟩
  cases hm : s.mtx k with
  | none => exact ⟨[], s, [], rfl, by simp [Goes], h, hm, rfl, rfl, hub, fun _ _ => rfl⟩
  | some t =>
    have hh := (h.mtx k t).mp hm
    cases hst : s.stk t with
    | nil => rw [hst] at hh; cases hh
    | cons f fs =>
      rw [hst] at hh
      have key : ∀ (ls : List Label) (s' : State) (es : List Event), run (WaitCallback.step n) s ls = some (s', es) → Inv n s' := fun ls s' es hr => run_inv (Inv n) (fun _ _ _ _ hi hs => hi.step hs) h hr
      cases f <;> simp [held, Frame.holds] at hh
      case check k' kd to =>
        subst hh
        obtain ⟨s', es, h1, h2, h3, h4, h5, h6⟩ := chk h hub hst
        have hr : run (WaitCallback.step n) s [.go t] = some (s', es ++ []) := run_step h1 run_nil
        exact ⟨_, _, _, hr, by simp [Goes], key _ _ _ hr, h2, h3, h4, h5, fun u hu => h6 u fun e => hu (by rw [e])⟩
      case locked k' kd =>
        subst hh
        cases hcr : (match s.cb k', s.res k' with | some p, none => some p | _, _ => none) with
        | some p =>
          have hstep : WaitCallback.step n s (.go t) = some ({ goto s t (.calling k' kd p) fs with mtx := upd s.mtx k' none }, []) := by
            rw [step_go hub (h.lt hst)]
            simp only [WaitCallback.go, hst]
            split at hcr <;> cases hcr
            rename_i h1 h2
            simp only [h1, h2]
          have hr := run_step hstep (run_nil (step := WaitCallback.step n))
          exact ⟨_, _, _, hr, by simp [Goes], key _ _ _ hr, by simp [upd_apply], rfl, rfl, hub, fun u hu => by
            have : u ≠ t := fun e => hu (by rw [e])
            simp [goto, upd_apply, this]⟩
        | none =>
          have hstep : WaitCallback.step n s (.go t) = some (goto s t (.check k' kd false) fs, []) := by
            rw [step_go hub (h.lt hst)]
            simp only [WaitCallback.go, hst]
            split at hcr
            · cases hcr
            · rename_i hno
              split
              · rename_i p h1 h2; exact absurd h2 (hno p h1)
              · rfl
          have hi := h.step hstep
          obtain ⟨s', es, h1, h2, h3, h4, h5, h6⟩ := chk (t := t) (kd := kd) (to := false) (fs := fs) hi hub (by simp [goto, upd_apply])
          have hr := run_step hstep (run_step h1 (run_nil (step := WaitCallback.step n)))
          exact ⟨_, _, _, hr, by simp [Goes], key _ _ _ hr, h2, h3, h4, h5, fun u hu => by
            have : u ≠ t := fun e => hu (by rw [e])
            rw [h6 u this]
            simp [goto, upd_apply, this]⟩

end Verif.WaitCallback
