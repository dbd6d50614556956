import Verif.AtExit.Step
/-! # Mutexes and promises: the model follows the contracts -/

namespace Verif.AtExit

set_option linter.unusedSimpArgs false

/-- The effects that are still to be carried out. -/
def pend (x : Data) : List Eff := if x.lib then x.left.getD (jobs x) else []

/-- The lists of a thread do not change: what is left to do neither. -/
theorem pend_release {s : St} {u : Nat} {x : Data}
    (hx : { x with own := (s.d u).own, set := (s.d u).set, obj := (s.d u).obj, copies := (s.d u).copies } = s.d u)
    (hn : (s.d u).lib = true → (s.d u).left = none) (w : Nat) (k : Kont) (v : Nat) :
    pend ((release s w u x k).d v) = pend (s.d v) ∧ ((release s w u x k).d v).lib = (s.d v).lib ∧ (release s w u x k).mx = s.mx ∧
      (release s w u x k).ps = s.ps := by
  have hl : x.lib = (s.d u).lib := by rw [← hx]
  have hleft : x.left = (s.d u).left := by rw [← hx]
  have hnot : x.notify = (s.d u).notify := by rw [← hx]
  have hsta : x.states = (s.d u).states := by rw [← hx]
  have hj : jobs x = jobs (s.d u) := by simp only [jobs, hl, hnot, hsta]
  unfold release
  by_cases hv : v = u
  · subst hv
    split
    · refine ⟨?_, by simp only [upd_same]; exact hl, rfl, rfl⟩
      simp only [upd_same, pend, hl]
      split
      · next h => rw [hn h, ← hj]; rfl
      · rfl
    · refine ⟨?_, by simp only [upd_same]; exact hl, rfl, rfl⟩
      simp only [upd_same, pend, hl, hleft, hj]
  · split
    · exact ⟨by simp only [upd_other _ _ hv], by simp only [upd_other _ _ hv], rfl, rfl⟩
    · exact ⟨by simp only [upd_other _ _ hv], by simp only [upd_other _ _ hv], rfl, rfl⟩

theorem Inv.none_of_ref {s : St} {h : List Event} (hi : Inv s h) {u : Nat} (hu : (s.d u).obj = true ∨ 0 < (s.d u).copies)
    (hl : (s.d u).lib = true) : (s.d u).left = none := by
  rw [(hi.data u).free' hl]
  rcases hu with hu | hu
  · simp [Data.free, hu]
  · simp only [Data.free]
    have : ((s.d u).copies == 0) = false := by simp; omega
    rw [this, Bool.and_false]

theorem same_upd {d : Nat → Data} {w : Nat} {x : Data} (h1 : x.lib = (d w).lib) (h2 : pend x = pend (d w)) (u : Nat) :
    (upd d w x u).lib = (d u).lib ∧ pend (upd d w x u) = pend (d u) := by
  by_cases hu : u = w
  · subst hu; simp only [upd_same]; exact ⟨h1, h2⟩
  · simp only [upd_other _ _ hu]; exact ⟨trivial, trivial⟩

/-- The data of a thread that has just been created. -/
theorem pend_created : pend Data.created = [] := rfl

/-- The destructor has something left to do: the thread was created by the library. -/
theorem Inv.lib_of_left {s : St} {h : List Event} (hi : Inv s h) {u : Nat} {f : Eff} {js : List Eff} (hleft : (s.d u).left = some (f :: js)) :
    (s.d u).lib = true := by
  cases hl : (s.d u).lib with
  | true => rfl
  | false =>
    have := (hi.data u).some' _ hleft
    simp [jobs, hl] at this

/-! ## Mutexes -/

/-- What the effects left to thread `u` mean for the mutexes. -/
structure MPend (u : Nat) (js : List Eff) (mx : Nat → Mx) : Prop where
  mem : ∀ m, Eff.unlock m ∈ js → mx m = .handed u
  one : ∀ m, js.count (.unlock m) ≤ 1

structure MRel (s : St) (σ : MSpec) : Prop where
  mx : σ.mx = s.mx
  lib : ∀ u, σ.lib u = (s.d u).lib
  pend : ∀ u, MPend u (pend (s.d u)) s.mx

theorem MPend.mutex {u : Nat} {js : List Eff} {mx : Nat → Mx} (h : MPend u js mx) {m : Nat} {a : Mx}
    (hm : ∀ u, mx m ≠ .handed u) : MPend u js (upd mx m a) :=
  { h with
    mem := fun k hk => by
      have := h.mem k hk
      by_cases hkm : k = m
      · subst hkm; exact absurd this (hm u)
      · rw [upd_other _ _ hkm]; exact this }

theorem MPend.perm {u : Nat} {js js' : List Eff} {mx : Nat → Mx} (h : MPend u js mx) (hp : js.Perm js') : MPend u js' mx where
  mem m hm := h.mem m (hp.mem_iff.mpr hm)
  one m := by rw [← hp.count_eq]; exact h.one m

theorem MPend.askNotify {u c m : Nat} {js : List Eff} {mx : Nat → Mx} (h : MPend u js mx) (hm : mx m = .held u) :
    MPend u (.unlock m :: .notify c :: js) (upd mx m (.handed u)) where
  mem k hk := by
    by_cases hkm : k = m
    · subst hkm; rw [upd_same]
    · rw [upd_other _ _ hkm]
      simp only [List.mem_cons, Eff.unlock.injEq, hkm, reduceCtorEq, false_or] at hk
      exact h.mem k hk
  one k := by
    by_cases hkm : k = m
    · subst hkm
      have : Eff.unlock k ∉ js := fun hk => by have := h.mem k hk; rw [hm] at this; cases this
      have h0 : js.count (Eff.unlock k) = 0 := List.count_eq_zero.mpr this
      simp [List.count_cons, h0]
    · have := h.one k
      simp only [List.count_cons, beq_iff_eq, Eff.unlock.injEq, reduceCtorEq, if_false, Ne.symm hkm]
      exact this

theorem MPend.askReady {u p : Nat} {js : List Eff} {mx : Nat → Mx} (h : MPend u js mx) : MPend u (.ready p :: js) mx where
  mem k hk := by
    simp only [List.mem_cons, reduceCtorEq, false_or] at hk
    exact h.mem k hk
  one k := by
    have := h.one k
    simpa [List.count_cons] using this

theorem MPend.tail {u : Nat} {f : Eff} {js : List Eff} {mx : Nat → Mx} (h : MPend u (f :: js) mx) : MPend u js mx where
  mem m hm := h.mem m (List.mem_cons_of_mem _ hm)
  one m := by have := h.one m; rw [List.count_cons] at this; omega

theorem MPend.notin {u m : Nat} {js : List Eff} {mx : Nat → Mx} (h : MPend u (.unlock m :: js) mx) : Eff.unlock m ∉ js := by
  have := h.one m
  rw [List.count_cons] at this
  intro hc
  have h2 := List.count_pos_iff.mpr hc
  simp only [beq_self_eq_true, if_true] at this
  omega

/-- Mutex `m` is unlocked by the effect of thread `u`. -/
theorem MPend.unlocked {u v m : Nat} {js : List Eff} {mx : Nat → Mx} (h : MPend v js mx) (hm : mx m = .handed u)
    (hn : v = u → Eff.unlock m ∉ js) : MPend v js (upd mx m .free) :=
  { h with
    mem := fun k hk => by
      have := h.mem k hk
      by_cases hkm : k = m
      · subst hkm
        rw [hm] at this
        cases this
        exact absurd hk (hn rfl)
      · rw [upd_other _ _ hkm]; exact this }

theorem MRel.same {s s' : St} {σ : MSpec} (hr : MRel s σ) (h1 : s'.mx = s.mx)
    (h3 : ∀ u, (s'.d u).lib = (s.d u).lib ∧ AtExit.pend (s'.d u) = AtExit.pend (s.d u)) : MRel s' σ where
  mx := by rw [h1]; exact hr.mx
  lib u := by rw [(h3 u).1]; exact hr.lib u
  pend u := by rw [(h3 u).2, h1]; exact hr.pend u

theorem MRel.release {s : St} {σ : MSpec} (hr : MRel s σ) {u : Nat} {x : Data}
    (hx : { x with own := (s.d u).own, set := (s.d u).set, obj := (s.d u).obj, copies := (s.d u).copies } = s.d u)
    (hn : (s.d u).lib = true → (s.d u).left = none) (w : Nat) (k : Kont) : MRel (release s w u x k) σ :=
  hr.same (pend_release hx hn w k u).2.2.1 fun v => ⟨(pend_release hx hn w k v).2.1, (pend_release hx hn w k v).1⟩

set_option maxHeartbeats 1000000 in
theorem midle_ok {s s' : St} {h es : List Event} {l : Label} {σ : MSpec} (hr : MRel s σ) (hi : Inv s h) (hp : s.pc l.who = .idle)
    (hs : stepIdle s l = some (s', es)) : Follows (nextM true) (MRel s') σ es := by
  cases l with
  | start w =>
    simp only [stepIdle, Option.some.injEq, Prod.mk.injEq] at hs
    obtain ⟨rfl, rfl⟩ := hs
    simp only [Follows, nextM]
    refine ⟨hr.mx, fun u => ?_, fun u => ?_⟩
    · by_cases hu : u = s.n
      · subst hu; simp only [upd_same]; rfl
      · simp only [upd_other _ _ hu]; exact hr.lib u
    · by_cases hu : u = s.n
      · subst hu
        simp only [upd_same, pend_created]
        constructor <;> simp
      · simp only [upd_other _ _ hu]; exact hr.pend u
  | mkData w =>
    simp only [stepIdle] at hs
    split at hs <;> cases hs
    simp only [Follows]
    exact hr.same rfl (same_upd rfl rfl)
  | lock w m =>
    simp only [stepIdle] at hs
    split at hs <;> cases hs
    next hm =>
    simp only [Follows, nextM, hr.mx, if_pos hm]
    exact ⟨rfl, hr.lib, fun u => (hr.pend u).mutex (by rw [hm]; simp)⟩
  | unlock w m =>
    simp only [stepIdle] at hs
    split at hs <;> cases hs
    next hm =>
    simp only [Follows, nextM, hr.mx, hm, true_or, if_true]
    exact ⟨rfl, hr.lib, fun u => (hr.pend u).mutex (by rw [hm]; simp)⟩
  | notifyExit w c m =>
    simp only [stepIdle] at hs
    split at hs
    case isFalse => cases hs
    next hm =>
    split at hs
    · split at hs <;> cases hs
      · next hl =>
        simp only [Follows, nextM, hr.mx, if_pos hm]
        refine ⟨rfl, fun u => ?_, fun u => ?_⟩
        · rw [hr.lib u]; exact (by simp only [upd]; split <;> simp_all)
        · by_cases hu : u = w
          · subst hu
            simp only [upd_same]
            refine ((hr.pend u).askNotify (c := c) hm).perm ?_
            have hln : (s.d u).left = none := (hi.left_none hp hl).2
            simp only [pend, hl, if_true, hln, Option.getD_none, jobs, List.flatMap_append, List.flatMap_cons,
              List.flatMap_nil, List.append_nil]
            rw [List.append_assoc]
            exact (List.perm_append_comm_assoc _ [Eff.unlock m, Eff.notify c] _).symm
          · simp only [upd_other _ _ hu]
            exact (hr.pend u).mutex (by rw [hm]; simp)
      · simp only [Follows, nextM, hr.mx, if_pos hm]
        exact ⟨rfl, hr.lib, fun u => (hr.pend u).mutex (by rw [hm]; simp)⟩
    · cases hs
      next hset =>
      have hl : (s.d w).lib = false := by
        cases hl : (s.d w).lib with
        | false => rfl
        | true => exact absurd (hi.hold w hl (hi.left_none hp hl).1).1 hset
      simp only [Follows, nextM, hr.mx, if_pos hm, upd_same, hr.lib w, hl, true_and, and_true, or_true, if_true]
      refine ⟨?_, hr.lib, fun u => (hr.pend u).mutex (by rw [hm]; simp)⟩
      funext i
      by_cases hi : i = m
      · subst hi; simp only [upd_same]
      · simp only [upd_other _ _ hi]
  | setExit w p r =>
    simp only [stepIdle] at hs
    split at hs
    case isFalse => cases hs
    split at hs
    · cases hs
      simp only [Follows, nextM]
      exact hr
    · split at hs <;> cases hs
      · simp only [Follows, nextM]
        refine ⟨hr.mx, fun u => ?_, fun u => ?_⟩
        · rw [hr.lib u]; exact (by simp only [upd]; split <;> simp_all)
        · by_cases hu : u = w
          · subst hu
            simp only [upd_same]
            cases hl : (s.d u).lib with
            | true =>
              refine ((hr.pend u).askReady (p := p)).perm ?_
              have hln : (s.d u).left = none := (hi.left_none hp hl).2
              simp only [pend, hl, if_true, hln, Option.getD_none, jobs, List.map_append, List.map_cons, List.map_nil]
              rw [← List.append_assoc]
              exact (List.perm_append_singleton _ _).symm
            | false =>
              simp only [pend, hl, Bool.false_eq_true, if_false]
              constructor <;> simp
          · simp only [upd_other _ _ hu]
            exact hr.pend u
      · simp only [Follows, nextM]
        exact hr.same rfl fun _ => ⟨rfl, rfl⟩
  | setNow w p r =>
    simp only [stepIdle] at hs
    split at hs
    case isFalse => cases hs
    split at hs <;> cases hs <;> simp only [Follows, nextM] <;> exact hr.same rfl fun _ => ⟨rfl, rfl⟩
  | destroy w p =>
    simp only [stepIdle] at hs
    split at hs <;> cases hs
    simp only [Follows, nextM]
    exact hr.same rfl fun _ => ⟨rfl, rfl⟩
  | get w p =>
    simp only [stepIdle] at hs
    split at hs <;> cases hs
    simp only [Follows, nextM]
    exact hr
  | ret w =>
    simp only [stepIdle] at hs
    split at hs <;> cases hs
    simp only [Follows]
    exact hr.same rfl (same_upd rfl rfl)
  | leave w =>
    simp only [stepIdle] at hs
    split at hs <;> cases hs
    simp only [Follows, nextM]
    refine hr.release ?_ (fun hl => (hi.left_none hp hl).2) w _
    rfl
  | join w u =>
    simp only [stepIdle] at hs
    split at hs <;> cases hs
    simp only [Follows]
    exact hr.same rfl (fun _ => ⟨rfl, rfl⟩)
  | detach w u =>
    simp only [stepIdle] at hs
    split at hs <;> cases hs
    next ho =>
    simp only [Follows, nextM]
    refine hr.release ?_ (hi.none_of_ref (Or.inl ho)) w _
    rfl
  | copy w u =>
    simp only [stepIdle] at hs
    split at hs <;> cases hs
    simp only [Follows, nextM]
    exact hr.same rfl (same_upd rfl rfl)
  | uncopy w u =>
    simp only [stepIdle] at hs
    split at hs <;> cases hs
    next ho =>
    simp only [Follows, nextM]
    refine hr.release ?_ (hi.none_of_ref (Or.inr ho)) w _
    rfl
  | joinEnd w => cases hs
  | go w => cases hs

theorem mfinishUp_ok {s : St} {σ : MSpec} (hr : MRel s σ) (w : Nat) (k : Kont) : Follows (nextM true) (MRel (finishUp s w k).1) σ (finishUp s w k).2 := by
  cases k <;> simp only [finishUp, Follows, nextM] <;> exact hr.same rfl (fun _ => ⟨rfl, rfl⟩)

theorem mrel_ok {s s' : St} {h es : List Event} {l : Label} {σ : MSpec} (hr : MRel s σ) (hi : Inv s h) (hs : step s l = some (s', es)) :
    Follows (nextM true) (MRel s') σ es := by
  unfold step at hs
  split at hs
  · next hp => exact midle_ok hr hi hp hs
  · next u hp =>
    split at hs
    case h_2 => cases hs
    split at hs <;> cases hs
    next w ho =>
    simp only [Follows, nextM]
    refine hr.release ?_ (hi.none_of_ref (Or.inl ho.2)) w _
    rfl
  · next u k hp =>
    split at hs
    · next w f js hleft =>
      cases hs
      have hlib := hi.lib_of_left hleft
      have hp : AtExit.pend (s.d u) = f :: js := by simp only [AtExit.pend, hlib, if_true, hleft, Option.getD_some]
      have hp' : AtExit.pend { s.d u with left := some js } = js := by simp only [AtExit.pend, hlib, if_true, Option.getD_some]
      have hu := hr.pend u
      rw [hp] at hu
      have hl' : ∀ v, σ.lib v = (upd s.d u { s.d u with left := some js } v).lib := by
        intro v; rw [hr.lib v]; simp only [upd]; split <;> simp_all
      cases f with
      | unlock m =>
        have hm := hu.mem m (List.mem_cons_self ..)
        simp only [Follows, nextM, perform, hr.mx, if_pos hm]
        refine ⟨rfl, hl', fun v => ?_⟩
        by_cases hv : v = u
        · subst hv
          simp only [upd_same, hp']
          exact hu.tail.unlocked hm fun _ => hu.notin
        · simp only [upd_other _ _ hv]
          exact (hr.pend v).unlocked hm fun h => absurd h hv
      | notify c =>
        simp only [Follows, nextM, perform]
        refine ⟨hr.mx, hl', fun v => ?_⟩
        by_cases hv : v = u
        · subst hv
          simp only [upd_same, hp']
          exact hu.tail
        · simp only [upd_other _ _ hv]
          exact hr.pend v
      | ready p =>
        simp only [Follows, nextM, perform]
        refine ⟨hr.mx, hl', fun v => ?_⟩
        by_cases hv : v = u
        · subst hv
          simp only [upd_same, hp']
          exact hu.tail
        · simp only [upd_other _ _ hv]
          exact hr.pend v
    · next w hno =>
      simp only [Option.some.injEq] at hs
      have := mfinishUp_ok hr w k
      rw [hs] at this
      exact this
    · cases hs
  · next k hp =>
    split at hs
    · next w =>
      simp only [Option.some.injEq] at hs
      have := mfinishUp_ok hr w k
      rw [hs] at this
      exact this
    · cases hs
  · cases hs

def MR (s : St) (σ : MSpec) : Prop := MRel s σ ∧ ∃ h, Inv s h

theorem mr_init (n : Nat) : MR (init n) MSpec.start := by
  refine ⟨⟨rfl, fun _ => rfl, fun u => ?_⟩, [], inv_init n⟩
  constructor <;> simp [pend, init, Data.external]

theorem mstep_ok {s s' : St} {es : List Event} {l : Label} {σ : MSpec} (hr : MR s σ) (hs : step s l = some (s', es)) :
    Follows (nextM true) (MR s') σ es := by
  obtain ⟨hr, h, hi⟩ := hr
  exact Follows.and (mrel_ok hr hi hs) ⟨_, inv_step hi hs⟩

/-! ## Promises -/

/-- The shared state of a promise and what the contract knows of it. -/
def PrRel (x : Ps) : Pr → Prop
  | .unset => x.done = false ∧ x.cons = false ∧ x.exc = none ∧ x.val = none
  | .stored _ r => x.done = false ∧ x.cons = true ∧ x.res = r
  | .ready r => x.done = true ∧ x.res = r

/-- What the effects left to thread `u` mean for the promises. -/
structure PPend (u : Nat) (js : List Eff) (pr : Nat → Pr) : Prop where
  mem : ∀ p, Eff.ready p ∈ js → ∃ r, pr p = .stored u r
  one : ∀ p, js.count (.ready p) ≤ 1

structure PRel (s : St) (σ : Nat → Pr) : Prop where
  pr : ∀ p, PrRel (s.ps p) (σ p)
  pend : ∀ u, PPend u (pend (s.d u)) σ

theorem PPend.promise {u : Nat} {js : List Eff} {pr : Nat → Pr} (h : PPend u js pr) {p : Nat} {a : Pr}
    (hp : ∀ u r, pr p ≠ .stored u r) : PPend u js (upd pr p a) :=
  { h with
    mem := fun k hk => by
      obtain ⟨r, hr⟩ := h.mem k hk
      by_cases hkp : k = p
      · subst hkp; exact absurd hr (hp u r)
      · exact ⟨r, by rw [upd_other _ _ hkp]; exact hr⟩ }

theorem PPend.perm {u : Nat} {js js' : List Eff} {pr : Nat → Pr} (h : PPend u js pr) (hp : js.Perm js') : PPend u js' pr where
  mem p hm := h.mem p (hp.mem_iff.mpr hm)
  one p := by rw [← hp.count_eq]; exact h.one p

theorem PPend.askNotify {u c m : Nat} {js : List Eff} {pr : Nat → Pr} (h : PPend u js pr) : PPend u (.unlock m :: .notify c :: js) pr where
  mem p hp := by
    simp only [List.mem_cons, reduceCtorEq, false_or] at hp
    exact h.mem p hp
  one p := by
    have := h.one p
    simpa [List.count_cons] using this

theorem PPend.askReady {u p : Nat} {r : Res} {js : List Eff} {pr : Nat → Pr} (h : PPend u js pr) (hp : pr p = .unset) :
    PPend u (.ready p :: js) (upd pr p (.stored u r)) where
  mem k hk := by
    by_cases hkp : k = p
    · subst hkp; exact ⟨r, by rw [upd_same]⟩
    · simp only [List.mem_cons, Eff.ready.injEq, hkp, false_or] at hk
      rw [upd_other _ _ hkp]
      exact h.mem k hk
  one k := by
    by_cases hkp : k = p
    · subst hkp
      have : Eff.ready k ∉ js := fun hk => by obtain ⟨r, hr⟩ := h.mem k hk; rw [hp] at hr; cases hr
      have h0 : js.count (Eff.ready k) = 0 := List.count_eq_zero.mpr this
      simp [List.count_cons, h0]
    · have := h.one k
      simp only [List.count_cons, beq_iff_eq, Eff.ready.injEq, Ne.symm hkp, if_false]
      exact this

theorem PPend.tail {u : Nat} {f : Eff} {js : List Eff} {pr : Nat → Pr} (h : PPend u (f :: js) pr) : PPend u js pr where
  mem p hp := h.mem p (List.mem_cons_of_mem _ hp)
  one p := by have := h.one p; rw [List.count_cons] at this; omega

theorem PPend.notin {u p : Nat} {js : List Eff} {pr : Nat → Pr} (h : PPend u (.ready p :: js) pr) : Eff.ready p ∉ js := by
  have := h.one p
  rw [List.count_cons] at this
  intro hc
  have h2 := List.count_pos_iff.mpr hc
  simp only [beq_self_eq_true, if_true] at this
  omega

theorem PPend.readied {u v p : Nat} {r r' : Res} {js : List Eff} {pr : Nat → Pr} (h : PPend v js pr) (hp : pr p = .stored u r)
    (hn : v = u → Eff.ready p ∉ js) : PPend v js (upd pr p (.ready r')) :=
  { h with
    mem := fun k hk => by
      obtain ⟨r2, hr⟩ := h.mem k hk
      by_cases hkp : k = p
      · subst hkp
        rw [hp] at hr
        cases hr
        exact absurd hk (hn rfl)
      · exact ⟨r2, by rw [upd_other _ _ hkp]; exact hr⟩ }

theorem pr_upd {ps : Nat → Ps} {pr : Nat → Pr} (h : ∀ p, PrRel (ps p) (pr p)) {p : Nat} {x : Ps} {a : Pr} (hx : PrRel x a) :
    ∀ q, PrRel (upd ps p x q) (upd pr p a q) := by
  intro q
  by_cases hq : q = p
  · subst hq; simp only [upd_same]; exact hx
  · simp only [upd_other _ _ hq]; exact h q

theorem pr_upd' {ps : Nat → Ps} {pr : Nat → Pr} (h : ∀ p, PrRel (ps p) (pr p)) {p : Nat} {x : Ps} (hx : PrRel x (pr p)) :
    ∀ q, PrRel (upd ps p x q) (pr q) := by
  intro q
  by_cases hq : q = p
  · subst hq; simp only [upd_same]; exact hx
  · simp only [upd_other _ _ hq]; exact h q

theorem defer_unset {x y : Ps} {r : Res} (h : PrRel x .unset) (hp : plain r = true) (hd : defer x r = some y) (u : Nat) :
    PrRel y (.stored u r) := by
  obtain ⟨h1, h2, h3, h4⟩ := h
  simp only [defer, h1, Bool.false_and, Bool.false_eq_true, if_false] at hd
  cases r with
  | val v => cases hd; exact ⟨rfl, rfl, by simp [Ps.res, h3]⟩
  | exc e => cases hd; exact ⟨rfl, rfl, by simp [Ps.res]⟩
  | broken => cases hp

theorem setNow_unset {x y : Ps} {r : Res} (h : PrRel x .unset) (hp : plain r = true) (hd : setNow x r = some y) :
    PrRel y (.ready r) := by
  obtain ⟨h1, h2, h3, h4⟩ := h
  simp only [setNow, h1, Bool.false_eq_true, if_false] at hd
  cases r with
  | val v => cases hd; exact ⟨rfl, by simp [Ps.res, h3]⟩
  | exc e => cases hd; exact ⟨rfl, by simp [Ps.res]⟩
  | broken => cases hp

theorem setNow_none {x : Ps} {r : Res} (hd : setNow x r = none) : x.done = true := by
  unfold setNow at hd
  split at hd
  · assumption
  · cases r <;> cases hd

theorem defer_none {x : Ps} {r : Res} (hd : defer x r = none) : x.done = true := by
  unfold defer at hd
  split at hd
  · next h => simp only [Bool.and_eq_true] at h; exact h.1
  · cases r <;> cases hd

theorem not_unset {x : Ps} {a : Pr} (h : PrRel x a) (hd : x.done = true) : a ≠ .unset := by
  rintro rfl
  rw [h.1] at hd
  cases hd

theorem PRel.same {s s' : St} {σ : Nat → Pr} (hr : PRel s σ) (h1 : s'.ps = s.ps)
    (h3 : ∀ u, (s'.d u).lib = (s.d u).lib ∧ AtExit.pend (s'.d u) = AtExit.pend (s.d u)) : PRel s' σ where
  pr := by rw [h1]; exact hr.pr
  pend u := by rw [(h3 u).2]; exact hr.pend u

theorem PRel.release {s : St} {σ : Nat → Pr} (hr : PRel s σ) {u : Nat} {x : Data}
    (hx : { x with own := (s.d u).own, set := (s.d u).set, obj := (s.d u).obj, copies := (s.d u).copies } = s.d u)
    (hn : (s.d u).lib = true → (s.d u).left = none) (w : Nat) (k : Kont) : PRel (release s w u x k) σ :=
  hr.same (pend_release hx hn w k u).2.2.2 fun v => ⟨(pend_release hx hn w k v).2.1, (pend_release hx hn w k v).1⟩

set_option maxHeartbeats 1000000 in
theorem pidle_ok {s s' : St} {h es : List Event} {l : Label} {σ : Nat → Pr} (hr : PRel s σ) (hi : Inv s h) (hp : s.pc l.who = .idle)
    (hs : stepIdle s l = some (s', es)) : Follows (nextP true) (PRel s') σ es := by
  cases l with
  | start w =>
    simp only [stepIdle, Option.some.injEq, Prod.mk.injEq] at hs
    obtain ⟨rfl, rfl⟩ := hs
    simp only [Follows, nextP]
    refine ⟨hr.pr, fun u => ?_⟩
    by_cases hu : u = s.n
    · subst hu
      simp only [upd_same, pend_created]
      constructor <;> simp
    · simp only [upd_other _ _ hu]; exact hr.pend u
  | mkData w =>
    simp only [stepIdle] at hs
    split at hs <;> cases hs
    simp only [Follows]
    exact hr.same rfl (same_upd rfl rfl)
  | lock w m =>
    simp only [stepIdle] at hs
    split at hs <;> cases hs
    simp only [Follows, nextP]
    exact hr.same rfl (fun _ => ⟨rfl, rfl⟩)
  | unlock w m =>
    simp only [stepIdle] at hs
    split at hs <;> cases hs
    simp only [Follows, nextP]
    exact hr.same rfl (fun _ => ⟨rfl, rfl⟩)
  | notifyExit w c m =>
    simp only [stepIdle] at hs
    split at hs
    case isFalse => cases hs
    split at hs
    · split at hs <;> cases hs
      · next hl =>
        simp only [Follows, nextP]
        refine ⟨hr.pr, fun u => ?_⟩
        by_cases hu : u = w
        · subst hu
          simp only [upd_same]
          refine ((hr.pend u).askNotify (c := c) (m := m)).perm ?_
          have hln : (s.d u).left = none := (hi.left_none hp hl).2
          simp only [pend, hl, if_true, hln, Option.getD_none, jobs, List.flatMap_append, List.flatMap_cons,
            List.flatMap_nil, List.append_nil]
          rw [List.append_assoc]
          exact (List.perm_append_comm_assoc _ [Eff.unlock m, Eff.notify c] _).symm
        · simp only [upd_other _ _ hu]
          exact hr.pend u
      · simp only [Follows, nextP]
        exact hr.same rfl (fun _ => ⟨rfl, rfl⟩)
    · cases hs
      simp only [Follows, nextP]
      exact hr.same rfl (fun _ => ⟨rfl, rfl⟩)
  | setExit w p r =>
    simp only [stepIdle] at hs
    split at hs
    case isFalse => cases hs
    next ha =>
    simp only [Bool.and_eq_true] at ha
    have hR := hr.pr p
    split at hs
    · next hd =>
      cases hs
      simp only [Follows, nextP, if_neg (not_unset hR (defer_none hd))]
      exact hr
    · next x hd =>
      cases hpr : σ p with
      | unset =>
        rw [hpr] at hR
        have hx := defer_unset hR ha.2 hd w
        split at hs <;> cases hs
        · simp only [Follows, nextP, hpr]
          refine ⟨pr_upd hr.pr hx, fun u => ?_⟩
          · by_cases hu : u = w
            · subst hu
              simp only [upd_same]
              cases hl : (s.d u).lib with
              | true =>
                refine ((hr.pend u).askReady hpr).perm ?_
                have hln : (s.d u).left = none := (hi.left_none hp hl).2
                simp only [pend, hl, if_true, hln, Option.getD_none, jobs, List.map_append, List.map_cons, List.map_nil]
                rw [← List.append_assoc]
                exact (List.perm_append_singleton _ _).symm
              | false =>
                simp only [pend, hl, Bool.false_eq_true, if_false]
                constructor <;> simp
            · simp only [upd_other _ _ hu]
              exact (hr.pend u).promise (by rw [hpr]; simp)
        · simp only [Follows, nextP, hpr]
          exact ⟨pr_upd hr.pr hx, fun u => (hr.pend u).promise (by rw [hpr]; simp)⟩
      | stored u r' =>
        split at hs <;> cases hs <;> simp only [Follows, nextP, hpr, if_true]
      | ready r' =>
        split at hs <;> cases hs <;> simp only [Follows, nextP, hpr, if_true]
  | setNow w p r =>
    simp only [stepIdle] at hs
    split at hs
    case isFalse => cases hs
    next ha =>
    simp only [Bool.and_eq_true] at ha
    have hR := hr.pr p
    split at hs
    · next hd =>
      cases hs
      simp only [Follows, nextP, if_neg (not_unset hR (setNow_none hd))]
      exact hr
    · next x hd =>
      cases hs
      cases hpr : σ p with
      | unset =>
        rw [hpr] at hR
        simp only [Follows, nextP, hpr]
        exact ⟨pr_upd hr.pr (setNow_unset hR ha.2 hd), fun u => (hr.pend u).promise (by rw [hpr]; simp)⟩
      | stored u r' => simp only [Follows, nextP, hpr, if_true]
      | ready r' => simp only [Follows, nextP, hpr, if_true]
  | destroy w p =>
    simp only [stepIdle] at hs
    split at hs <;> cases hs
    have hR := hr.pr p
    cases hpr : σ p with
    | unset =>
      rw [hpr] at hR
      simp only [Follows, nextP, hpr, if_true]
      refine ⟨pr_upd hr.pr ?_, fun u => (hr.pend u).promise (by rw [hpr]; simp)⟩
      simp only [abandon, hR.1, hR.2.1, Bool.not_false, Bool.and_true, if_true]
      exact ⟨rfl, rfl⟩
    | stored u r' =>
      simp only [Follows, nextP, hpr, reduceCtorEq, if_false]
      refine ⟨pr_upd' hr.pr ?_, hr.pend⟩
      rw [hpr] at hR ⊢
      simp only [abandon, hR.2.1, Bool.not_true, Bool.and_false, Bool.false_eq_true, if_false]
      exact ⟨hR.1, rfl, hR.2.2⟩
    | ready r' =>
      simp only [Follows, nextP, hpr, reduceCtorEq, if_false]
      refine ⟨pr_upd' hr.pr ?_, hr.pend⟩
      rw [hpr] at hR ⊢
      simp only [abandon, hR.1, Bool.not_true, Bool.false_and, Bool.false_eq_true, if_false]
      exact ⟨rfl, hR.2⟩
  | get w p =>
    simp only [stepIdle] at hs
    split at hs <;> cases hs
    next hd =>
    have hR := hr.pr p
    cases hpr : σ p with
    | unset => rw [hpr] at hR; rw [hR.1] at hd; cases hd
    | stored u r' => rw [hpr] at hR; rw [hR.1] at hd; cases hd
    | ready r' =>
      rw [hpr] at hR
      simp only [Follows, nextP, hpr, hR.2, if_true]
      exact hr
  | ret w =>
    simp only [stepIdle] at hs
    split at hs <;> cases hs
    simp only [Follows]
    exact hr.same rfl (same_upd rfl rfl)
  | leave w =>
    simp only [stepIdle] at hs
    split at hs <;> cases hs
    simp only [Follows, nextP]
    refine hr.release ?_ (fun hl => (hi.left_none hp hl).2) w _
    rfl
  | join w u =>
    simp only [stepIdle] at hs
    split at hs <;> cases hs
    simp only [Follows]
    exact hr.same rfl (fun _ => ⟨rfl, rfl⟩)
  | detach w u =>
    simp only [stepIdle] at hs
    split at hs <;> cases hs
    next ho =>
    simp only [Follows, nextP]
    refine hr.release ?_ (hi.none_of_ref (Or.inl ho)) w _
    rfl
  | copy w u =>
    simp only [stepIdle] at hs
    split at hs <;> cases hs
    simp only [Follows, nextP]
    exact hr.same rfl (same_upd rfl rfl)
  | uncopy w u =>
    simp only [stepIdle] at hs
    split at hs <;> cases hs
    next ho =>
    simp only [Follows, nextP]
    refine hr.release ?_ (hi.none_of_ref (Or.inr ho)) w _
    rfl
  | joinEnd w => cases hs
  | go w => cases hs

theorem pfinishUp_ok {s : St} {σ : Nat → Pr} (hr : PRel s σ) (w : Nat) (k : Kont) : Follows (nextP true) (PRel (finishUp s w k).1) σ (finishUp s w k).2 := by
  cases k <;> simp only [finishUp, Follows, nextP] <;> exact hr.same rfl (fun _ => ⟨rfl, rfl⟩)

theorem prel_ok {s s' : St} {h es : List Event} {l : Label} {σ : Nat → Pr} (hr : PRel s σ) (hi : Inv s h) (hs : step s l = some (s', es)) :
    Follows (nextP true) (PRel s') σ es := by
  unfold step at hs
  split at hs
  · next hp => exact pidle_ok hr hi hp hs
  · next u hp =>
    split at hs
    case h_2 => cases hs
    split at hs <;> cases hs
    next w ho =>
    simp only [Follows, nextP]
    refine hr.release ?_ (hi.none_of_ref (Or.inl ho.2)) w _
    rfl
  · next u k hp =>
    split at hs
    · next w f js hleft =>
      cases hs
      have hlib := hi.lib_of_left hleft
      have hp : AtExit.pend (s.d u) = f :: js := by simp only [AtExit.pend, hlib, if_true, hleft, Option.getD_some]
      have hp' : AtExit.pend { s.d u with left := some js } = js := by simp only [AtExit.pend, hlib, if_true, Option.getD_some]
      have hu := hr.pend u
      rw [hp] at hu
      have hstay : ∀ v, PPend v (AtExit.pend (upd s.d u { s.d u with left := some js } v)) σ := by
        intro v
        by_cases hv : v = u
        · subst hv
          simp only [upd_same, hp']
          exact hu.tail
        · simp only [upd_other _ _ hv]
          exact hr.pend v
      cases f with
      | unlock m =>
        simp only [Follows, nextP, perform]
        exact ⟨hr.pr, hstay⟩
      | notify c =>
        simp only [Follows, nextP, perform]
        exact ⟨hr.pr, hstay⟩
      | ready p =>
        obtain ⟨r, hm⟩ := hu.mem p (List.mem_cons_self ..)
        simp only [Follows, nextP, perform, hm, if_true]
        have hR := hr.pr p
        rw [hm] at hR
        refine ⟨pr_upd hr.pr ⟨rfl, hR.2.2⟩, fun v => ?_⟩
        by_cases hv : v = u
        · subst hv
          simp only [upd_same, hp']
          exact hu.tail.readied hm fun _ => hu.notin
        · simp only [upd_other _ _ hv]
          exact (hr.pend v).readied hm fun h => absurd h hv
    · next w hno =>
      simp only [Option.some.injEq] at hs
      have := pfinishUp_ok hr w k
      rw [hs] at this
      exact this
    · cases hs
  · next k hp =>
    split at hs
    · next w =>
      simp only [Option.some.injEq] at hs
      have := pfinishUp_ok hr w k
      rw [hs] at this
      exact this
    · cases hs
  · cases hs

def PR (s : St) (σ : Nat → Pr) : Prop := PRel s σ ∧ ∃ h, Inv s h

theorem pr_init (n : Nat) : PR (init n) (fun _ => .unset) := by
  refine ⟨⟨fun p => ⟨rfl, rfl, rfl, rfl⟩, fun u => ?_⟩, [], inv_init n⟩
  constructor <;> simp [pend, init, Data.external]

theorem pstep_ok {s s' : St} {es : List Event} {l : Label} {σ : Nat → Pr} (hr : PR s σ) (hs : step s l = some (s', es)) :
    Follows (nextP true) (PR s') σ es := by
  obtain ⟨hr, h, hi⟩ := hr
  exact Follows.and (prel_ok hr hi hs) ⟨_, inv_step hi hs⟩

end Verif.AtExit
