import Verif.Lifetime.Sim
/-!
# The simulation, continued
-/

set_option linter.unusedSimpArgs false
set_option linter.unusedVariables false

namespace Verif.Lifetime

/-- The thread of `d` comes to call the function. -/
theorem Inv.began {P : Plat} {s : State} {σ : Spec} (h : Inv P s σ) (d : Nat) (hd : d < s.nr) (x : Rec) (hp : pre (s.dat d).stage = true)
    (hst : x.stage = .body) (hthr : x.thr = (s.dat d).thr) (hl : (s.dat d).lib = true) (hlib : x.lib = (s.dat d).lib)
    (hloc : Loc P (nref s.refs d) x (.running x.thr) (σ.dead d)) :
    Inv P { setRec s d x with cur := upd s.cur x.thr (some d) } { σ with use := upd σ.use d (.running x.thr) } := by
  have g := h.gl d hd
  have hcn := g.pre hp
  have hsp : spawnedS (s.dat d).stage = true := by cases hx : (s.dat d).stage <;> simp_all [pre, spawnedS]
  have hlt := g.lib hl hsp
  have hnt := (h.lib _ _ hlt).2.2.2.2
  rw [← hthr] at hcn hlt hnt
  refine h.set d (fun d' hd' => Or.inr hd') (Nat.le_refl _) hd h.n ?_ h.refs h.names h.bound (fun _ _ => rfl) ?_ ?_ ?_ (Nat.le_refl _) ?_ ?_ ?_ ?_
  · intro d' e; simp [setRec, upd_ne e]
  · intro d' e; simp [upd_ne e]
  · simpa [setRec] using hloc
  · simp only [setRec, upd_same]
    exact ⟨fun _ => by simp, fun hc => by simp [hst, pre] at hc, fun _ _ => hlt, fun hc => by simp [hlib, hl] at hc⟩
  · intro d' e hd'
    have g' := h.gl d' hd'
    refine ⟨fun hc => ?_, fun hc => ?_, g'.lib, g'.xc⟩
    · have h1 := g'.cur hc
      simp only [setRec]
      rw [upd_ne]; exact h1
      intro e'; rw [e'] at h1; simp [h1] at hcn
    · have h1 := g'.pre hc
      simp only [setRec]
      rw [upd_ne]; exact h1
      intro e'
      have hk := (h.loc d' hd').kind
      have hl' : (s.dat d').lib = true := by cases hx : (s.dat d').stage <;> simp_all [pre, kind]
      have hsp' : spawnedS (s.dat d').stage = true := by cases hx : (s.dat d').stage <;> simp_all [pre, spawnedS]
      have := g'.lib hl' hsp'
      rw [e', hlt] at this
      exact e (by simpa using this.symm)
  · intro t d' hc
    simp only [setRec] at hc
    by_cases e : t = x.thr
    · subst e; simp only [upd_same, Option.some.injEq] at hc; subst hc
      exact Or.inr ⟨rfl, by simp [setRec], by simp [setRec, hst, inCur], hnt⟩
    · rw [upd_ne e] at hc
      refine Or.inl ⟨fun e' => ?_, hc⟩
      subst e'
      exact e ((h.cur t _ hc).2.1.symm.trans hthr.symm)
  · intro t d' hc
    simp only [setRec] at hc
    by_cases e : d' = d
    · subst e; obtain ⟨a1, a2, a3, a4, a5⟩ := h.lib t _ hc
      exact Or.inr ⟨rfl, by simp [setRec, hthr, a2], by simp [setRec, hlib, a3], by simp [setRec, hst, spawnedS], a5⟩
    · exact Or.inl ⟨e, hc⟩
  · intro t d' hc
    simp only [setRec] at hc
    refine Or.inl ⟨fun e => ?_, hc⟩
    subst e
    have := (h.xc t _ hc).2.2.1
    simp [hl] at this

/-- The thread of `d` forgets that they are its data. -/
theorem Inv.unset {P : Plat} {s : State} {σ : Spec} (h : Inv P s σ) (d : Nat) (hd : d < s.nr) (x : Rec) (hic : inCur (s.dat d).stage = true)
    (hst : x.stage = .unset) (hthr : x.thr = (s.dat d).thr) (hlib : x.lib = (s.dat d).lib) (hx : x.lib = false → inXc (s.dat d).stage = true)
    (hloc : Loc P (nref s.refs d) x (σ.use d) (σ.dead d)) :
    Inv P { setRec s d x with cur := upd s.cur x.thr none } σ := by
  have g := h.gl d hd
  have hcd := g.cur hic
  rw [← hthr] at hcd
  have hk := (h.loc d hd).kind
  refine h.set d (fun d' hd' => Or.inr hd') (Nat.le_refl _) hd h.n ?_ h.refs h.names h.bound (fun _ _ => rfl) (fun _ _ => ⟨rfl, rfl⟩) ?_ ?_ (Nat.le_refl _) ?_ ?_ ?_ ?_
  · intro d' e; simp [setRec, upd_ne e]
  · simpa [setRec] using hloc
  · simp only [setRec, upd_same]
    refine ⟨fun hc => by simp [hst, inCur] at hc, fun hc => by simp [hst, pre] at hc, fun a _ => ?_, fun a b => ?_⟩
    · rw [hthr]; refine g.lib (hlib ▸ a) ?_
      rw [hlib] at a
      cases hx : (s.dat d).stage <;> simp_all [inCur, spawnedS, kind]
    · rw [hthr]; exact g.xc (hlib ▸ a) (hx a)
  · intro d' e hd'
    have g' := h.gl d' hd'
    refine ⟨fun hc => ?_, fun hc => ?_, g'.lib, g'.xc⟩
    · have h1 := g'.cur hc
      simp only [setRec]
      rw [upd_ne]; exact h1
      intro e'; rw [e', hcd] at h1; exact e (by simpa using h1.symm)
    · have h1 := g'.pre hc
      simp only [setRec, upd]
      split
      · rfl
      · exact h1
  · intro t d' hc
    simp only [setRec] at hc
    by_cases e : t = x.thr
    · subst e; simp at hc
    · rw [upd_ne e] at hc
      refine Or.inl ⟨fun e' => ?_, hc⟩
      subst e'
      exact e ((h.cur t _ hc).2.1.symm.trans hthr.symm)
  · intro t d' hc
    simp only [setRec] at hc
    by_cases e : d' = d
    · subst e; obtain ⟨a1, a2, a3, a4, a5⟩ := h.lib t _ hc
      exact Or.inr ⟨rfl, by simp [setRec, hthr, a2], by simp [setRec, hlib, a3], by simp [setRec, hst, spawnedS], a5⟩
    · exact Or.inl ⟨e, hc⟩
  · intro t d' hc
    simp only [setRec] at hc
    by_cases e : d' = d
    · subst e; obtain ⟨a1, a2, a3, a4⟩ := h.xc t _ hc
      exact Or.inr ⟨rfl, by simp [setRec, hthr, a2], by simp [setRec, hlib, a3], by simp [setRec, hst, inXc]⟩
    · exact Or.inl ⟨e, hc⟩

/-- The thread of `d`, data without a function, has finished with them. -/
theorem Inv.xover {P : Plat} {s : State} {σ : Spec} (h : Inv P s σ) (d : Nat) (hd : d < s.nr) (x : Rec) (hl : (s.dat d).lib = false)
    (hst : x.stage = .over) (hthr : x.thr = (s.dat d).thr) (hlib : x.lib = (s.dat d).lib) (hx : inXc (s.dat d).stage = true)
    (hcn : inCur (s.dat d).stage = false)
    (hloc : Loc P (nref s.refs d) x .none (σ.dead d)) :
    Inv P { setRec s d x with xc := upd s.xc x.thr none } { σ with use := upd σ.use d .none } := by
  have g := h.gl d hd
  have hxd := g.xc hl hx
  rw [← hthr] at hxd
  refine h.set d (fun d' hd' => Or.inr hd') (Nat.le_refl _) hd h.n ?_ h.refs h.names h.bound (fun _ _ => rfl) ?_ ?_ ?_ (Nat.le_refl _) ?_ ?_ ?_ ?_
  · intro d' e; simp [setRec, upd_ne e]
  · intro d' e; simp [upd_ne e]
  · simpa [setRec] using hloc
  · simp only [setRec, upd_same]
    exact ⟨fun hc => by simp [hst, inCur] at hc, fun hc => by simp [hst, pre] at hc, fun a _ => by simp [hlib, hl] at a, fun a b => by simp [hst, inXc] at b⟩
  · intro d' e hd'
    have g' := h.gl d' hd'
    refine ⟨g'.cur, g'.pre, g'.lib, fun a b => ?_⟩
    have h1 := g'.xc a b
    simp only [setRec]
    rw [upd_ne]; exact h1
    intro e'; rw [e', hxd] at h1; exact e (by simpa using h1.symm)
  · intro t d' hc
    simp only [setRec] at hc
    refine Or.inl ⟨fun e => ?_, hc⟩
    subst e
    have := (h.cur t _ hc).2.2.1
    simp [hcn] at this
  · intro t d' hc
    simp only [setRec] at hc
    refine Or.inl ⟨fun e => ?_, hc⟩
    subst e
    have := (h.lib t _ hc).2.2.1
    simp [hl] at this
  · intro t d' hc
    simp only [setRec] at hc
    by_cases e : t = x.thr
    · subst e; simp at hc
    · rw [upd_ne e] at hc
      refine Or.inl ⟨fun e' => ?_, hc⟩
      subst e'
      exact e ((h.xc t _ hc).2.1.symm.trans hthr.symm)

theorem sim_go {P : Plat} {K : Nat} {s s' : State} {es : List Event} {σ : Spec} (h : Inv P s σ) (d : Nat)
    (hs : step P K s (.go d) = some (s', es)) : Follows next (Inv P s') σ es := by
  simp only [step] at hs
  split at hs
  case isFalse => cases hs
  rename_i hd
  have L := h.loc d hd
  have hnd : d < σ.n := by rw [h.n]; exact hd
  have hlive : ∀ y, go P s d (s.dat d) = some y → 0 < (s.dat d).count := by
    intro y hy
    refine L.busy ?_ ?_ <;> intro e <;> cases P <;> simp [go, e] at hy
  have hgo : go P s d (s.dat d) = some (s', es) ∧ 0 < (s.dat d).count := by
    split at hs
    · exact ⟨hs, hlive _ hs⟩
    · rename_i hno
      split at hs
      · rename_i y hy
        exact absurd (L.live (hlive _ hy)).1 hno
      · cases hs
  clear hs
  obtain ⟨hs, hc⟩ := hgo
  obtain ⟨hok, ha, hdy, hdd⟩ := L.live hc
  have h8 := L.count
  have h5 := L.self
  have hk := L.kind
  unfold go at hs
  split at hs
  · -- posix, born
    rename_i hst
    cases hs
    rw [hst] at h5; simp [selfOf] at h5
    refine h.eps d hd _ rfl rfl ⟨?_, by simpa [Rec.addRef, selfOf] using h5, fine_addRef ha hdy, by simp [Stage.hidden], L.dead, ?_, ?_, rfl, by simp⟩ ?_ ?_ ?_ ?_
    · simp [hst, hold, h5] at h8; simp [Rec.addRef, hold, h5, h8]
    · rw [L.use]; simp [useOf, hst]
    · simp [kind, hst] at hk; simp [kind, Rec.addRef, hk]
    all_goals simp [hst, inCur, pre, spawnedS, inXc]
  · -- posix, took
    rename_i hst
    cases hs
    rw [hst] at h5; simp [selfOf] at h5
    simp [kind, hst] at hk
    have hu : σ.use d = .starting := by rw [L.use]; simp [useOf, hst]
    simp only [Follows, next, hnd, hu, hdd, and_self, if_true]
    have e1 : ((s.dat d).selfReset (s.dat d).thr).thr = (s.dat d).thr := by simp [Rec.selfReset, h5, Rec.release]
    have e2 : ((s.dat d).selfReset (s.dat d).thr).lib = (s.dat d).lib := by simp [Rec.selfReset, h5, Rec.release]
    have := h.began d hd { (s.dat d).selfReset (s.dat d).thr with stage := .body } (by simp [hst, pre]) rfl e1 hk e2 ⟨?_, ?_, ?_, ?_, ?_, ?_, ?_, ?_, ?_⟩
    · simpa [e1] using this
    · simp [hst, hold, h5] at h8; simp [Rec.selfReset, h5, Rec.release, hold]; omega
    · simp [Rec.selfReset, h5, Rec.release, selfOf]
    · have := fine_release (s.dat d).thr ha hdy hc
      simpa [Rec.selfReset, h5, Fine] using this
    · simp [Stage.hidden]
    · simp [Rec.selfReset, h5, Rec.release, L.dead]
    · simp [useOf]
    · simp [kind, Rec.selfReset, h5, Rec.release, hk]
    · simp [there]
    · simp
  · -- posix, clean
    rename_i hst
    cases hs
    rw [hst] at h5; simp [selfOf] at h5
    have hl : (s.dat d).lib = true := by
      cases hl : (s.dat d).lib
      · exact (L.lone rfl hl (Or.inl hst)).elim
      · rfl
    have e0 : (s.dat d).selfReset (s.dat d).thr = s.dat d := by simp [Rec.selfReset, h5]
    rw [e0]
    refine h.eps d hd _ rfl rfl ⟨?_, by simpa [Rec.release, selfOf] using h5, fine_release _ ha hdy hc, by simp [Stage.hidden], L.dead, ?_, ?_, rfl, by simp⟩ ?_ ?_ ?_ ?_
    · simp [hst, hold, h5] at h8; simp [Rec.release, hold, h5]; omega
    · rw [L.use]; simp [useOf, hst, Rec.release]
    · simp [kind, Rec.release, hl]
    all_goals simp [hst, inCur, pre, spawnedS, inXc, Rec.release, hl]
  · -- posix, cleared
    rename_i hst
    cases hs
    rw [hst] at h5; simp [selfOf] at h5
    simp [kind, hst] at hk
    refine h.unset d hd { s.dat d with stage := .unset } (by simp [hst, inCur]) rfl rfl rfl (by simp [hk]) ⟨?_, by simpa [selfOf] using h5, L.fine, by simp [Stage.hidden], L.dead, ?_, ?_, rfl, by simp [hk]⟩
    · simp [hst, hold, h5] at h8; simp [hold, h5, h8]
    · rw [L.use]; simp [useOf, hst]
    · simp [kind]
  · -- posix, unset
    rename_i hst
    cases hs
    rw [hst] at h5; simp [selfOf] at h5
    have hl : (s.dat d).lib = true := by
      cases hl : (s.dat d).lib
      · exact (L.lone rfl hl (Or.inr hst)).elim
      · rfl
    have hu : σ.use d = .ending (s.dat d).thr := by rw [L.use]; simp [useOf, hst, hl]
    simp only [Follows, next, hnd, hu, hdd, true_or, and_self, if_true]
    have := h.put d hd { (s.dat d).release (s.dat d).thr with stage := .over } .none (σ.dead d) rfl rfl
      ⟨?_, by simpa [Rec.release, selfOf] using h5, fine_release _ ha hdy hc, by simp [Stage.hidden], by simpa [Rec.release] using L.dead, by simp [useOf], by simp [kind], rfl, by simp⟩ ?_ ?_ ?_ ?_
    · simpa [upd_id] using this
    · simp [hst, hold, h5] at h8; simp [Rec.release, hold, h5]; omega
    all_goals simp [hst, inCur, pre, spawnedS, inXc, Rec.release, hl]
  · -- posix, xclean
    rename_i hst
    cases hs
    rw [hst] at h5; simp [selfOf] at h5
    simp [kind, hst] at hk
    have hu : σ.use d = .kept (s.dat d).thr := by rw [L.use]; simp [useOf, hst]
    simp only [Follows, next, hnd, hu, hdd, or_true, and_self, if_true]
    simp [hst, hold, h5] at h8
    have e1 : ((s.dat d).selfReset (s.dat d).thr).thr = (s.dat d).thr := by simp [Rec.selfReset, h5, Rec.release]
    have e2 : ((s.dat d).selfReset (s.dat d).thr).lib = (s.dat d).lib := by simp [Rec.selfReset, h5, Rec.release]
    have e3 : ((s.dat d).selfReset (s.dat d).thr).count = (s.dat d).count - 1 := by simp [Rec.selfReset, h5, Rec.release]
    have e4 : ((s.dat d).selfReset (s.dat d).thr).alive = true := by simp [Rec.selfReset, h5, Rec.release, ha]
    have e5 : ((s.dat d).selfReset (s.dat d).thr).dying = none := by
      have : ¬ (s.dat d).count - 1 = 0 := by omega
      simp [Rec.selfReset, h5, Rec.release, this, hdy]
    have e6 : ((s.dat d).selfReset (s.dat d).thr).self = false := by simp [Rec.selfReset, h5, Rec.release]
    have := h.xover d hd { ((s.dat d).selfReset (s.dat d).thr).release (s.dat d).thr with stage := .over } hk rfl e1 e2 (by simp [hst, inXc]) (by simp [hst, inCur])
      ⟨?_, by simp [Rec.release, selfOf, e6], fine_release _ e4 e5 (by omega), by simp [Stage.hidden], ?_, by simp [useOf], by simp [kind], rfl, by simp⟩
    · simpa [Rec.release, e1] using this
    · simp [Rec.release, hold, e3, e6]; omega
    · have := L.dead; simpa [Rec.release, e4, ha] using this
  · cases hs
  · -- windows, born
    rename_i P _ _ hP hst
    cases hs
    simp [kind, hst] at hk
    have hP' : P ≠ .posix := fun e => by subst e; exact hP rfl
    have h5' : (s.dat d).self = false := by rw [h5, hst]; cases P <;> simp_all [selfOf]
    have hu : σ.use d = .starting := by rw [L.use]; simp [useOf, hst]
    simp only [Follows, next, hnd, hu, hdd, and_self, if_true]
    refine h.began d hd { s.dat d with stage := .body } (by simp [hst, pre]) rfl rfl hk rfl ⟨?_, ?_, L.fine, by simp [Stage.hidden], L.dead, by simp [useOf], by simp [kind, hk], ?_, by simp⟩
    · rw [hst] at h8; cases P <;> simp_all [hold]
    · cases P <;> simp_all [selfOf]
    · cases P <;> simp_all [there]
  · -- windows, clean
    rename_i P _ _ hP hst
    cases hs
    have hP' : P ≠ .posix := fun e => by subst e; exact hP rfl
    have h5' : (s.dat d).self = false := by rw [h5, hst]; cases P <;> simp_all [selfOf]
    refine h.unset d hd { s.dat d with stage := .unset } (by simp [hst, inCur]) rfl rfl rfl (by simp [hst, inXc]) ⟨?_, ?_, L.fine, by simp [Stage.hidden], L.dead, ?_, ?_, ?_, fun e => absurd e hP'⟩
    · rw [hst] at h8; cases P <;> simp_all [hold]
    · cases P <;> simp_all [selfOf]
    · rw [L.use]; simp [useOf, hst]
    · simp [kind]
    · cases P <;> simp [there]
  · -- windows, unset
    rename_i P _ _ hP hst
    cases hs
    have hP' : P ≠ .posix := fun e => by subst e; exact hP rfl
    have h5' : (s.dat d).self = false := by rw [h5, hst]; cases P <;> simp_all [selfOf]
    have hloc : Loc P (nref s.refs d) { (s.dat d).release (s.dat d).thr with stage := .over } .none (σ.dead d) := by
      refine ⟨?_, ?_, fine_release _ ha hdy hc, by simp [Stage.hidden], by simpa [Rec.release] using L.dead, by simp [useOf], by simp [kind], ?_, by simp⟩
      · rw [hst, h5'] at h8
        cases P <;> simp [Rec.release, hold, h5'] at h8 ⊢ <;> omega
      · cases P <;> simp_all [selfOf, Rec.release]
      · cases P <;> simp [there]
    cases hl : (s.dat d).lib
    · have hu : σ.use d = .kept (s.dat d).thr := by rw [L.use]; simp [useOf, hst, hl]
      simp only [Follows, next, hnd, hu, hdd, or_true, and_self, if_true]
      have := h.xover d hd { (s.dat d).release (s.dat d).thr with stage := .over } hl rfl rfl rfl (by simp [hst, inXc]) (by simp [hst, inCur]) hloc
      simpa [Rec.release] using this
    · have hu : σ.use d = .ending (s.dat d).thr := by rw [L.use]; simp [useOf, hst, hl]
      simp only [Follows, next, hnd, hu, hdd, true_or, and_self, if_true]
      have := h.put d hd { (s.dat d).release (s.dat d).thr with stage := .over } .none (σ.dead d) rfl rfl hloc ?_ ?_ ?_ ?_
      · simpa [upd_id, setRec] using this
      all_goals simp [hst, inCur, pre, spawnedS, inXc, Rec.release, hl]
  · cases hs

theorem client_lib {s : State} {t d : Nat} (h : client s t = true) (hl : s.lib t = some d) : pre (s.dat d).stage = false := by
  unfold client at h
  rw [hl] at h
  cases hx : (s.dat d).stage <;> simp_all [pre]

theorem sim_use {P : Plat} {K : Nat} {s s' : State} {es : List Event} {σ : Spec} (h : Inv P s σ) (t : Nat)
    (hs : step P K s (.use t) = some (s', es)) : Follows next (Inv P s') σ es := by
  simp only [step] at hs
  split at hs
  case isFalse => cases hs
  rename_i hcl
  have htn : t < s.nt := by simp [client] at hcl; exact hcl.1.1
  split at hs
  · rename_i d hc
    obtain ⟨hd, -, hic, -⟩ := h.cur t d hc
    have L := h.loc d hd
    have hok := (L.live (L.busy (fun e => by simp [e, inCur] at hic) (fun e => by simp [e, inCur] at hic))).1
    simp only [hok, if_true] at hs
    cases hs
    exact h
  · rename_i hc
    cases hs
    have hz : nref s.refs s.nr = 0 := by
      simp only [nref, List.countP_eq_zero]
      intro r hr; have := h.bound r hr
      simp; omega
    simp only [Follows, next, h.n, if_true]
    refine h.set s.nr (fun d' hd' => by simp only at hd'; omega) (Nat.le_succ _) (Nat.lt_succ_self _) rfl ?_ h.refs h.names ?_ (fun _ _ => rfl) ?_ ?_ ?_ (Nat.le_refl _) ?_ ?_ ?_ ?_
    · intro d' e; simp [setRec, upd_ne e]
    · intro r hr; exact Nat.lt_succ_of_lt (h.bound r hr)
    · intro d' e; simp [upd_ne e]
    · have hdead : σ.dead s.nr = false := h.unborn s.nr (Nat.le_refl _)
      have hz' : nref (setRec s s.nr { Rec.blank with count := 1, self := decide (P = .posix), stage := .ext, thr := t }).refs s.nr = 0 := hz
      simp only [hz', hdead]
      simp only [setRec, upd_same]
      constructor <;> simp [Rec.blank, Fine, Stage.hidden, useOf, kind] <;> cases P <;> simp [selfOf, hold, there]
    · simp only [setRec, upd_same]
      constructor <;> simp [Rec.blank, inCur, pre, spawnedS, inXc]
    · intro d' e hd'
      have g := h.gl d' hd'
      refine ⟨fun a => ?_, fun a => ?_, g.lib, g.xc⟩
      · have h1 := g.cur a
        simp only [setRec]
        rw [upd_ne]; exact h1
        intro e'; rw [e', hc] at h1; cases h1
      · have h1 := g.pre a
        simp only [setRec]
        rw [upd_ne]; exact h1
        intro e'
        have hk := (h.loc d' hd').kind
        have hl' : (s.dat d').lib = true := by cases hx : (s.dat d').stage <;> simp_all [pre, kind]
        have hsp' : spawnedS (s.dat d').stage = true := by cases hx : (s.dat d').stage <;> simp_all [pre, spawnedS]
        have := g.lib hl' hsp'
        rw [e'] at this
        have := client_lib hcl this
        simp [a] at this
    · intro t' d' hc'
      simp only [setRec] at hc'
      by_cases e : t' = t
      · subst e; simp only [upd_same, Option.some.injEq] at hc'; subst hc'
        exact Or.inr ⟨rfl, by simp [setRec], by simp [setRec, inCur], htn⟩
      · rw [upd_ne e] at hc'
        exact Or.inl ⟨by have := (h.cur t' d' hc').1; omega, hc'⟩
    · intro t d' hc; simp only [setRec] at hc
      exact Or.inl ⟨by have := (h.lib t d' hc).1; omega, hc⟩
    · intro t d' hc; simp only [setRec] at hc
      exact Or.inl ⟨by have := (h.xc t d' hc).1; omega, hc⟩

/-- A new reference to `d`. -/
theorem Inv.addRef {P : Plat} {s : State} {σ : Spec} (h : Inv P s σ) (d : Nat) (hd : d < s.nr) (o : Nat) (ho : fresh s o = true)
    (hc : 0 < (s.dat d).count) :
    Inv P { setRec s d (s.dat d).addRef with refs := (o, d) :: s.refs } { σ with refs := (o, d) :: σ.refs } := by
  have L := h.loc d hd
  obtain ⟨hok, ha, hdy, hdd⟩ := L.live hc
  rw [h.refs]
  refine h.reref d hd _ _ rfl rfl rfl ?_ ?_ ?_ ⟨?_, L.self, fine_addRef ha hdy, ?_, L.dead, L.use, L.kind, L.there, L.lone⟩
  · rw [List.pairwise_cons]
    exact ⟨fun r hr => (fresh_iff ho r hr).symm, h.names⟩
  · intro r hr
    simp only [List.mem_cons] at hr
    rcases hr with rfl | hr
    · exact hd
    · exact h.bound r hr
  · intro d' e
    have : ¬ d = d' := fun h => e h.symm
    simp [nref_cons, this]
  · have := L.count
    rw [nref_cons, if_pos rfl]
    show (s.dat d).count + 1 = nref s.refs d + 1 + (if (s.dat d).self = true then 1 else 0) + hold P (s.dat d).stage
    omega
  · intro _; simp [nref_cons]

theorem sim_self {P : Plat} {K : Nat} {s s' : State} {es : List Event} {σ : Spec} (h : Inv P s σ) (t o : Nat)
    (hs : step P K s (.self t o) = some (s', es)) : Follows next (Inv P s') σ es := by
  simp only [step] at hs
  split at hs
  case isFalse => cases hs
  rename_i hg
  split at hs
  case h_2 => cases hs
  rename_i d hc
  obtain ⟨hd, hth, hic, -⟩ := h.cur t d hc
  have L := h.loc d hd
  have hcnt := L.busy (fun e => by simp [e, inCur] at hic) (fun e => by simp [e, inCur] at hic)
  obtain ⟨hok, ha, hdy, hdd⟩ := L.live hcnt
  simp only [hok, if_true] at hs
  cases hs
  have hf' : σ.refs.any (fun r => r.1 == o) = false := by simpa [fresh, h.refs] using hg.2.1
  have hby : (σ.use d).by t = true := by
    rw [L.use]
    subst hth
    cases hx : (s.dat d).stage <;> simp_all [useOf, inCur, Use.by]
    all_goals (cases (s.dat d).lib <;> simp)
  have hnd : d < σ.n := by rw [h.n]; exact hd
  simp only [Follows, next, hf', hdd, hnd, hby, and_self, if_true, Bool.false_eq_true, if_false]
  exact h.addRef d hd o hg.2.1 hcnt

theorem sim_copy {P : Plat} {K : Nat} {s s' : State} {es : List Event} {σ : Spec} (h : Inv P s σ) (o o' : Nat)
    (hs : step P K s (.copy o o') = some (s', es)) : Follows next (Inv P s') σ es := by
  simp only [step] at hs
  split at hs
  case h_2 => cases hs
  rename_i d hr
  obtain ⟨hm, hf⟩ := ref_mem hr
  split at hs
  case isFalse => cases hs
  rename_i hg
  have hd := h.bound _ hm
  simp only at hd
  have L := h.loc d hd
  have hcnt : 0 < (s.dat d).count := by have := L.count; have := nref_pos hm; omega
  obtain ⟨hok, ha, hdy, hdd⟩ := L.live hcnt
  simp only [hok, if_true] at hs
  cases hs
  have hf' : σ.refs.any (fun r => r.1 == o') = false := by simpa [fresh, h.refs] using hg.1
  have hff : σ.refs.find? (fun r => r.1 == o) = some (o, d) := by rw [h.refs]; exact hf
  simp only [Follows, next, hf', hff, hdd, Bool.false_eq_true, if_false]
  exact h.addRef d hd o' hg.1 hcnt

theorem sim_drop {P : Plat} {K : Nat} {s s' : State} {es : List Event} {σ : Spec} (h : Inv P s σ) (t o : Nat)
    (hs : step P K s (.drop t o) = some (s', es)) : Follows next (Inv P s') σ es := by
  simp only [step] at hs
  split at hs
  case h_2 => cases hs
  rename_i d hr
  obtain ⟨hm, hf⟩ := ref_mem hr
  split at hs
  case isFalse => cases hs
  rename_i hg
  have hd := h.bound _ hm
  simp only at hd
  have L := h.loc d hd
  have hcnt : 0 < (s.dat d).count := by have := L.count; have := nref_pos hm; omega
  obtain ⟨hok, ha, hdy, hdd⟩ := L.live hcnt
  simp only [hok, if_true] at hs
  cases hs
  have hany : σ.refs.any (fun r => r.1 == o) = true := by
    rw [h.refs]; exact List.any_eq_true.mpr ⟨_, hm, by simp⟩
  obtain ⟨n1, n2⟩ := nref_filter hm h.names
  simp only [Follows, next, hany, if_true]
  rw [h.refs]
  refine h.reref d hd _ _ rfl rfl rfl (h.names.sublist List.filter_sublist) (fun r hr => h.bound r ((List.mem_filter.mp hr).1)) n2
    ⟨?_, L.self, fine_release t ha hdy hcnt, ?_, L.dead, L.use, L.kind, L.there, L.lone⟩
  · have := L.count
    show (s.dat d).count - 1 = nref (s.refs.filter (fun r => r.1 != o)) d + (if (s.dat d).self = true then 1 else 0) + hold P (s.dat d).stage
    omega
  · intro e; simp only [Rec.release] at e; simp [hg] at e

theorem sim_look {P : Plat} {K : Nat} {s s' : State} {es : List Event} {σ : Spec} (h : Inv P s σ) (o : Nat)
    (hs : step P K s (.look o) = some (s', es)) : Follows next (Inv P s') σ es := by
  simp only [step] at hs
  split at hs
  case h_2 => cases hs
  rename_i d hr
  obtain ⟨hm, hf⟩ := ref_mem hr
  split at hs
  case isFalse => cases hs
  have hd := h.bound _ hm
  simp only at hd
  have L := h.loc d hd
  have hcnt : 0 < (s.dat d).count := by have := L.count; have := nref_pos hm; omega
  obtain ⟨hok, ha, hdy, hdd⟩ := L.live hcnt
  simp only [hok, if_true] at hs
  cases hs
  exact h

theorem Loc.unused {P : Plat} {n : Nat} {x : Rec} {u : Use} {dd : Bool} (h : Loc P n x u dd) (hc : x.count = 0) :
    n = 0 ∧ (x.stage = .over ∨ x.stage = .refused) ∧ u = .none := by
  have h1 := h.count
  have h2 : x.stage = .over ∨ x.stage = .refused := by
    by_cases e : x.stage = .over
    · exact Or.inl e
    · by_cases e' : x.stage = .refused
      · exact Or.inr e'
      · have := h.busy e e'; omega
  refine ⟨by omega, h2, ?_⟩
  rw [h.use]
  rcases h2 with h2 | h2 <;> simp [useOf, h2]

theorem sim_delete {P : Plat} {K : Nat} {s s' : State} {es : List Event} {σ : Spec} (h : Inv P s σ) (d : Nat)
    (hs : step P K s (.delete d) = some (s', es)) : Follows next (Inv P s') σ es := by
  simp only [step] at hs
  split at hs
  case isFalse => cases hs
  rename_i hd
  have L := h.loc d hd
  have hnd : d < σ.n := by rw [h.n]; exact hd
  split at hs
  case h_2 => cases hs
  rename_i t hdy
  have hal : (s.dat d).alive = true ∧ (s.dat d).count = 0 := by
    rcases L.fine with ⟨a, b, c⟩ | ⟨a, b, c⟩ | ⟨a, b, c⟩
    · simp [hdy] at b
    · exact ⟨a, c⟩
    · simp [hdy] at b
  simp only [hal.1, if_true] at hs
  cases hs
  obtain ⟨hz, hst, hu⟩ := L.unused hal.2
  have hdd : σ.dead d = false := by rw [L.dead, hal.1]; rfl
  have hall : σ.refs.all (fun r => r.2 != d) = true := by
    rw [h.refs, List.all_eq_true]
    intro r hr
    have := List.countP_eq_zero.mp hz r hr
    simpa using this
  simp only [Follows, next, hnd, hdd, hu, hall, and_self, if_true]
  have := h.put d hd { s.dat d with alive := false, dying := none } (σ.use d) true rfl rfl
    ⟨L.count, L.self, Or.inr (Or.inr ⟨rfl, rfl, hal.2⟩), L.hidden, rfl, L.use, L.kind, L.there, L.lone⟩ rfl (fun a => a) rfl (fun _ => rfl)
  simpa [upd_id] using this

theorem sim_exit {P : Plat} {K : Nat} {s s' : State} {es : List Event} {σ : Spec} (h : Inv P s σ) (t : Nat)
    (hs : step P K s (.exit t) = some (s', es)) : Follows next (Inv P s') σ es := by
  simp only [step] at hs
  split at hs
  case isFalse => cases hs
  rename_i hg
  split at hs
  case h_2 => cases hs
  rename_i d hc
  obtain ⟨hd, hth, hic, htn⟩ := h.cur t d hc
  have L := h.loc d hd
  have hnd : d < σ.n := by rw [h.n]; exact hd
  have h8 := L.count
  have h5 := L.self
  have hk := L.kind
  have hext : ∀ d', d' ≠ d → d' < s.nr → (s.dat d').lib = false → inXc (s.dat d').stage = true → (s.dat d').thr ≠ t := by
    intro d' e hd' h1 h2 h3
    have := (h.gl d' hd').xc h1 h2
    rw [h3, hg.2.2] at this; cases this
  have hoc : ∀ d', d' ≠ d → d' < s.nr → inCur (s.dat d').stage = true → (s.dat d').thr ≠ t := by
    intro d' e hd' h1 h3
    have := (h.gl d' hd').cur h1
    rw [h3, hc] at this; exact e (by simpa using this.symm)
  split at hs
  · rename_i hst
    have hcnt := L.busy (by simp [hst]) (by simp [hst])
    obtain ⟨hok, ha, hdy, hdd⟩ := L.live hcnt
    rw [hst] at h5; simp [selfOf] at h5
    simp [kind, hst] at hk
    simp [hst, hold, h5] at h8
    have hu : σ.use d = .kept t := by rw [L.use]; simp [useOf, hst, hth]
    simp only [hok, if_true] at hs
    split at hs <;> cases hs
    · simp only [Follows, next, hnd, hu, hdd, and_self, if_true]
      refine h.set d (fun d' hd' => Or.inr hd') (Nat.le_refl _) hd h.n ?_ h.refs h.names h.bound (fun _ _ => rfl) (fun _ _ => ⟨rfl, rfl⟩) ?_ ?_ (Nat.le_refl _) ?_ ?_ ?_ ?_
      · intro d' e; simp [setRec, upd_ne e]
      · have : Loc .posix (nref s.refs d) { (s.dat d).addRef with stage := .xclean } (σ.use d) (σ.dead d) := by
          refine ⟨?_, by simpa [Rec.addRef, selfOf] using h5, fine_addRef ha hdy, by simp [Stage.hidden], L.dead, ?_, ?_, rfl, by simp⟩
          · simp [Rec.addRef, h8, h5, hold]
          · rw [L.use]; simp [useOf, hst, Rec.addRef]
          · simp [kind, Rec.addRef, hk]
        simpa [setRec] using this
      · simp only [setRec, upd_same]
        refine ⟨fun a => by simp [inCur] at a, fun a => by simp [pre] at a, fun a => by simp [Rec.addRef, hk] at a, fun _ _ => by simp [Rec.addRef, hth]⟩
      · intro d' e hd'
        have g := h.gl d' hd'
        simp only [setRec]
        refine ⟨fun a => ?_, fun a => ?_, g.lib, fun a b => ?_⟩
        · rw [upd_ne (hoc d' e hd' a)]; exact g.cur a
        · simp only [upd]; split
          · rfl
          · exact g.pre a
        · rw [upd_ne (hext d' e hd' a b)]; exact g.xc a b
      · intro t' d' hc'
        simp only [setRec] at hc'
        by_cases e : t' = t
        · subst e; simp at hc'
        · rw [upd_ne e] at hc'
          refine Or.inl ⟨fun e' => ?_, hc'⟩
          subst e'; exact e ((h.cur _ _ hc').2.1.symm.trans hth)
      · intro t' d' hc'
        simp only [setRec] at hc'
        refine Or.inl ⟨fun e' => ?_, hc'⟩
        subst e'; have := (h.lib _ _ hc').2.2.1; simp [hk] at this
      · intro t' d' hc'
        simp only [setRec] at hc'
        by_cases e : t' = t
        · subst e; simp only [upd_same, Option.some.injEq] at hc'; subst hc'
          exact Or.inr ⟨rfl, by simp [setRec, Rec.addRef, hth], by simp [setRec, Rec.addRef, hk], by simp [setRec, inXc]⟩
        · rw [upd_ne e] at hc'
          refine Or.inl ⟨fun e' => ?_, hc'⟩
          subst e'; exact e ((h.xc _ _ hc').2.1.symm.trans hth)
    · simp only [Follows, next, hnd, hu, hdd, and_self, if_true]
      refine h.set d (fun d' hd' => Or.inr hd') (Nat.le_refl _) hd h.n ?_ h.refs h.names h.bound (fun _ _ => rfl) ?_ ?_ ?_ (Nat.le_refl _) ?_ ?_ ?_ ?_
      · intro d' e; simp [setRec, upd_ne e]
      · intro d' e; simp [upd_ne e]
      · have : Loc .posix (nref s.refs d) { s.dat d with stage := .abandoned } .lost (σ.dead d) := by
          refine ⟨?_, by simpa [selfOf] using h5, L.fine, by simp [Stage.hidden], L.dead, ?_, ?_, rfl, by simp⟩
          · simp [h8, h5, hold]
          · simp [useOf]
          · simp [kind, hk]
        simpa [setRec] using this
      · simp only [setRec, upd_same]
        refine ⟨fun a => by simp [inCur] at a, fun a => by simp [pre] at a, fun a => by simp [hk] at a, fun _ a => by simp [inXc] at a⟩
      · intro d' e hd'
        have g := h.gl d' hd'
        simp only [setRec]
        refine ⟨fun a => ?_, fun a => ?_, g.lib, g.xc⟩
        · rw [upd_ne (hoc d' e hd' a)]; exact g.cur a
        · simp only [upd]; split
          · rfl
          · exact g.pre a
      · intro t' d' hc'
        simp only [setRec] at hc'
        by_cases e : t' = t
        · subst e; simp at hc'
        · rw [upd_ne e] at hc'
          refine Or.inl ⟨fun e' => ?_, hc'⟩
          subst e'; exact e ((h.cur _ _ hc').2.1.symm.trans hth)
      · intro t' d' hc'
        simp only [setRec] at hc'
        refine Or.inl ⟨fun e' => ?_, hc'⟩
        subst e'; have := (h.lib _ _ hc').2.2.1; simp [hk] at this
      · intro t' d' hc'
        simp only [setRec] at hc'
        refine Or.inl ⟨fun e' => ?_, hc'⟩
        subst e'; have := (h.xc _ _ hc').2.2.2; simp [hst, inXc] at this
  · cases hs
  · rename_i P _ _ hP hst
    have hP' : P ≠ .posix := fun e => by subst e; exact hP rfl
    have hcnt := L.busy (by simp [hst]) (by simp [hst])
    obtain ⟨hok, ha, hdy, hdd⟩ := L.live hcnt
    have h5' : (s.dat d).self = false := by rw [h5, hst]; cases P <;> simp_all [selfOf]
    simp [kind, hst] at hk
    have hu : σ.use d = .kept t := by rw [L.use]; simp [useOf, hst, hth]
    simp only [hok, if_true] at hs
    cases hs
    simp only [Follows, next, hnd, hu, hdd, and_self, if_true]
    refine h.set d (fun d' hd' => Or.inr hd') (Nat.le_refl _) hd h.n ?_ h.refs h.names h.bound (fun _ _ => rfl) (fun _ _ => ⟨rfl, rfl⟩) ?_ ?_ (Nat.le_refl _) ?_ ?_ ?_ ?_
    · intro d' e; simp [setRec, upd_ne e]
    · have : Loc P (nref s.refs d) { s.dat d with stage := .clean } (σ.use d) (σ.dead d) := by
        refine ⟨?_, ?_, L.fine, by simp [Stage.hidden], L.dead, ?_, ?_, ?_, fun e => absurd e hP'⟩
        · rw [hst] at h8; cases P <;> simp_all [hold]
        · cases P <;> simp_all [selfOf]
        · rw [L.use]; simp [useOf, hst, hk]
        · simp [kind]
        · cases P <;> simp [there]
      simpa [setRec] using this
    · simp only [setRec, upd_same]
      refine ⟨fun a => by simpa [hth] using hc, fun a => by simp [pre] at a, fun a => by simp [hk] at a, fun _ _ => by simp [hth]⟩
    · intro d' e hd'
      have g := h.gl d' hd'
      simp only [setRec]
      refine ⟨g.cur, g.pre, g.lib, fun a b => ?_⟩
      rw [upd_ne (hext d' e hd' a b)]; exact g.xc a b
    · intro t' d' hc'
      simp only [setRec] at hc'
      by_cases e : d' = d
      · subst e
        obtain ⟨-, a2, -, a4⟩ := h.cur _ _ hc'
        exact Or.inr ⟨rfl, by simp [setRec, a2], by simp [setRec, inCur], a4⟩
      · exact Or.inl ⟨e, hc'⟩
    · intro t' d' hc'
      simp only [setRec] at hc'
      refine Or.inl ⟨fun e' => ?_, hc'⟩
      subst e'; have := (h.lib _ _ hc').2.2.1; simp [hk] at this
    · intro t' d' hc'
      simp only [setRec] at hc'
      by_cases e : t' = t
      · subst e; simp only [upd_same, Option.some.injEq] at hc'; subst hc'
        exact Or.inr ⟨rfl, by simp [setRec, hth], by simp [setRec, hk], by simp [setRec, inXc]⟩
      · rw [upd_ne e] at hc'
        refine Or.inl ⟨fun e' => ?_, hc'⟩
        subst e'; exact e ((h.xc _ _ hc').2.1.symm.trans hth)
  · cases hs

theorem sim_finish {P : Plat} {K : Nat} {s s' : State} {es : List Event} {σ : Spec} (h : Inv P s σ) (t : Nat)
    (hs : step P K s (.finish t) = some (s', es)) : Follows next (Inv P s') σ es := by
  simp only [step] at hs
  split at hs
  case isFalse => cases hs
  rename_i hg
  cases hs
  obtain ⟨-, hr, hx, hc⟩ := hg
  have key : ∀ d, d < σ.n → (σ.use d).by t = false := by
    intro d hd
    rw [h.n] at hd
    have L := h.loc d hd
    have g := h.gl d hd
    rw [L.use]
    cases hb : (useOf (s.dat d)).by t
    · rfl
    exfalso
    have hth : (s.dat d).thr = t := by
      cases hst : (s.dat d).stage <;> cases hl : (s.dat d).lib <;> simp [useOf, hst, hl, Use.by] at hb <;> exact hb
    have h1 : inCur (s.dat d).stage = false := by
      cases e : inCur (s.dat d).stage
      · rfl
      · have := g.cur e; rw [hth, hc] at this; cases this
    cases hl : (s.dat d).lib
    · have h2 : inXc (s.dat d).stage = false := by
        cases e : inXc (s.dat d).stage
        · rfl
        · have := g.xc hl e; rw [hth, hx] at this; cases this
      cases hst : (s.dat d).stage <;> simp [useOf, hst, hl, Use.by] at hb <;> simp [hst, inCur, inXc] at h1 h2
    · have hk := L.kind
      cases hst : (s.dat d).stage <;> simp [useOf, hst, hl, Use.by] at hb <;> simp [hst, inCur] at h1 <;> simp [kind, hst, hl] at hk
      have := g.lib hl (by simp [hst, spawnedS])
      rw [hth] at this
      simp [returned, this, hst] at hr
  simp only [Follows, next]
  rw [if_pos key]
  exact ⟨h.n, h.refs, h.names, h.bound, h.unborn, h.loc, h.gl, h.cur, h.lib, h.xc⟩

theorem sim {P : Plat} {K : Nat} {s s' : State} {l : Label} {es : List Event} {σ : Spec} (h : Inv P s σ) (hs : step P K s l = some (s', es)) :
    Follows next (Inv P s') σ es := by
  cases l with
  | make o => exact sim_make h o hs
  | arm d => exact sim_arm h d hs
  | spawn d ok t => exact sim_spawn h d ok t hs
  | resume d => exact sim_resume h d hs
  | go d => exact sim_go h d hs
  | ret d => exact sim_ret h d hs
  | use t => exact sim_use h t hs
  | self t o => exact sim_self h t o hs
  | copy o o' => exact sim_copy h o o' hs
  | drop t o => exact sim_drop h t o hs
  | look o => exact sim_look h o hs
  | delete d => exact sim_delete h d hs
  | exit t => exact sim_exit h t hs
  | finish t => exact sim_finish h t hs

theorem inv_init (P : Plat) (k : Nat) : Inv P (init k) start :=
  ⟨rfl, rfl, List.Pairwise.nil, by simp [init], fun _ _ => rfl, by simp [init], by simp [init], by simp [init], by simp [init], by simp [init]⟩

end Verif.Lifetime
