import Verif.WinSharedMutex.Commit
/-! # The model follows the specification -/

set_option linter.unusedSimpArgs false

namespace Verif.WinSharedMutex

theorem commit_ok {o : Own} (hw : WF o) (t : Nat) (c : Code) (hc : o.conv ≠ some t) {new : Word} {k : Kont} (hp : plan o.word c = .cas new k) :
    Follows next (After t o new k) o (events t k) := by
  cases c with
  | lock b => exact commit_lock hw t b hp
  | shared b => exact commit_shared hw t b hp
  | upgrade => exact commit_upgrade hw t hp
  | tryLock => exact commit_tryLock hw t hp
  | tryShared => exact commit_tryShared hw t hp
  | tryUpgrade => exact commit_tryUpgrade hw t hp
  | lockExpired => exact commit_lockExpired hw t hp
  | sharedExpired => exact commit_sharedExpired hw t hp
  | unlock => exact commit_unlock hw t hp
  | unlockShared => exact commit_unlockShared hw t hp
  | unlockUpgrade => exact commit_unlockUpgrade hw t hp
  | upgradeToExclusive => exact commit_upgradeToExclusive hw t hc hp
  | exclusiveToUpgrade => exact commit_exclusiveToUpgrade hw t hp
  | exclusiveToShared => exact commit_exclusiveToShared hw t hp
  | upgradeToShared => exact commit_upgradeToShared hw t hp

/-- A thread that waits after a compare-and-swap has seen the mutex closed. -/
theorem wait_late {c : Code} {old new : Word} {r : Req} (hp : plan old c = .cas new (.wait r)) : Late (.waiting c old) := by
  cases c <;> simp only [Late]
  rename_i b
  cases b <;> simp only [Late]
  simp only [plan] at hp
  split at hp
  · assumption
  · split at hp <;> cases hp

theorem Follows.mono {R R' : Own → Prop} {o : Own} {es : List Event} (h : Follows next R o es) (hr : ∀ o', R o' → R' o') : Follows next R' o es := by
  induction es generalizing o with
  | nil => exact hr _ h
  | cons e es ih =>
    simp only [Follows] at h ⊢
    split at h <;> simp_all

/-- A thread with the current word in hand. -/
theorem sim_decide {s : State} {o : Own} (h : Rel s o) (t : Nat) (c : Code) (hu : s.pc t ≠ .waitUp) (hr : relUp (s.pc t) = 0) :
    Follows next (Rel (s.decide t c s.word).1) o (s.decide t c s.word).2 := by
  have hp (p : PC) (h2 : p ≠ .waitUp) (h3 : relUp p = 0) (h4 : Late p) : Rel { s with pc := upd s.pc t p } o :=
    ⟨h.word, h.wf, h.pcs.set t p rfl rfl hu h2 (by rw [h3, hr]) h4⟩
  unfold State.decide
  split
  · rename_i r he
    simp only [Follows, decide_ok h.wf t c r (h.word ▸ he)]
    exact hp .idle (by simp) rfl trivial
  · rename_i r he
    simp only [Follows, error_ok h.wf t c r (h.word ▸ he)]
    exact hp .idle (by simp) rfl trivial
  · exact hp (.loop c s.word) (by simp) rfl trivial

/-- A thread that goes on with an old word after its deadline. -/
theorem sim_decide_old {s : State} {o : Own} (h : Rel s o) (t : Nat) (c : Code) (w : Word) (hc : c = .lockExpired ∨ (c = .sharedExpired ∧ w.closed = true)) (hu : s.pc t ≠ .waitUp)
    (hr : relUp (s.pc t) = 0) : Follows next (Rel (s.decide t c w).1) o (s.decide t c w).2 := by
  have hp : Rel { s with pc := upd s.pc t (.loop c w) } o :=
    ⟨h.word, h.wf, h.pcs.set t _ rfl rfl hu (by simp) (by rw [hr]; rfl) trivial⟩
  unfold State.decide
  rcases hc with rfl | ⟨rfl, hw⟩
  · split
    · rename_i r he; simp only [plan] at he; (repeat' split at he) <;> cases he
    · rename_i r he; simp only [plan] at he; (repeat' split at he) <;> cases he
    · exact hp
  · simp only [plan, hw, ↓reduceIte]
    exact hp

theorem sim_commit {s : State} {o : Own} (h : Rel s o) (t : Nat) (c : Code) (hu : s.pc t ≠ .waitUp) (hr : relUp (s.pc t) = 0) {new : Word} {k : Kont} (hp : plan s.word c = .cas new k) :
    Follows next (Rel (s.commit t c s.word new k).1) o (s.commit t c s.word new k).2 := by
  have hc : o.conv ≠ some t := fun e => hu ((h.pcs.up t).2 e)
  have he : (s.commit t c s.word new k).2 = events t k := by cases k <;> rfl
  rw [he]
  refine Follows.mono (commit_ok h.wf t c hc (h.word ▸ hp)) ?_
  rintro o' ⟨hw, hf, hv⟩
  have keep (p : PC) (h2 : p ≠ .waitUp) (h3 : relUp p = 0) (h4 : Late p) (e : o'.conv = o.conv ∧ o'.handed = o.handed) : Rel { s with word := new, pc := upd s.pc t p } o' := by
    refine ⟨hw.symm, hf, ?_⟩
    rw [e.1, e.2]
    exact h.pcs.set t p rfl rfl hu h2 (by rw [h3, hr]) h4
  cases k with
  | granted r => exact keep .idle (by simp) rfl trivial hv
  | refused r => exact keep .idle (by simp) rfl trivial hv
  | timedOut r n => exact keep _ (by simp) rfl trivial hv
  | wait r => exact keep _ (by simp) rfl (wait_late hp) hv
  | down d ex un up =>
    rcases hv with ⟨rfl, hv⟩ | ⟨rfl, h1, h2, h3⟩
    · exact keep _ (by simp) rfl trivial hv
    · refine ⟨hw.symm, hf, ?_⟩
      rw [h1, h3]
      have hq := h.pcs.notok h2
      refine ⟨?_, fun _ => .inr ⟨hq.1, t, by simp [State.commit, upd_apply, relUp], ?_⟩, by simp, ?_⟩
      · intro x
        simp only [State.commit, upd_apply]
        split
        · rename_i e; subst e
          refine ⟨by simp, fun e => absurd e hc⟩
        · exact h.pcs.up x
      · intro x hx
        simp only [State.commit, upd_apply, if_neg hx]; exact hq.2 x
      · intro x
        simp only [State.commit, upd_apply]
        split
        · trivial
        · exact h.pcs.late x
  | waitUp =>
    obtain ⟨h1, h2, h3, h4⟩ := hv
    refine ⟨hw.symm, hf, ?_⟩
    rw [h2, h4]
    have hq := h.pcs.notok h3
    refine ⟨?_, by simp, fun _ => ⟨hq.1, ?_⟩, ?_⟩
    · intro x
      simp only [State.commit, upd_apply]
      split
      · rename_i e; subst e; simp
      · rename_i e
        refine ⟨fun hx => ?_, fun hx => absurd (Option.some.inj hx).symm e⟩
        have := (h.pcs.up x).1 hx
        rw [h1] at this; cases this
    · intro x
      simp only [State.commit, upd_apply]
      split
      · rfl
      · exact hq.2 x
    · intro x
      simp only [State.commit, upd_apply]
      split
      · trivial
      · exact h.pcs.late x

theorem of_some {x : State × List Event} {s' : State} {es : List Event} {o : Own} (hs : some x = some (s', es)) (h : Follows next (Rel x.1) o x.2) : Follows next (Rel s') o es := by
  cases hs; exact h

theorem sim_step {s s' : State} {l : Label} {es : List Event} {o : Own} (h : Rel s o) (hs : step s l = some (s', es)) : Follows next (Rel s') o es := by
  have move (t : Nat) (p : PC) (ex un : Nat) (hu : s.pc t ≠ .waitUp) (h2 : p ≠ .waitUp) (h3 : relUp p = relUp (s.pc t)) (h4 : Late p) :
      Rel { s with ex := ex, un := un, pc := upd s.pc t p } o := ⟨h.word, h.wf, h.pcs.set t p rfl rfl hu h2 h3 h4⟩
  cases l with
  | call t c =>
    simp only [step] at hs
    split at hs
    · rename_i hc
      cases hs
      exact move t (.start c) s.ex s.un (by simp [hc.2.1]) (by simp) (by simp [hc.2.1, relUp]) trivial
    · cases hs
  | load t =>
    simp only [step] at hs
    split at hs
    · rename_i c hp
      exact of_some hs (sim_decide h t c (by simp [hp]) (by simp [hp, relUp]))
    · cases hs
  | cas t =>
    simp only [step] at hs
    split at hs
    · rename_i c old hp
      split at hs
      · rename_i new k hk
        split at hs
        · rename_i hw
          subst hw
          exact of_some hs (sim_commit h t c (by simp [hp]) (by simp [hp, relUp]) hk)
        · split at hs
          · rename_i hm
            cases hs
            refine move t _ s.ex s.un (by simp [hp]) (by simp) (by simp [hp, relUp]) ?_
            cases c <;> simp_all [mustNotify, Late]
          · exact of_some hs (sim_decide h t c (by simp [hp]) (by simp [hp, relUp]))
      · cases hs
    · cases hs
  | wake t =>
    simp only [step] at hs
    split at hs
    · rename_i c old hp
      split at hs
      · split at hs
        · cases hs
          exact move t _ _ _ (by simp [hp]) (by simp) (by simp [hp, relUp]) trivial
        · cases hs
      · split at hs
        · cases hs
          exact move t _ s.ex _ (by simp [hp]) (by simp) (by simp [hp, relUp]) trivial
        · cases hs
    · rename_i hp
      split at hs
      · rename_i hup
        cases hs
        have hconv := (h.pcs.up t).1 hp
        have hh : o.handed = true := by
          cases hh : o.handed with
          | true => rfl
          | false => have := (h.pcs.notok hh).1; omega
        obtain ⟨rs, ug, wr, cv, sw, xw, as⟩ := o
        simp only [Own.handed, Own.conv] at hh hconv
        have hcv : cv = true := by cases cv <;> simp_all
        have hrs : rs = [] := by cases rs <;> simp_all
        subst hcv hrs
        simp only [if_true] at hconv
        subst hconv
        have hwr : wr = none := by
          have := h.wf.writer
          cases wr <;> simp_all
        subst hwr
        refine follows_pre_must rfl (by simp) fun _ => ⟨?_, ?_, ?_⟩
        · rw [h.word]; simp [Own.word, Own.owners, Own.writing, Own.handed]
        · obtain ⟨h1, h2, h3, h4, h5, h6⟩ := h.wf
          constructor <;> simp_all [Own.owners, Own.owned]
        · have ht := h.pcs.tok (by simp [Own.handed])
          have ht : s.up = 1 ∧ ∀ t, relUp (s.pc t) = 0 := by
            rcases ht with ht | ht
            · exact ht
            · omega
          refine ⟨?_, by simp [Own.handed], fun _ => ⟨by simp [ht.1], ?_⟩, ?_⟩
          · intro x
            simp only [upd_apply]
            split
            · simp [Own.conv]
            · rename_i hx
              refine ⟨fun e => ?_, by simp [Own.conv]⟩
              have := (h.pcs.up x).1 e
              simp only [Own.conv, if_true, Option.some.injEq] at this
              exact absurd this.symm hx
          · intro x
            simp only [upd_apply]
            split
            · rfl
            · exact ht.2 x
          · intro x
            simp only [upd_apply]
            split
            · trivial
            · exact h.pcs.late x
      · cases hs
    · cases hs
  | timeout t =>
    simp only [step] at hs
    split at hs
    · rename_i old hp
      exact of_some hs (sim_decide_old h t _ old (.inl rfl) (by simp [hp]) (by simp [hp, relUp]))
    · rename_i old hp
      have := h.pcs.late t
      rw [hp] at this
      exact of_some hs (sim_decide_old h t _ old (.inr ⟨rfl, this⟩) (by simp [hp]) (by simp [hp, relUp]))
    · cases hs
  | release t =>
    simp only [step] at hs
    split at hs
    · rename_i ex un up k hp
      have hl := h.pcs.late t
      rw [hp] at hl
      have hlate : ∀ a b c, Late (.releasing a b c k) := by
        intro a b c
        cases k with
        | none => trivial
        | some q => exact hl
      split at hs
      · cases hs
        exact move t _ _ s.un (by simp [hp]) (by simp) (by simp [hp, relUp]) (hlate ..)
      · split at hs
        · cases hs
          exact move t _ s.ex _ (by simp [hp]) (by simp) (by simp [hp, relUp]) (hlate ..)
        · split at hs
          · rename_i hup
            cases hs
            have hh : o.handed = true := by
              cases hh : o.handed with
              | true => rfl
              | false => have := (h.pcs.notok hh).2 t; simp [hp, relUp] at this; omega
            have ht := h.pcs.tok hh
            have ht : up = 1 ∧ s.up = 0 ∧ ∀ x, x ≠ t → relUp (s.pc x) = 0 := by
              rcases ht with ht | ⟨h0, x, hx, hx'⟩
              · have := ht.2 t; simp [hp, relUp] at this; omega
              · have : t = x := by
                  by_cases e : t = x
                  · exact e
                  · have := hx' t e; simp [hp, relUp] at this; omega
                subst this
                simp only [hp, relUp] at hx
                exact ⟨hx, h0, hx'⟩
            obtain ⟨rfl, h0, hx⟩ := ht
            refine ⟨h.word, h.wf, ?_⟩
            refine ⟨?_, fun _ => .inl ⟨by simp [h0], ?_⟩, by simp [hh], ?_⟩
            · intro x
              simp only [upd_apply]
              split
              · rename_i e; subst e
                rw [← h.pcs.up x, hp]; simp
              · exact h.pcs.up x
            · intro x
              simp only [upd_apply]
              split
              · rfl
              · rename_i e; exact hx x e
            · intro x
              simp only [upd_apply]
              split
              · exact hlate ..
              · exact h.pcs.late x
          · have hup : up = 0 := by omega
            subst hup
            split at hs
            · cases hs
              exact move t _ s.ex s.un (by simp [hp]) (by simp) (by simp [hp, relUp]) trivial
            · exact of_some hs (sim_decide_old h t _ _ (.inl hl) (by simp [hp]) (by simp [hp, relUp]))
    · cases hs

theorem sim {threads : Nat} {ls : List Label} {s : State} {es : List Event} (h : run step (init threads) ls = some (s, es)) : Accepts next free es :=
  simulation Rel (fun _ _ _ _ _ hr hs => sim_step hr hs) (rel_init threads) h

end Verif.WinSharedMutex
