import Verif.WinThread.Sim
/-!
# Calls end
-/
set_option linter.unusedSimpArgs false
set_option linter.unusedVariables false

namespace Verif.WinThread

/-- The call of thread `w` has come to an end. -/
def Event.ends (w : Nat) : Event → Bool
  | .joined v | .timedOut v | .slept v | .passed v | .interrupted v | .overflow v => v == w
  | _ => false

/-- A step of thread `w` inside its call. -/
def Own (w : Nat) (l : Label) : Prop := l = .go w ∨ ∃ ok, l = .arm w ok

/-- The same, or time passes (the user's clock shows `user`). -/
def OwnOrTime (w : Nat) (user : Int) (l : Label) : Prop := Own w l ∨ ∃ d, l = .tick d user

/-- Some schedule of steps in `P` ends the call of thread `w`. -/
def Ends (P : Label → Prop) (s : St) (w : Nat) : Prop :=
  ∃ ls s' es, (∀ l ∈ ls, P l) ∧ run step s ls = some (s', es) ∧ ∃ e ∈ es, e.ends w = true

theorem Ends.last {P : Label → Prop} {s s' : St} {w : Nat} {l : Label} {e : Event} (hs : step s l = some (s', [e])) (hl : P l) (he : e.ends w = true) :
    Ends P s w :=
  ⟨[l], s', [e], by simpa using hl, by simp [run, hs], e, by simp, he⟩

theorem Ends.cons {P : Label → Prop} {s s' : St} {w : Nat} {l : Label} {es : List Event} (hs : step s l = some (s', es)) (hl : P l)
    (h : Ends P s' w) : Ends P s w := by
  obtain ⟨ls, s2, es2, h1, h2, e, h3, h4⟩ := h
  refine ⟨l :: ls, s2, es ++ es2, ?_, by simp [run, hs, h2], e, by simp [h3], h4⟩
  intro l' hl'
  rcases List.mem_cons.1 hl' with rfl | h
  · exact hl
  · exact h1 l' h

theorem goto_pc (s : St) (w : Nat) (p : Pc) : ((s.goto w p).t w).pc = p := by simp [St.goto, St.set]

theorem go_none {s : St} {w : Nat} {tgt : Option Nat} {intr b : Bool} (h : (s.t w).pc = .got tgt intr b none) (hb : tgt.isSome = true → b = false) :
    step s (.go w) = giveUp s w tgt := by
  cases tgt with
  | none => simp only [step, go, h]
  | some u => obtain rfl := hb rfl; simp only [step, go, h]

theorem go_some {s : St} {w : Nat} {tgt : Option Nat} {intr b : Bool} {t : Int} (h : (s.t w).pc = .got tgt intr b (some t))
    (hb : tgt.isSome = true → b = false) : step s (.go w) = some (s.goto w (.look tgt intr t false), []) := by
  cases tgt with
  | none => simp only [step, go, h]
  | some u => obtain rfl := hb rfl; simp only [step, go, h]

section
variable {P : Label → Prop} {w : Nat} (hP : ∀ l, Own w l → P l)
include hP

theorem ends_overflow {s : St} {l : Label} {tgt : Option Nat} (hl : Own w l) (hs : step s l = overflow s w tgt) : Ends P s w :=
  Ends.last (by rw [hs]; rfl) (hP _ hl) (by simp [Event.ends])

theorem ends_giveUp {s : St} {l : Label} {tgt : Option Nat} (hl : Own w l) (hs : step s l = giveUp s w tgt) : Ends P s w :=
  Ends.last (by rw [hs]; rfl) (hP _ hl) (by cases tgt <;> simp [Event.ends])

theorem ends_reset {s : St} (h : (s.t w).pc = .reset) : Ends P s w :=
  Ends.last (l := .go w) (by simp only [step, go, h]; rfl) (hP _ (Or.inl rfl)) (by simp [Event.ends])

theorem ends_point {s : St} (h : (s.t w).pc = .point) : Ends P s w := by
  by_cases hc : ((s.t w).en && (s.t w).event) = true
  · refine Ends.cons (l := .go w) (s' := s.goto w .reset) (es := []) ?_ (hP _ (Or.inl rfl)) (ends_reset hP (goto_pc _ _ _))
    simp only [step, go, h, hc, if_true]
  · exact Ends.last (l := .go w) (by simp only [step, go, h, hc]; rfl) (hP _ (Or.inl rfl)) (by simp [Event.ends])

theorem ends_joined {s : St} {u : Nat} {intr : Bool} {k : Option Int} (h : (s.t w).pc = .got (some u) intr true k) : Ends P s w :=
  Ends.last (l := .go w) (by simp only [step, go, h]; rfl) (hP _ (Or.inl rfl)) (by simp [Event.ends])

/-- The thread has ended, or an interruption is requested and may be delivered. -/
def Ripe (s : St) (w : Nat) (tgt : Option Nat) (intr : Bool) : Prop :=
  s.signalled tgt = true ∨ (intr = true ∧ (s.t w).event = true ∧ (s.t w).en = true)

omit hP in
theorem Ripe.goto {s : St} {tgt : Option Nat} {intr : Bool} (h : Ripe s w tgt intr) (p : Pc) : Ripe (s.goto w p) w tgt intr := by
  rcases h with h | h
  · left
    cases tgt with
    | none => exact h
    | some u =>
      simp only [St.signalled, St.goto, St.set] at h ⊢
      by_cases hu : u = w
      · subst hu; simpa using h
      · rw [upd_other _ _ hu]; exact h
  · right; simpa [St.goto, St.set] using h

theorem ends_blocked {s : St} {tgt : Option Nat} {intr : Bool} {dl due til k : Option Int} (h : (s.t w).pc = .blocked tgt intr dl due til k)
    (hr : Ripe s w tgt intr) : Ends P s w := by
  by_cases hsig : s.signalled tgt = true
  · cases tgt with
    | none => simp [St.signalled] at hsig
    | some u =>
      refine Ends.cons (l := .go w) (s' := s.goto w (.got (some u) intr true k)) (es := []) ?_ (hP _ (Or.inl rfl))
        (ends_joined hP (u := u) (intr := intr) (k := k) (goto_pc _ _ _))
      simp only [step, go, h, hsig, if_true]
  · rcases hr with hr | hr
    · exact absurd hr hsig
    · refine Ends.cons (l := .go w) (s' := (s.unuse tgt).goto w .reset) (es := []) ?_ (hP _ (Or.inl rfl)) (ends_reset hP (goto_pc _ _ _))
      simp only [step, go, h, hsig, hr.1, hr.2.1, Bool.and_self, if_true]
      rfl

theorem ends_arm {s : St} {tgt : Option Nat} {intr : Bool} {dl k : Option Int} (h : (s.t w).pc = .arm tgt intr dl k)
    (hr : Ripe s w tgt intr) : Ends P s w := by
  have hr' : Ripe s w tgt (intr && (s.t w).en) := by
    rcases hr with hr | hr
    · exact Or.inl hr
    · exact Or.inr ⟨by rw [hr.1, hr.2.2]; rfl, hr.2⟩
  cases dl with
  | none =>
    exact Ends.cons (l := .arm w true) (s' := s.goto w (.blocked tgt (intr && (s.t w).en) none none none k)) (es := [])
      (by simp only [step, armStep, h]) (hP _ (Or.inr ⟨_, rfl⟩)) (ends_blocked hP (goto_pc _ _ _) (hr'.goto _))
  | some x =>
    by_cases hm : msOk (x - s.now) = true
    · refine Ends.cons (l := .arm w true) (s' := s.goto w (.blocked tgt (intr && (s.t w).en) (some x)
        (some (s.now + (if 0 < ms (x - s.now) then ms (x - s.now) * 1000000 else 0))) none k)) (es := []) ?_ (hP _ (Or.inr ⟨_, rfl⟩))
        (ends_blocked hP (goto_pc _ _ _) (hr'.goto _))
      simp only [step, armStep, h, hm, if_true]
    · exact ends_overflow hP (l := .arm w true) (tgt := tgt) (Or.inr ⟨_, rfl⟩) (by simp only [step, armStep, h, hm, if_false]; rfl)

theorem ends_add {s : St} {tgt : Option Nat} {intr : Bool} {d : Int} {k : Option Int} (h : (s.t w).pc = .add tgt intr d k)
    (hr : Ripe s w tgt intr) : Ends P s w := by
  by_cases hm : fits (s.now + d) = true
  · refine Ends.cons (l := .go w) (s' := s.goto w (.arm tgt intr (some (s.now + d)) k)) (es := []) ?_ (hP _ (Or.inl rfl))
      (ends_arm hP (goto_pc _ _ _) (hr.goto _))
    simp only [step, go, h, hm, if_true]
  · exact ends_overflow hP (l := .go w) (tgt := tgt) (Or.inl rfl) (by simp only [step, go, h, hm, if_false]; rfl)

theorem ends_look {s : St} {tgt : Option Nat} {intr : Bool} {t : Int} {first : Bool} (h : (s.t w).pc = .look tgt intr t first)
    (hr : Ripe s w tgt intr) : Ends P s w := by
  by_cases hm : inRange (t - s.user) = true
  · by_cases hc : ((first && tgt.isSome) || decide (0 < t - s.user)) = true
    · refine Ends.cons (l := .go w) (s' := s.goto w (.add tgt intr (min (t - s.user) poll) (some t))) (es := []) ?_ (hP _ (Or.inl rfl))
        (ends_add hP (goto_pc _ _ _) (hr.goto _))
      simp only [step, go, h, hm, hc, if_true]
    · exact ends_giveUp hP (l := .go w) (tgt := tgt) (Or.inl rfl) (by simp only [step, go, h, hm, hc, if_true, if_false]; rfl)
  · exact ends_overflow hP (l := .go w) (tgt := tgt) (Or.inl rfl) (by simp only [step, go, h, hm, if_false]; rfl)

theorem ends_got {s : St} {tgt : Option Nat} {intr b : Bool} {k : Option Int} (h : (s.t w).pc = .got tgt intr b k)
    (hr : Ripe s w tgt intr) : Ends P s w := by
  by_cases hc : ∃ u, tgt = some u ∧ b = true
  · obtain ⟨u, rfl, rfl⟩ := hc
    exact ends_joined hP h
  · have hb : tgt.isSome = true → b = false := by
      intro h1
      cases tgt with
      | none => cases h1
      | some u => cases b with
        | false => rfl
        | true => exact absurd ⟨u, rfl, rfl⟩ hc
    cases k with
    | none => exact ends_giveUp hP (l := .go w) (tgt := tgt) (Or.inl rfl) (go_none h hb)
    | some t =>
      exact Ends.cons (l := .go w) (go_some h hb) (hP _ (Or.inl rfl)) (ends_look hP (goto_pc _ _ _) (hr.goto _))

end

/-- A call that is ripe ends by its own steps. -/
theorem ends_of_ripe {s : St} {σ : Sys} {w : Nat} {a : Active} (h : R s σ) (ha : (σ.th w).call = some a)
    (hr : (∃ u, a.call.target = some u ∧ (s.t u).fin = true) ∨ (a.call.intr = true ∧ (s.t w).event = true ∧ (s.t w).en = true)) :
    Ends (Own w) s w := by
  have hg := h.call (w := w)
  have key : ∀ {tgt : Option Nat} {intr : Bool}, Com (s.t w).event (s.t w).en tgt intr a → Ripe s w tgt intr := by
    intro tgt intr hc
    rcases hr with ⟨u, h1, h2⟩ | h1
    · left; rw [← hc.target, h1]; exact h2
    · right
      have := hc.same
      rw [h1.1, h1.2.2] at this
      exact ⟨by simpa using this.symm, h1.2⟩
  have hP : ∀ l, Own w l → Own w l := fun _ h => h
  unfold Good at hg
  split at hg <;> rename_i hpc
  · rw [ha] at hg; cases hg
  · obtain ⟨a', h0, h1, -⟩ := hg; rw [ha] at h0; cases h0; exact ends_look hP hpc (key h1)
  · obtain ⟨a', h0, h1, -⟩ := hg; rw [ha] at h0; cases h0; exact ends_add hP hpc (key h1)
  · obtain ⟨a', h0, h1, -⟩ := hg; rw [ha] at h0; cases h0; exact ends_arm hP hpc (key h1)
  · obtain ⟨a', h0, h1, -⟩ := hg; rw [ha] at h0; cases h0; exact ends_blocked hP hpc (key h1)
  · obtain ⟨a', h0, h1, -⟩ := hg; rw [ha] at h0; cases h0; exact ends_got hP hpc (key h1)
  · exact ends_reset hP hpc
  · exact ends_point hP hpc

/-! ## Time-outs -/

/-- 4294967294 ms: `INFINITE` minus one. -/
def longest : Int := 4294967294000000

theorem ms_bound {x : Int} (h : x ≤ longest) : ms x ≤ 4294967294 := by
  unfold ms longest at *
  split
  · rw [Int.tdiv_eq_ediv_of_nonneg (by omega)]; omega
  · have h1 : (x - 999999).tdiv 1000000 = -((-(x - 999999)).tdiv 1000000) := by rw [Int.neg_tdiv, Int.neg_neg]
    rw [h1, Int.tdiv_eq_ediv_of_nonneg (by omega)]
    omega

theorem ms_pos {x : Int} (h : x ≤ 0) : ms x ≤ 0 := by
  unfold ms
  split
  · rw [Int.tdiv_eq_ediv_of_nonneg (by omega)]; omega
  · have h1 : (x - 999999).tdiv 1000000 = -((-(x - 999999)).tdiv 1000000) := by rw [Int.neg_tdiv, Int.neg_neg]
    rw [h1, Int.tdiv_eq_ediv_of_nonneg (by omega)]
    omega

/-- A timer can be made and set at least for the waits of more than 49 days. -/
def tame (s : St) : Label → Bool
  | .arm w false => match (s.t w).pc with | .arm _ _ (some x) _ => decide (x - s.now ≤ longest) | _ => true
  | _ => true

def stepTame (s : St) (l : Label) : Option (St × List Event) := if tame s l then step s l else none

theorem run_tame {s s' : St} {ls : List Label} {es : List Event} (h : run stepTame s ls = some (s', es)) : run step s ls = some (s', es) := by
  induction ls generalizing s es with
  | nil => exact h
  | cons l ls ih =>
    obtain ⟨m, e1, e2, h1, h2, rfl⟩ := run_cons h
    have h3 : step s l = some (m, e1) := by
      unfold stepTame at h1
      split at h1
      · exact h1
      · cases h1
    simp [run, h3, ih h2]

def Tm (now : Int) (p : Pc) : Prop :=
  ∀ tgt intr x til k, p = .blocked tgt intr (some x) none til k → til.isSome = true ∧ x - now ≤ longest

def TInv (s : St) : Prop := ∀ w, Tm s.now (s.t w).pc

theorem TInv.set {s : St} (h : TInv s) {w : Nat} {x : Thr} (hx : Tm s.now x.pc) : TInv (s.set w x) := by
  intro v
  by_cases hv : v = w
  · subst hv; simpa [St.set] using hx
  · simp only [St.set, upd_other _ _ hv]; exact h v

theorem TInv.goto {s : St} (h : TInv s) {w : Nat} {p : Pc} (hx : Tm s.now p) : TInv (s.goto w p) := h.set hx

theorem TInv.unuse {s : St} (h : TInv s) (tgt : Option Nat) : TInv (s.unuse tgt) := by
  cases tgt with
  | none => exact h
  | some u => exact h.set (h u)

theorem unuse_now (s : St) (tgt : Option Nat) : (s.unuse tgt).now = s.now := by cases tgt <;> rfl

theorem tm_firstPc (now now' : Int) (c : Call) : Tm now (firstPc now' c) := by
  intro tgt intr x til k hp
  cases c with
  | tryJoinUntil u st t => cases st <;> cases hp
  | sleepUntil u st t => cases st <;> cases hp
  | _ => cases hp

theorem til_isSome {now left : Int} (h0 : 0 ≤ left) (h : left ≤ 4294967294) : (tilOf now left).isSome = true := by
  unfold tilOf infinite
  rw [Int.emod_eq_of_lt h0 (by omega), if_neg (by omega)]
  rfl

theorem tinv_step {s s' : St} {l : Label} {es : List Event} (h : TInv s) (hs : stepTame s l = some (s', es)) : TInv s' := by
  have nb : ∀ {p : Pc} {now : Int}, (∀ tgt intr x til k, p ≠ .blocked tgt intr (some x) none til k) → Tm now p :=
    fun hp tgt intr x til k he => absurd he (hp tgt intr x til k)
  unfold stepTame at hs
  split at hs
  case isFalse => cases hs
  rename_i htame
  cases l with
  | go w =>
    simp only [step] at hs
    unfold go at hs
    have hov : ∀ {tgt s' es}, overflow s w tgt = some (s', es) → TInv s' := by
      intro tgt s' es h1
      simp only [overflow, Option.some.injEq, Prod.mk.injEq] at h1
      obtain ⟨rfl, rfl⟩ := h1
      exact (h.unuse tgt).goto (nb (by intros; simp))
    have hgu : ∀ {tgt s' es}, giveUp s w tgt = some (s', es) → TInv s' := by
      intro tgt s' es h1
      simp only [giveUp, Option.some.injEq, Prod.mk.injEq] at h1
      obtain ⟨rfl, rfl⟩ := h1
      exact (h.unuse tgt).goto (nb (by intros; simp))
    split at hs
    · cases hs
    · split at hs
      · split at hs
        · cases hs; exact h.goto (nb (by intros; simp))
        · exact hgu hs
      · exact hov hs
    · split at hs
      · cases hs; exact h.goto (nb (by intros; simp))
      · exact hov hs
    · cases hs
    · rename_i tgt intr dl due til k hpc
      split at hs
      · cases hs; exact h.goto (nb (by intros; simp))
      · split at hs
        · cases hs; exact (h.unuse tgt).goto (nb (by intros; simp))
        · split at hs
          · cases hs; exact h.goto (nb (by intros; simp))
          · split at hs
            · split at hs
              · rename_i x
                split at hs
                · split at hs
                  · rename_i hms
                    cases hs
                    refine h.goto ?_
                    intro tgt' intr' x' til' k' hp
                    cases hp
                    have := h w _ _ _ _ _ hpc
                    have hb := ms_bound this.2
                    refine ⟨til_isSome ?_ hb, this.2⟩
                    unfold infinite at hms
                    omega
                  · cases hs; exact h.goto (nb (by intros; simp))
                · exact hov hs
              · cases hs; exact h
            · cases hs
    · split at hs
      · rename_i u _
        cases hs
        exact (h.set (w := u) (x := { s.t u with obj := false, joiner := none }) (h u)).goto (nb (by intros; simp))
      · split at hs
        · exact hgu hs
        · cases hs; exact h.goto (nb (by intros; simp))
    · cases hs; exact h.set (nb (by intros; simp))
    · split at hs <;> cases hs <;> exact h.goto (nb (by intros; simp))
  | arm w ok =>
    simp only [step] at hs
    unfold armStep at hs
    split at hs
    · rename_i tgt intr dl k hpc
      split at hs
      · cases hs; exact h.goto (nb (by intros; simp))
      · rename_i x
        split at hs
        · split at hs
          · cases hs; exact h.goto (nb (by intros; simp))
          · rename_i hok
            cases hs
            refine h.goto ?_
            intro tgt' intr' x' til' k' hp
            cases hp
            have hok' : ok = false := by simpa using hok
            subst hok'
            simp only [tame, hpc, decide_eq_true_eq] at htame
            have hb := ms_bound htame
            refine ⟨til_isSome ?_ ?_, htame⟩
            · split <;> omega
            · split <;> omega
        · simp only [overflow, Option.some.injEq, Prod.mk.injEq] at hs
          obtain ⟨rfl, rfl⟩ := hs
          exact (h.unuse tgt).goto (nb (by intros; simp))
    · cases hs
  | call w c =>
    simp only [step] at hs
    split at hs
    · unfold begin at hs
      split at hs
      · split at hs
        · cases hs; exact h.goto (tm_firstPc _ _ _)
        · cases hs; exact h
      · rename_i u _
        split at hs
        · split at hs
          · cases hs; exact h
          · split at hs
            · cases hs
            · split at hs
              · cases hs; exact (h.set (w := u) (x := { s.t u with joiner := some w }) (h u)).goto (tm_firstPc _ _ _)
              · cases hs; exact h
        · cases hs; exact h
    · cases hs
  | start w =>
    simp only [step] at hs
    split at hs
    · cases hs
      have := h.set (w := s.n) (x := { lib := true, obj := true, en := true }) (nb (by intros; simp))
      exact this
    · cases hs
  | tick d user =>
    simp only [step] at hs
    cases hs
    intro w tgt intr x til k hp
    have := h w tgt intr x til k hp
    exact ⟨this.1, by show x - (s.now + d) ≤ _; omega⟩
  | finish w =>
    simp only [step] at hs
    split at hs
    · cases hs; exact h.set (h w)
    · cases hs
  | detach w u =>
    simp only [step] at hs
    split at hs
    · cases hs; exact h.set (h u)
    · cases hs
  | interrupt w u =>
    simp only [step] at hs
    split at hs
    · split at hs
      · cases hs; exact h.set (h u)
      · cases hs; exact h
    · cases hs
  | disable w =>
    simp only [step] at hs
    split at hs
    · cases hs; exact h.set (h w)
    · cases hs
  | restore w i =>
    simp only [step] at hs
    split at hs
    · split at hs
      · cases hs; exact h.set (h w)
      · cases hs
    · cases hs
  | close w =>
    simp only [step] at hs
    split at hs
    · split at hs
      · cases hs; exact h.set (h w)
      · cases hs; exact h.set (h w)
      · cases hs
    · cases hs
  | joinable w u => simp only [step] at hs; split at hs <;> cases hs; exact h
  | asked w u => simp only [step] at hs; split at hs <;> cases hs; exact h
  | requested w => simp only [step] at hs; split at hs <;> cases hs; exact h
  | enabled w => simp only [step] at hs; split at hs <;> cases hs; exact h

theorem tinv_init (n : Nat) (now user : Int) : TInv (init n now user) := by
  intro w tgt intr x til k hp
  cases hp

section
variable {w : Nat} {user : Int}

theorem own_time : ∀ l, Own w l → OwnOrTime w user l := fun _ h => Or.inl h

/-- The user's clock has reached the time (if any). -/
def Come (user : Int) : Option Int → Prop
  | none => True
  | some t => t ≤ user

theorem time_look {s : St} {tgt : Option Nat} {intr : Bool} {t : Int} (h : (s.t w).pc = .look tgt intr t false) (hu : s.user = user) (ht : t ≤ user) :
    Ends (OwnOrTime w user) s w := by
  by_cases hm : inRange (t - s.user) = true
  · refine ends_giveUp own_time (l := .go w) (tgt := tgt) (Or.inl rfl) ?_
    simp only [step, go, h, hm, if_true]
    rw [if_neg (by simp; omega)]
  · exact ends_overflow own_time (l := .go w) (tgt := tgt) (Or.inl rfl) (by simp only [step, go, h, hm, if_false]; rfl)

theorem time_got {s : St} {tgt : Option Nat} {intr b : Bool} {k : Option Int} (h : (s.t w).pc = .got tgt intr b k) (hu : s.user = user) (ht : Come user k) :
    Ends (OwnOrTime w user) s w := by
  by_cases hc : ∃ u, tgt = some u ∧ b = true
  · obtain ⟨u, rfl, rfl⟩ := hc
    exact ends_joined own_time h
  · have hb : tgt.isSome = true → b = false := by
      intro h1
      cases tgt with
      | none => cases h1
      | some u => cases b with
        | false => rfl
        | true => exact absurd ⟨u, rfl, rfl⟩ hc
    cases k with
    | none => exact ends_giveUp own_time (l := .go w) (tgt := tgt) (Or.inl rfl) (go_none h hb)
    | some t =>
      exact Ends.cons (l := .go w) (go_some h hb) (own_time _ (Or.inl rfl)) (time_look (goto_pc _ _ _) hu ht)

theorem time_blocked {s : St} {tgt : Option Nat} {intr : Bool} {x : Int} {due til k : Option Int}
    (h : (s.t w).pc = .blocked tgt intr (some x) due til k) (hu : s.user = user) (ht : Come user k) (hd : due.isSome = true ∨ til.isSome = true) :
    Ends (OwnOrTime w user) s w := by
  -- let enough time pass
  let d : Nat := (x - s.now).toNat + (due.getD 0 - s.now).toNat + (til.getD 0 - s.now).toNat
  refine Ends.cons (l := .tick d user) (s' := { s with now := s.now + d, user := user }) (es := [.clock (s.now + d) user]) rfl (Or.inr ⟨d, rfl⟩) ?_
  have hx : x ≤ s.now + d := by simp only [d]; omega
  have hdue : ∀ e, due = some e → e ≤ s.now + d := by intro e he; simp only [d, he, Option.getD_some]; omega
  have htil : ∀ e, til = some e → e ≤ s.now + d := by intro e he; simp only [d, he, Option.getD_some]; omega
  generalize hs1 : ({ s with now := s.now + d, user := user } : St) = s1
  have hn : s1.now = s.now + d := by rw [← hs1]
  have hu1 : s1.user = user := by rw [← hs1]
  have h1 : (s1.t w).pc = .blocked tgt intr (some x) due til k := by rw [← hs1]; exact h
  have own : OwnOrTime w user (.go w) := own_time _ (Or.inl rfl)
  by_cases hsig : s1.signalled tgt = true
  · exact ends_blocked own_time h1 (Or.inl hsig)
  · by_cases hev : (intr && (s1.t w).event) = true
    · refine Ends.cons (l := .go w) (s' := (s1.unuse tgt).goto w .reset) (es := []) ?_ own (ends_reset own_time (goto_pc _ _ _))
      simp only [step, go, h1, hsig, hev, if_true]
      rfl
    · by_cases hdo : over s1.now due = true
      · refine Ends.cons (l := .go w) (s' := s1.goto w (.got tgt intr false k)) (es := []) ?_ own
          (time_got (goto_pc _ _ _) hu1 ht)
        simp only [step, go, h1, hsig, hev, hdo, if_true]
        rfl
      · have hto : over s1.now til = true := by
          rcases hd with hd | hd
          · exfalso
            cases hdd : due with
            | none => rw [hdd] at hd; cases hd
            | some e =>
              rw [hdd] at hdo
              simp only [over, decide_eq_true_eq] at hdo
              exact hdo (by rw [hn]; exact hdue e hdd)
          · cases hdd : til with
            | none => rw [hdd] at hd; cases hd
            | some e => simp only [over, decide_eq_true_eq]; rw [hn]; exact htil e hdd
        by_cases hm : msOk (x - s1.now) = true
        · have hms := ms_pos (x := x - s1.now) (by omega)
          refine Ends.cons (l := .go w) (s' := s1.goto w (.got tgt intr false k)) (es := []) ?_ own
            (time_got (goto_pc _ _ _) hu1 ht)
          simp only [step, go, h1, hsig, hev, hdo, hto, hm, if_true]
          rw [if_neg (show ¬ (ms (x - s1.now) = infinite ∨ 0 < ms (x - s1.now)) by unfold infinite; omega)]
          rfl
        · exact ends_overflow own_time (l := .go w) (tgt := tgt) (Or.inl rfl) (by simp only [step, go, h1, hsig, hev, hdo, hto, hm, if_true]; rfl)

theorem time_arm {s : St} {tgt : Option Nat} {intr : Bool} {x : Int} {k : Option Int} (h : (s.t w).pc = .arm tgt intr (some x) k) (hu : s.user = user)
    (ht : Come user k) : Ends (OwnOrTime w user) s w := by
  by_cases hm : msOk (x - s.now) = true
  · refine Ends.cons (l := .arm w true) (s' := s.goto w (.blocked tgt (intr && (s.t w).en) (some x)
      (some (s.now + (if 0 < ms (x - s.now) then ms (x - s.now) * 1000000 else 0))) none k)) (es := []) ?_ (own_time _ (Or.inr ⟨_, rfl⟩))
      (time_blocked (goto_pc _ _ _) hu ht (Or.inl rfl))
    simp only [step, armStep, h, hm, if_true]
  · exact ends_overflow own_time (l := .arm w true) (tgt := tgt) (Or.inr ⟨_, rfl⟩) (by simp only [step, armStep, h, hm, if_false]; rfl)

theorem time_add {s : St} {tgt : Option Nat} {intr : Bool} {d : Int} {k : Option Int} (h : (s.t w).pc = .add tgt intr d k) (hu : s.user = user)
    (ht : Come user k) : Ends (OwnOrTime w user) s w := by
  by_cases hm : fits (s.now + d) = true
  · refine Ends.cons (l := .go w) (s' := s.goto w (.arm tgt intr (some (s.now + d)) k)) (es := []) ?_ (own_time _ (Or.inl rfl))
      (time_arm (goto_pc _ _ _) hu ht)
    simp only [step, go, h, hm, if_true]
  · exact ends_overflow own_time (l := .go w) (tgt := tgt) (Or.inl rfl) (by simp only [step, go, h, hm, if_false]; rfl)

theorem time_look' {s : St} {tgt : Option Nat} {intr : Bool} {t : Int} {first : Bool} (h : (s.t w).pc = .look tgt intr t first) (hu : s.user = user)
    (ht : t ≤ user) : Ends (OwnOrTime w user) s w := by
  by_cases hm : inRange (t - s.user) = true
  · by_cases hc : ((first && tgt.isSome) || decide (0 < t - s.user)) = true
    · refine Ends.cons (l := .go w) (s' := s.goto w (.add tgt intr (min (t - s.user) poll) (some t))) (es := []) ?_ (own_time _ (Or.inl rfl))
        (time_add (goto_pc _ _ _) hu ht)
      simp only [step, go, h, hm, hc, if_true]
    · exact ends_giveUp own_time (l := .go w) (tgt := tgt) (Or.inl rfl) (by simp only [step, go, h, hm, hc, if_true, if_false]; rfl)
  · exact ends_overflow own_time (l := .go w) (tgt := tgt) (Or.inl rfl) (by simp only [step, go, h, hm, if_false]; rfl)

end

/-- A call with a deadline ends. -/
theorem ends_of_time {s : St} {σ : Sys} {w : Nat} {a : Active} {user : Int} (h : R s σ) (ht : TInv s) (ha : (σ.th w).call = some a)
    (hd : a.dl ≠ .never ∨ a.call = .point) (hu : ∀ t b, a.dl = .user t b → t ≤ user) : Ends (OwnOrTime w user) s w := by
  -- first the user's clock is set
  refine Ends.cons (l := .tick 0 user) (s' := { s with now := s.now + (0 : Nat), user := user }) (es := [.clock (s.now + (0 : Nat)) user]) rfl (Or.inr ⟨0, rfl⟩) ?_
  have hg := h.call (w := w)
  generalize hs1 : ({ s with now := s.now + (0 : Nat), user := user } : St) = s1
  have hu1 : s1.user = user := by rw [← hs1]
  have hpc1 : (s1.t w).pc = (s.t w).pc := by rw [← hs1]
  have hcome : ∀ {k : Option Int}, Loop s.user a k → Come user k := by
    intro k hl
    cases k with
    | none => trivial
    | some t => obtain ⟨b, h1, -⟩ := hl; exact hu t b h1
  unfold Good at hg
  split at hg <;> rename_i hpc <;> rw [hpc] at hpc1
  · rw [ha] at hg; cases hg
  · obtain ⟨a', h0, h1, h2, -⟩ := hg; rw [ha] at h0; cases h0; exact time_look' hpc1 hu1 (hcome h2)
  · obtain ⟨a', h0, h1, h2⟩ := hg; rw [ha] at h0; cases h0; exact time_add hpc1 hu1 (hcome h2.loop)
  · rename_i tgt intr dl k
    obtain ⟨a', h0, h1, h2, h3, h4⟩ := hg; rw [ha] at h0; cases h0
    cases dl with
    | none => rcases hd with hd | hd
              · exact absurd (h4 rfl) hd
              · exact absurd hd h1.noPoint
    | some x => exact time_arm hpc1 hu1 (hcome h2)
  · rename_i tgt intr dl due til k
    obtain ⟨a', h0, h1, h2, h3, h4, h5, h6⟩ := hg; rw [ha] at h0; cases h0
    cases dl with
    | none => rcases hd with hd | hd
              · exact absurd (h5 rfl) hd
              · exact absurd hd h1.noPoint
    | some x =>
      refine time_blocked hpc1 hu1 (hcome h3) ?_
      cases due with
      | some e => exact Or.inl rfl
      | none => exact Or.inr (ht w _ _ _ _ _ hpc).1
  · obtain ⟨a', h0, h1, h2, -⟩ := hg; rw [ha] at h0; cases h0; exact time_got hpc1 hu1 (hcome h2)
  · exact ends_reset own_time hpc1
  · exact ends_point own_time hpc1

end Verif.WinThread
