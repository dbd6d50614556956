import Verif.V2Mutex.Sim
/-! # Nobody sleeps without a reason, as long as no exclusive request is given up -/

set_option linter.unusedSimpArgs false

namespace Verif.V2Mutex

/-- Is this the end without success of an exclusive request that may be keeping others out? -/
def Own.givesUp (o : Own) : Event → Bool
  | .timedOut t op => o.entered t op
  | .threw t op => o.entered t op
  | _ => false

/-- There is always room for one more reader, and no exclusive request that may be keeping others out ends without success. -/
def clean (lim : Nat) : Own → List Event → Bool
  | o, [] => o.owners < lim
  | o, e :: es => decide (o.owners < lim) && !o.givesUp e && match next lim o e with
    | .ok o' => clean lim o' es
    | _ => true

theorem clean_owners {lim : Nat} {o : Own} {es : List Event} (h : clean lim o es = true) : o.owners < lim := by
  cases es with
  | nil => simpa [clean] using h
  | cons e es => simp only [clean, Bool.and_eq_true, decide_eq_true_eq] at h; exact h.1.1

theorem clean_append {lim : Nat} {o : Own} {es es' : List Event} (h : clean lim o (es ++ es') = true) : clean lim o es = true ∧ ∀ σ, specState (next lim) o es = some σ → clean lim σ es' = true := by
  induction es generalizing o with
  | nil =>
    refine ⟨by simpa [clean] using clean_owners h, ?_⟩
    intro σ hσ
    simp only [specState, Option.some.injEq] at hσ
    subst hσ; exact h
  | cons e es ih =>
    simp only [List.cons_append, clean, Bool.and_eq_true] at h ⊢
    cases hn : next lim o e with
    | ok o' =>
      simp only [hn] at h
      have := ih h.2
      exact ⟨⟨h.1, this.1⟩, by intro σ hσ; simp only [specState, hn] at hσ; exact this.2 σ hσ⟩
    | undefined => exact ⟨⟨h.1, rfl⟩, by intro σ hσ; simp [specState, hn] at hσ⟩
    | illegal => exact ⟨⟨h.1, rfl⟩, by intro σ hσ; simp [specState, hn] at hσ⟩

theorem next_disturbed {lim : Nat} {o o' : Own} {e : Event} (hn : next lim o e = .ok o') (hg : o.givesUp e = false) (hd : o.disturbed = false) : o'.disturbed = false := by
  simp only [Own.disturbed, Bool.or_eq_false_iff] at hd
  unfold next at hn
  split at hn <;> (try simp only [must, pre, Own.setWriter, Own.addReader, Own.setUpgrader, Own.readerToWriter, Own.readerToUpgrader, Own.upgradeToWriter] at hn) <;>
    (repeat' split at hn) <;> cases hn <;> simp_all [Own.disturbed, Own.givesUp]

theorem clean_disturbed {lim : Nat} {o o' : Own} {es : List Event} (hc : clean lim o es = true) (hs : specState (next lim) o es = some o') (hd : o.disturbed = false) : o'.disturbed = false := by
  induction es generalizing o with
  | nil => simp only [specState, Option.some.injEq] at hs; subst hs; exact hd
  | cons e es ih =>
    simp only [clean, Bool.and_eq_true] at hc
    simp only [specState] at hs
    cases hn : next lim o e with
    | ok o1 =>
      simp only [hn] at hc hs
      exact ih hc.2 hs (next_disturbed hn (by simpa using hc.1.2) hd)
    | undefined => simp [hn] at hs
    | illegal => simp [hn] at hs

/-- Whoever sleeps could not go on. -/
structure Awake (s : State) : Prop where
  g1 : ∀ t op tm, s.pc t = .gate1 op tm .asleep → op.ready s = false
  g2 : ∀ t op sv tm, s.pc t = .gate2 op sv tm .asleep → s.n ≠ 0

theorem awake_init (threads lim : Nat) : Awake (init threads lim) := by
  constructor <;> simp [init]

theorem Op.ready_false_of_w {s : State} (hw : s.w = true) {op : Op} (hne : op ≠ .upgradeToExclusive) : op.ready s = false := by
  cases op <;> simp_all [Op.ready, State.noWriterNoUpgrader, State.noWriterNoMaxReaders, State.noWriterNoUpgraderNoMaxReaders]

/-- Only `t` has moved, and readiness has not grown. -/
theorem Awake.move {s s' : State} (h : Awake s) (t : Nat) (p : PC) (hpc : s'.pc = upd s.pc t p) (h1 : ∀ x op tm, x ≠ t → s.pc x = .gate1 op tm .asleep → op.ready s = false → op.ready s' = false)
    (h2 : ∀ x op sv tm, x ≠ t → s.pc x = .gate2 op sv tm .asleep → s.n ≠ 0 → s'.n ≠ 0) (hp1 : ∀ op tm, p = .gate1 op tm .asleep → op.ready s' = false) (hp2 : ∀ op sv tm, p = .gate2 op sv tm .asleep → s'.n ≠ 0) : Awake s' := by
  constructor
  · intro x op tm he
    rw [hpc] at he
    simp only [upd_apply] at he
    split at he
    · exact hp1 op tm he
    · rename_i hx; exact h1 x op tm hx he (h.g1 x op tm he)
  · intro x op sv tm he
    rw [hpc] at he
    simp only [upd_apply] at he
    split at he
    · exact hp2 op sv tm he
    · rename_i hx; exact h2 x op sv tm hx he (h.g2 x op sv tm he)

/-- Only the place of `t` changes, and it does not fall asleep. -/
theorem Awake.pc {s : State} (h : Awake s) (t : Nat) (p : PC) (hp1 : ∀ op tm, p = .gate1 op tm .asleep → op.ready s = false) (hp2 : ∀ op sv tm, p = .gate2 op sv tm .asleep → s.n ≠ 0) : Awake { s with pc := upd s.pc t p } :=
  h.move t p rfl (fun _ op _ _ _ hr => by cases op <;> exact hr) (fun _ _ _ _ _ _ hn => hn) (fun op tm he => by have := hp1 op tm he; cases op <;> exact this) hp2

theorem wake1_not_asleep {p : PC} {op : Op} {tm : Bool} : p.wake1 ≠ .gate1 op tm .asleep := by
  unfold PC.wake1
  split
  · simp
  · rename_i h; rintro rfl; exact h _ _ rfl

/-- After `notify_all` on `gate1_`, if nobody sleeps on `gate2_`. -/
theorem awake_notifyAll1 {s : State} (h : ∀ t, (s.pc t).isG2 = false) : Awake s.notifyAll1 := by
  constructor
  · intro t op tm he
    exact absurd he wake1_not_asleep
  · intro t op sv tm he
    have := h t
    rw [wake1_gate2 he] at this; cases this

theorem awake_notifyOne1 {s s' : State} {pick : Option Nat} (h : Awake s) (hs : s.notifyOne1 pick = some s') : Awake s' := by
  cases pick with
  | none => simp only [State.notifyOne1] at hs; split at hs <;> cases hs; exact h
  | some t =>
    simp only [State.notifyOne1] at hs
    split at hs
    · cases hs
      refine h.pc t _ (fun _ _ he => absurd he wake1_not_asleep) (fun op sv tm he => h.g2 t op sv tm (wake1_gate2 he))
    · split at hs <;> cases hs; exact h

/-- A request passes `gate1_`. -/
theorem awake_pass1 {lim : Nat} {s : State} {o : Own} (hR : Rel lim s o) (h : Awake s) (t : Nat) (op : Op) (tm : Bool) (hr : op.ready s = true) (hw : s.w = false) : Awake (s.pass1 t tm op).1 := by
  have n2 : ∀ x op sv tm, s.pc x = .gate2 op sv tm .asleep → False := by
    intro x op sv tm he
    have := (hR.fr hw).none2 x
    rw [he] at this; cases this
  have n1 : ∀ x tm sl, s.pc x = .gate1 .upgradeToExclusive tm sl → False := fun x tm sl he => hR.g1 x _ tm sl he
  have nu : ∀ x op tm, s.pc x = .gate1 op tm .asleep → op ≠ .upgradeToExclusive := by
    rintro x op tm he rfl; exact n1 x tm _ he
  cases op with
  | shared =>
    simp only [State.pass1]
    refine h.move t .idle rfl (fun x op tm _ he hf => ?_) (fun x op sv tm _ he => absurd he (fun he => n2 x op sv tm he)) (by simp) (by simp)
    have := nu x op tm he
    have hnle := hR.nle
    cases op <;> simp_all [Op.ready, State.noWriterNoUpgrader, State.noWriterNoMaxReaders, State.noWriterNoUpgraderNoMaxReaders]
  | upgrade =>
    simp only [State.pass1]
    refine h.move t .idle rfl (fun x op tm _ he hf => ?_) (fun x op sv tm _ he => absurd he (fun he => n2 x op sv tm he)) (by simp) (by simp)
    have := nu x op tm he
    cases op <;> simp_all [Op.ready, State.noWriterNoUpgrader, State.noWriterNoMaxReaders, State.noWriterNoUpgraderNoMaxReaders]
  | sharedToUpgrade =>
    simp only [State.pass1]
    refine h.move t .idle rfl (fun x op tm _ he hf => ?_) (fun x op sv tm _ he => absurd he (fun he => n2 x op sv tm he)) (by simp) (by simp)
    have := nu x op tm he
    cases op <;> simp_all [Op.ready, State.noWriterNoUpgrader, State.noWriterNoMaxReaders, State.noWriterNoUpgraderNoMaxReaders]
  | lock =>
    simp only [State.pass1, State.enter2]
    split
    · exact h.move t .idle rfl (fun x op tm _ he _ => Op.ready_false_of_w rfl (nu x op tm he)) (fun x op sv tm _ he => absurd he (fun he => n2 x op sv tm he)) (by simp) (by simp)
    · rename_i hn
      refine h.move t (.gate2 .lock 0 tm .asleep) rfl (fun x op tm _ he _ => Op.ready_false_of_w rfl (nu x op tm he)) (fun x op sv tm _ he => absurd he (fun he => n2 x op sv tm he)) (by simp) (fun _ _ _ _ => ?_)
      simpa [State.noReaders] using hn
  | sharedToExclusive =>
    simp only [State.pass1, State.enter2]
    split
    · exact h.move t .idle rfl (fun x op tm _ he _ => Op.ready_false_of_w rfl (nu x op tm he)) (fun x op sv tm _ he => absurd he (fun he => n2 x op sv tm he)) (by simp) (by simp)
    · rename_i hn
      refine h.move t (.gate2 .sharedToExclusive (s.n - 1) tm .asleep) rfl (fun x op tm _ he _ => Op.ready_false_of_w rfl (nu x op tm he)) (fun x op sv tm _ he => absurd he (fun he => n2 x op sv tm he)) (by simp) (fun _ _ _ _ => ?_)
      simpa only [State.noReaders, beq_iff_eq] using hn
  | upgradeToExclusive =>
    simp only [State.pass1, State.enter2]
    split
    · exact h.move t .idle rfl (fun x op tm _ he _ => Op.ready_false_of_w rfl (nu x op tm he)) (fun x op sv tm _ he => absurd he (fun he => n2 x op sv tm he)) (by simp) (by simp)
    · rename_i hn
      refine h.move t (.gate2 .upgradeToExclusive (s.n - 1) tm .asleep) rfl (fun x op tm _ he _ => Op.ready_false_of_w rfl (nu x op tm he)) (fun x op sv tm _ he => absurd he (fun he => n2 x op sv tm he)) (by simp) (fun _ _ _ _ => ?_)
      simpa only [State.noReaders, beq_iff_eq] using hn

theorem ready_w {s : State} {op : Op} (hr : op.ready s = true) (ha : op.asserts s = true ∨ op ≠ .upgradeToExclusive) : s.w = false := by
  cases op <;> simp_all [Op.ready, Op.asserts, State.noWriterNoUpgrader, State.noWriterNoMaxReaders, State.noWriterNoUpgraderNoMaxReaders]

theorem tryReady_w {s : State} {op : TryOp} (hr : op.ready s = true) (ha : op.asserts s = true) : s.w = false := by
  cases op <;> simp_all [TryOp.ready, TryOp.asserts, State.noWriterNoUpgrader, State.noWriterNoMaxReaders, State.noWriterNoUpgraderNoMaxReaders]

theorem awake_dead {s : State} (h : Awake s) : Awake { s with dead := true } :=
  ⟨fun t op tm he => by have := h.g1 t op tm he; cases op <;> exact this, fun t op sv tm he => h.g2 t op sv tm he⟩

theorem awake_try {lim : Nat} {s : State} {o : Own} (hR : Rel lim s o) (h : Awake s) (op : TryOp) (hr : op.ready s = true) (ha : op.asserts s = true) : Awake (op.grant s) := by
  have hw := tryReady_w hr ha
  have n2 : ∀ x op sv tm, s.pc x = .gate2 op sv tm .asleep → False := by
    intro x op sv tm he
    have := (hR.fr hw).none2 x
    rw [he] at this; cases this
  have nu : ∀ x op tm, s.pc x = .gate1 op tm .asleep → op ≠ .upgradeToExclusive := by
    rintro x op tm he rfl; exact hR.g1 x _ tm _ he
  have hpc : (op.grant s).pc = s.pc := by cases op <;> rfl
  constructor
  · intro t op' tm he
    rw [hpc] at he
    have h1 := h.g1 t op' tm he
    have h2 := nu t op' tm he
    cases op <;> cases op' <;> simp_all [TryOp.grant, TryOp.ready, Op.ready, State.noWriterNoUpgrader, State.noWriterNoMaxReaders, State.noWriterNoUpgraderNoMaxReaders]
  · intro t op' sv tm he
    rw [hpc] at he
    exact absurd he (fun he => n2 t op' sv tm he)

theorem awake_down {lim : Nat} {s s' : State} {o : Own} {d : Down} {pick : Option Nat} (hR : Rel lim s o) (hdis : o.disturbed = false) (hl : o.owners < lim) (h : Awake s) (t : Nat) (hm : o.mayDown t d = true)
    (ha : d.asserts s = true) (hs : s.down pick d = some s') : Awake s' := by
  have nu : ∀ x op tm, s.pc x = .gate1 op tm .asleep → op ≠ .upgradeToExclusive := by
    rintro x op tm he rfl; exact hR.g1 x _ tm _ he
  cases d <;> simp only [State.down, Option.some.injEq, Own.mayDown, beq_iff_eq, Down.asserts, Bool.and_eq_true, Bool.not_eq_true'] at hs hm ha
  · subst hs; exact awake_notifyAll1 (hR.wr t hm).none2
  · cases hw : s.w with
    | false =>
      have hn := (hR.fr hw).exact hdis
      have key : Awake { s with n := s.n - 1 } := by
        constructor
        · intro x op tm he
          have h1 := h.g1 x op tm he
          have h2 := nu x op tm he
          have h3 : s.n ≠ s.limit := by rw [hR.lim]; omega
          cases op <;> simp_all [Op.ready, State.noWriterNoUpgrader, State.noWriterNoMaxReaders, State.noWriterNoUpgraderNoMaxReaders]
        · intro x op sv tm he
          have := (hR.fr hw).none2 x
          rw [he] at this; cases this
      rw [if_pos (by simp [hw])] at hs
      split at hs
      · exact awake_notifyOne1 key hs
      · cases hs; exact key
    | true =>
      have g1 : ∀ x op tm, s.pc x = .gate1 op tm .asleep → op.ready { s with n := s.n - 1 } = false := fun x op tm he => Op.ready_false_of_w (s := { s with n := s.n - 1 }) hw (nu x op tm he)
      rw [if_neg (by simp [hw])] at hs
      split at hs
      · rename_i hn
        cases pick with
        | none =>
          simp only [State.notifyOne2] at hs
          split at hs
          · rename_i hall
            cases hs
            refine ⟨fun x op tm he => by have := g1 x op tm he; cases op <;> exact this, fun x op sv tm he => ?_⟩
            have hlt := hR.lt_of_gate1 (t := x) (by rw [he]; simp)
            have := hall x hlt
            rw [show s.pc x = _ from he] at this
            cases this
          · cases hs
        | some p =>
          simp only [State.notifyOne2] at hs
          split at hs
          · rename_i hp
            cases hs
            cases hpp : s.pc p with
            | idle => simp [hpp, PC.asleep2] at hp
            | gate1 => simp [hpp, PC.asleep2] at hp
            | gate2 op sv tm sl =>
              have hg := hR.g2 p op sv tm sl hpp
              cases sl with
              | asleep =>
                constructor
                · intro x op' tm' he
                  simp only [upd_apply, hpp, PC.wake2] at he
                  split at he
                  · cases he
                  · have := g1 x op' tm' he; cases op' <;> exact this
                · intro x op' sv' tm' he
                  simp only [upd_apply, hpp, PC.wake2] at he
                  split at he
                  · cases he
                  · rename_i hx
                    exact absurd (hg.uniq x (by rw [he]; rfl)) hx
              | awake => simp [hpp, PC.asleep2] at hp
              | expired => simp [hpp, PC.asleep2] at hp
          · split at hs
            · rename_i hp1 hp
              cases hs
              refine ⟨fun x op tm he => by have := g1 x op tm he; cases op <;> exact this, fun x op sv tm he => ?_⟩
              simp only at he
              exfalso
              cases hpp : s.pc p with
              | idle => simp [hpp, PC.expired2] at hp
              | gate1 => simp [hpp, PC.expired2] at hp
              | gate2 op' sv' tm' sl' =>
                have := (hR.g2 x op sv tm _ he).uniq p (by rw [hpp]; rfl)
                subst this
                rw [he] at hpp; cases hpp
                simp [he, PC.expired2] at hp
            · cases hs
      · rename_i hn
        cases hs
        refine ⟨fun x op tm he => by have := g1 x op tm he; cases op <;> exact this, fun x op sv tm he => by simpa using hn⟩
  · subst hs; exact awake_notifyAll1 (hR.fr ha.1.1).none2
  · subst hs; exact awake_notifyAll1 (hR.wr t hm).none2
  · subst hs; exact awake_notifyAll1 (hR.fr ha.1.1).none2
  · subst hs; exact awake_notifyAll1 (hR.wr t hm).none2

theorem awake_step {lim : Nat} {s s' : State} {o σ : Own} {es : List Event} {l : Label} (hR : Rel lim s o) (hdis : o.disturbed = false) (h : Awake s) (hc : clean lim o es = true) (hσ : specState (next lim) o es = some σ)
    (hs : step s l = some (s', es)) : Awake s' := by
  have hl := clean_owners hc
  simp only [step] at hs
  split at hs
  · cases hs
  cases l <;> simp only at hs
  · rename_i t op tm
    split at hs
    · rename_i hcond
      split at hs
      · rename_i ha
        split at hs
        · rename_i hr
          simp only [Option.some.injEq, Prod.mk.injEq] at hs
          obtain ⟨rfl, rfl⟩ := hs
          exact awake_pass1 hR h t op tm hr (ready_w hr (Or.inl ha))
        · rename_i hr
          simp only [Option.some.injEq, Prod.mk.injEq] at hs
          obtain ⟨rfl, rfl⟩ := hs
          exact h.pc t _ (by rintro op' tm' he; cases he; simpa using hr) (by simp)
      · cases hs; exact awake_dead h
    · cases hs
  · rename_i t op
    split at hs
    · split at hs
      · rename_i ha
        split at hs
        · rename_i hr
          cases hs
          exact awake_try hR h op hr ha
        · cases hs; exact h
      · cases hs; exact awake_dead h
    · cases hs
  · rename_i t d pick
    split at hs
    · split at hs
      · rename_i ha
        split at hs
        · rename_i s1 he
          simp only [Option.some.injEq, Prod.mk.injEq] at hs
          obtain ⟨rfl, rfl⟩ := hs
          refine awake_down hR hdis hl h t ?_ ha he
          cases hm : o.mayDown t d with
          | true => rfl
          | false => cases d <;> simp only [Own.mayDown] at hm <;> (simp only [specState, next, hm, pre, Bool.false_eq_true, if_false] at hσ; cases hσ)
        · cases hs
      · cases hs; exact awake_dead h
    · cases hs
  · split at hs <;> cases hs <;> exact h.pc _ _ (by simp) (by simp)
  · split at hs <;> cases hs <;> exact h.pc _ _ (by simp) (by simp)
  · split at hs <;> cases hs <;> exact h.pc _ _ (by simp) (by simp)
  · rename_i t
    split at hs
    · rename_i op tm sl hp
      have hne : op ≠ .upgradeToExclusive := by rintro rfl; exact hR.g1 _ _ _ _ hp
      simp only [State.resume1] at hs
      split at hs
      · cases hs
      · split at hs
        · rename_i hr
          simp only [Option.some.injEq, Prod.mk.injEq] at hs
          obtain ⟨rfl, rfl⟩ := hs
          exact awake_pass1 hR h t op tm hr (ready_w hr (Or.inr hne))
        · rename_i hr
          split at hs
          · cases hs; exact h.pc _ _ (by simp) (by simp)
          · cases hs; exact h.pc _ _ (by rintro op' tm' he; cases he; simpa using hr) (by simp)
    · rename_i op sv tm sl hp
      have hg := hR.g2 t op sv tm sl hp
      simp only [State.resume2] at hs
      split at hs
      · cases hs
      · split at hs
        · cases hs; exact h.pc _ _ (by simp) (by simp)
        · rename_i hn
          split at hs
          · cases hs
            have := hg.entered
            simp [clean, Own.givesUp, this] at hc
          · cases hs
            exact h.pc _ _ (by simp) (fun _ _ _ _ => by simpa [State.noReaders] using hn)
    · cases hs

end Verif.V2Mutex
