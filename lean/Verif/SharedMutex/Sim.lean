import Verif.SharedMutex.Lemmas
/-! The model follows the specification: one lemma per kind of step. -/

namespace Verif.SharedMutex

theorem pcOk_idle (o : Own) (t : Nat) : pcOk o t .idle := by simp [pcOk, PC.wf, PC.op]

theorem TI.mono {o o' : Own} {ts : List PC} {t : Nat} (h : TI o ts) (ht : ts[t]? = some .idle)
    (hq : ∀ u q, u ≠ t → pcOk o u q → pcOk o' u q) : TI o' ts := by
  intro u q hu
  by_cases hut : u = t
  · subst hut; rw [ht] at hu; cases hu; exact pcOk_idle _ _
  · exact hq u q hut (h u q hu)

theorem set_same {ts : List PC} {t : Nat} {p : PC} (h : ts[t]? = some p) : ts.set t p = ts := by
  apply List.ext_getElem?
  intro u
  rw [getElem?_set_eq h]
  split
  · next htu => rw [← htu, h]
  · rfl

theorem follows_pre {P : Own → Prop} {o o' : Own} {e : Event} {es : List Event} {c : Bool}
    (h : specNext o e = pre c (.ok o')) (hf : c = true → Follows specNext P o' es) :
    Follows specNext P o (e :: es) := by
  simp only [Follows, h, pre]
  cases c with
  | false => simp
  | true => simpa using hf rfl

theorem follows_pre' {P : Own → Prop} {o : Own} {e : Event} {v : Verdict Own} {c : Bool}
    (h : specNext o e = pre c v) (hf : c = true → ∃ o', v = .ok o' ∧ P o') :
    Follows specNext P o [e] := by
  simp only [Follows, h, pre]
  cases c with
  | false => simp
  | true => obtain ⟨o', rfl, hP⟩ := hf rfl; simpa using hP

theorem sim_simple {b : Bool} {s s' : State} {o : Own} {t : Nat} {op : Op} {tm : Bool} {es : List Event}
    (h1 : op ≠ .exclusive) (h2 : op ≠ .upgradeToExclusive) (hX : op = .timedSharedToExclusive → b = false)
    (hR : R b s o) (hs : step s (.call t op tm) = some (s', es)) : Follows specNext (R b s') o es := by
  have hen : op.enter s.data = s.data := by cases op <;> first | rfl | contradiction
  simp only [step, hen] at hs
  split at hs
  · next ht =>
    split at hs
    · next hf =>
      have key : ∀ e, (opPre b o t op → pcOk o t (.asleep op tm) → Follows specNext (R b s') o [e]) →
          Follows specNext (R b s') o (op.callEvents t ++ [e]) := by
        intro e he
        have hbf := hR.bf
        have hwf : PC.wf (.asleep op tm) = true := by cases op <;> simp_all [PC.wf]
        cases op <;> simp only [Op.callEvents, List.nil_append, List.singleton_append]
        · exact he trivial (by simp [pcOk, PC.op, PC.wf])
        · exact he trivial (by simp [pcOk, PC.op, PC.wf])
        · contradiction
        · contradiction
        · refine follows_pre (c := o.upgrader == some t && !o.converting) rfl fun hc => he ?_ ?_ <;>
          simp_all [opPre, pcOk, PC.op, PC.wf]
        · refine follows_pre (c := o.readers.contains t) rfl fun hc => he ?_ ?_ <;>
          simp_all [opPre, pcOk, PC.op, PC.wf]
        · refine follows_pre (c := o.readers.contains t) rfl fun hc => he ?_ ?_ <;>
          simp_all [opPre, pcOk, PC.op, PC.wf]
      split at hs
      · next hr =>
        cases hs
        apply key
        intro hp _
        have := follows_grant hR ht (Or.inl rfl) hr hp
        rwa [set_same ht] at this
      · next hr =>
        cases hs
        apply key
        intro _ hok
        have := R_block hR ht (Or.inl rfl) (by simpa using hr) hok hX
        cases op <;> first | contradiction | exact this
    · cases hs
  · cases hs

theorem sim_exclusive {b : Bool} {s s' : State} {o : Own} {t : Nat} {tm : Bool} {es : List Event}
    (hR : R b s o) (hs : step s (.call t .exclusive tm) = some (s', es)) : Follows specNext (R b s') o es := by
  simp only [step] at hs
  split at hs
  · next ht =>
    split at hs
    · split at hs
      · next hr =>
        simp only [Option.some.injEq, Prod.mk.injEq, Op.callEvents, List.nil_append] at hs
        obtain ⟨rfl, rfl⟩ := hs
        have hr' : Op.exclusive.ready s.data = true := by
          simpa [Op.ready, Op.enter, Data.canLock] using hr
        obtain ⟨o', hv, hD, hq, hc⟩ := grant_exclusive (t := t) hR.data hr'
        have hR' := R_grant hR ht (Or.inl rfl) hr' trivial hv
        simp only [Follows, hv]
        refine ⟨⟨hD.excl, hD.upg, hD.count, hD.wr, hD.conv, ?_⟩, ?_, ?_, ?_, ?_, hR'.bf⟩
        · intro _; exact Or.inl rfl
        · have := hR'.pcs; rwa [set_same ht] at this
        · obtain ⟨w1, w2, w3, w4⟩ := hR'.wake
          rw [set_same ht] at *
          exact ⟨fun _ => Or.inl rfl, fun _ => Or.inl rfl, w3, w4⟩
        · have := hR'.cu; rwa [set_same ht] at this
        · have := hR'.bt; rwa [set_same ht] at this
      · next hr =>
        simp only [Option.some.injEq, Prod.mk.injEq, Op.callEvents, List.nil_append] at hs
        obtain ⟨rfl, rfl⟩ := hs
        have hr' : Op.exclusive.ready s.data = false := by
          simpa [Op.ready, Op.enter, Data.canLock] using hr
        have hR' := R_block (tm := tm) hR ht (Or.inl rfl) hr' (by simp [pcOk, PC.op, PC.wf]) (by simp)
        obtain ⟨⟨h1, h2, h3, h4, h5, h6⟩, hT, ⟨w1, w2, w3, w4⟩, h7, h8, h9⟩ := hR'
        simp only [Follows, specNext]
        exact ⟨⟨h1, h2, h3, h4, h5, fun _ => Or.inr (by simp)⟩, hT,
          ⟨fun _ => Or.inr rfl, fun _ => Or.inr (Or.inl rfl), w3, w4⟩, h7, h8, h9⟩
    · cases hs
  · cases hs

theorem sim_upgradeToExclusive {s s' : State} {o : Own} {t : Nat} {tm : Bool} {es : List Event}
    (hR : R true s o) (hs : step s (.call t .upgradeToExclusive tm) = some (s', es)) :
    Follows specNext (R true s') o es := by
  simp only [step] at hs
  split at hs
  · next ht =>
    split at hs
    · next hf =>
      have htm : tm = false := by simpa [Op.hasForm] using hf
      subst htm
      split at hs
      · next hr =>
        simp only [Option.some.injEq, Prod.mk.injEq, Op.callEvents, List.singleton_append] at hs
        obtain ⟨rfl, rfl⟩ := hs
        refine follows_pre (c := o.upgrader == some t && !o.converting) rfl fun hc => ?_
        obtain ⟨⟨h1, h2, h3, h4, h5, h6⟩, hT, ⟨w1, w2, w3, w4⟩, h7, h8, h9⟩ := hR
        simp only [Bool.and_eq_true, beq_iff_eq, Bool.not_eq_true'] at hc
        obtain ⟨hu, hcv⟩ := hc
        have hsc : s.data.sharedCount = 1 := by
          simp only [Op.ready, Op.enter, Data.noShared, Data.decShared] at hr
          simp [hu, hcv] at h3
          grind
        have hrd : o.readers = [] := by
          simp [hu, hcv] at h3
          cases hrr : o.readers with
          | nil => rfl
          | cons => simp [hrr] at h3; omega
        have hw : o.writer = none := by
          cases hww : o.writer with
          | none => rfl
          | some => simp_all
        have haU := aU_le_isU s.ts
        have := isU_zero hT hcv
        simp only [Follows, specNext, Own.upgradeToWriter, hw, hu, hrd, must]
        simp only [Option.isNone_none, BEq.rfl, List.isEmpty_nil, Bool.and_true, if_true]
        refine ⟨⟨?_, ?_, ?_, ?_, ?_, ?_⟩, ?_, ⟨?_, ?_, ?_, ?_⟩, ?_, h8, ?_⟩ <;>
          simp [Op.grant, Op.enter, Data.decShared, hsc] <;> try omega
        exact hT.mono ht (by intro u q hne; unfold pcOk; simp [hu, hrd, hcv]; grind)
      · next hr =>
        simp only [Option.some.injEq, Prod.mk.injEq, Op.callEvents, List.singleton_append] at hs
        obtain ⟨rfl, rfl⟩ := hs
        refine follows_pre (c := o.upgrader == some t && !o.converting) rfl fun hc => ?_
        obtain ⟨⟨h1, h2, h3, h4, h5, h6⟩, hT, ⟨w1, w2, w3, w4⟩, h7, h8, h9⟩ := hR
        simp only [Bool.and_eq_true, beq_iff_eq, Bool.not_eq_true'] at hc
        obtain ⟨hu, hcv⟩ := hc
        have hsc : 1 < s.data.sharedCount := by
          simp only [Op.ready, Op.enter, Data.noShared, Data.decShared] at hr
          simp [hu, hcv] at h3
          grind
        have hrd : o.readers ≠ [] := by
          intro hrr
          simp [hu, hcv, hrr] at h3
          omega
        have hw : o.writer = none := by
          cases hww : o.writer with
          | none => rfl
          | some => simp_all
        have hdec : s.data.decShared = { s.data with sharedCount := s.data.sharedCount - 1 } := by
          simp [Data.decShared]; omega
        have c1 := cnt_set aS (.asleep .upgradeToExclusive false) ht
        have c2 := cnt_set aG (.asleep .upgradeToExclusive false) ht
        have c3 := cnt_set aE (.asleep .upgradeToExclusive false) ht
        have c4 := cnt_set wE (.asleep .upgradeToExclusive false) ht
        have c6 := cnt_set isU (.asleep .upgradeToExclusive false) ht
        have c7 := cnt_set isX (.asleep .upgradeToExclusive false) ht
        have hre : o.readers.isEmpty = false := by simpa using hrd
        simp only [Follows, specNext, Op.enter, hdec]
        simp [hu, hcv, hre] at h1 h2 h3
        simp [aS, aG, aE, wE, isU, isX] at c1 c2 c3 c4 c6 c7
        refine ⟨⟨?_, ?_, ?_, ?_, ?_, ?_⟩, ?_, ⟨?_, ?_, ?_, ?_⟩, ?_, ?_, ?_⟩ <;> simp [hre, hu, hw, c1, c2, c3, c4, c6, c7] <;>
          try grind
        refine TI.set (p := .idle) (hT.mono ht ?_) ht ?_
        · intro u q hne; unfold pcOk; simp [hu, hcv]; grind
        · simp [pcOk, PC.op, PC.wf]
    · cases hs
  · cases hs

/-- Non-blocking attempts. -/
theorem sim_try_true {b : Bool} {s : State} {o : Own} {t : Nat} {op : TryOp} (hR : R b s o)
    (ht : s.ts[t]? = some .idle) (hr : op.ready s.data = true) :
    Follows specNext (R b { s with data := op.grant s.data }) o [.tried t op true] := by
  cases op with
  | shared =>
    have := follows_grant hR ht (op := .shared) (Or.inl rfl) hr trivial
    rw [set_same ht] at this
    exact this
  | upgrade =>
    have := follows_grant hR ht (op := .upgrade) (Or.inl rfl) hr trivial
    rw [set_same ht] at this
    exact this
  | exclusive =>
    have := follows_grant hR ht (op := .exclusive) (Or.inl rfl) hr trivial
    rw [set_same ht] at this
    exact this
  | sharedToUpgrade =>
    have := follows_grant hR ht (op := .timedSharedToUpgrade) (Or.inl rfl) hr
    rw [set_same ht] at this
    refine follows_pre' (c := o.readers.contains t) rfl fun hc => ?_
    have := this (by simpa [opPre] using hc)
    simp only [Follows, specNext] at this
    split at this
    · next h => exact ⟨_, h, this⟩
    · next h => simp only [Own.readerToUpgrader, must] at h; split at h <;> cases h
    · contradiction
  | upgradeToExclusive =>
    simp only [TryOp.ready, Bool.and_eq_true, Bool.not_eq_true', beq_iff_eq] at hr
    obtain ⟨⟨⟨hr1, hr2⟩, hr3⟩, hr4⟩ := hr
    have := follows_grant hR ht (op := .timedUpgradeToExclusive) (Or.inl rfl) (by simpa [Op.ready, Data.oneShared])
    rw [set_same ht] at this
    refine follows_pre' (c := o.upgrader == some t && !o.converting) rfl fun hc => ?_
    have := this (by simpa [opPre, and_comm] using hc)
    simp only [Follows, specNext] at this
    split at this
    · next h =>
      refine ⟨_, h, ?_⟩
      simpa [Op.grant, TryOp.grant, hr2] using this
    · next h => simp only [Own.upgradeToWriter, must] at h; split at h <;> cases h
    · contradiction
  | sharedToExclusive =>
    simp only [TryOp.ready, Bool.and_eq_true, Bool.not_eq_true', beq_iff_eq] at hr
    obtain ⟨⟨⟨hr1, hr2⟩, hr3⟩, hr4⟩ := hr
    have hD := hR.data
    refine follows_pre' (c := o.readers.contains t) rfl fun hc => ?_
    have htm : t ∈ o.readers := by simpa using hc
    have hre : o.readers.isEmpty = false := by cases h : o.readers <;> simp_all
    have hcv : o.converting = false := by
      have := hD.conv
      have := hD.upg
      cases h : o.converting <;> simp_all
    have hu : o.upgrader = none := by
      have := hD.upg
      cases h : o.upgrader <;> simp_all
    obtain ⟨o', hv, hD', hq, hc'⟩ := grant_tSToE (t := t) hD (by simpa [Op.ready, Data.oneShared]) ⟨htm, hcv⟩
    refine ⟨o', hv, ?_⟩
    have haU := aU_le_isU s.ts
    have := isU_zero hR.pcs hcv
    refine ⟨?_, hR.pcs.mono ht hq, ⟨?_, ?_, ?_, ?_⟩, ?_, hR.bt, ?_⟩
    · simpa [Op.grant, TryOp.grant, hr2, hr3] using hD'
    · intro _; exact Or.inl rfl
    · intro _; exact Or.inl rfl
    · intro _ h; simp [TryOp.grant] at h
    · intro h; simp only at h; omega
    · intro h; have := (hc' h).1; simp_all
    · intro _
      cases h : o'.converting with
      | false => rfl
      | true => have := (hc' h).1; simp_all

theorem sim_try_false {b : Bool} {s : State} {o : Own} {t : Nat} {op : TryOp} (hR : R b s o)
    (hr : op.ready s.data = false) :
    Follows specNext (R b s) o [.tried t op false] := by
  obtain ⟨h1, h2, h3, h4, h5, h6⟩ := hR.data
  have hp : s.data.exclusiveWaitingBlocked = true → o.writerAround = true := by
    intro h
    simp only [Own.writerAround]
    rcases h6 h with h | h
    · grind
    · simp [h]
  have he : s.data.exclusive = true → o.writerAround = true := by
    simp only [Own.writerAround]; grind
  have hf : ∀ c, c = true → ∃ o', must c o = .ok o' ∧ R b s o' := by
    intro c hc; exact ⟨o, by simp [must, hc], hR⟩
  have hf1 : ∀ c e, specNext o e = must c o → c = true → Follows specNext (R b s) o [e] := by
    intro c e h hc
    simp only [Follows, h, must, hc, if_true]
    exact hR
  cases op with
  | shared =>
    refine hf1 _ _ rfl ?_
    simp only [TryOp.ready, Data.canLockShared] at hr
    grind
  | upgrade =>
    refine hf1 _ _ rfl ?_
    simp only [TryOp.ready, Data.canLockUpgrade] at hr
    grind
  | exclusive =>
    refine hf1 _ _ rfl ?_
    simp only [TryOp.ready, Data.canLock] at hr
    cases hu : o.upgrader <;> cases hrr : o.readers <;> simp_all
  | sharedToUpgrade =>
    refine follows_pre' (c := o.readers.contains t) rfl fun hc => hf _ ?_
    simp only [TryOp.ready, Data.canLockUpgrade] at hr
    grind
  | upgradeToExclusive =>
    refine follows_pre' (c := o.upgrader == some t && !o.converting) rfl fun hc => hf _ ?_
    simp only [TryOp.ready] at hr
    cases hrr : o.readers <;> cases hw : o.writerAround <;> simp_all
  | sharedToExclusive =>
    refine follows_pre' (c := o.readers.contains t) rfl fun hc => hf _ ?_
    simp only [TryOp.ready] at hr
    have : o.readers = [t] → o.readers.isEmpty = false := by intro h; simp [h]
    have : o.readers = [t] → o.readers.length = 1 := by intro h; simp [h]
    cases hu : o.upgrader <;> cases hw : o.writerAround <;> simp_all
    grind


theorem isC_zero {o : Own} {ts : List PC} (h : TI o ts) (hc : o.readers = []) : cnt isC ts = 0 := by
  rw [cnt_eq_zero]
  intro t p hp
  have := (h t p hp).2.2.2.2
  cases p with
  | idle => rfl
  | asleep op tm => cases op <;> simp_all [isC, PC.op]
  | woken op tm => cases op <;> simp_all [isC, PC.op]
  | expired op => cases op <;> simp_all [isC, PC.op]

theorem isU_op {p : PC} (h : isU p = true) : p.op = some .upgradeToExclusive := by
  cases p with
  | idle => cases h
  | asleep op tm => cases op <;> simp_all [isU, PC.op]
  | woken op tm => cases op <;> simp_all [isU, PC.op]
  | expired op => cases op <;> simp_all [isU, PC.op]

theorem isU_le_one {o : Own} {ts : List PC} (h : TI o ts) : cnt isU ts ≤ 1 := by
  refine cnt_le_one fun t u p q ht hu hp hq => ?_
  have h1 := (h t p ht).2.1 (isU_op hp)
  have h2 := (h u q hu).2.1 (isU_op hq)
  have := h1.2.symm.trans h2.2
  simpa using this

theorem no_expired_U {o : Own} {ts : List PC} (h : TI o ts) (t : Nat) :
    ts[t]? ≠ some (PC.expired .upgradeToExclusive) := by
  intro ht
  have := (h t _ ht).1
  simp [PC.wf] at this

theorem decShared_eq {d : Data} (h : d.sharedCount ≠ 0) :
    d.decShared = { d with sharedCount := d.sharedCount - 1 } := by
  simp [Data.decShared, h]

theorem sim_unlock_exclusive {b : Bool} {s s' : State} {o : Own} {t : Nat} {w v : Option Nat} {es : List Event}
    (hR : R b s o) (ht : s.ts[t]? = some .idle) (hs : unlock s t .exclusive w v = some (s', es)) :
    Follows specNext (R b s') o es := by
  simp only [unlock] at hs
  split at hs
  · next ts hrw =>
    simp only [Option.some.injEq, Prod.mk.injEq] at hs
    obtain ⟨rfl, rfl⟩ := hs
    have hw := releaseWaiters_rw hrw
    obtain ⟨⟨h1, h2, h3, h4, h5, h6⟩, hT, ⟨w1, w2, w3, w4⟩, h7, h8, h9⟩ := hR
    refine follows_pre (c := o.writer == some t) rfl fun hc => ?_
    have hwr : o.writer = some t := by simpa using hc
    obtain ⟨hrd, hup⟩ := h4 (by simp [hwr])
    have hcv : o.converting = false := by
      cases h : o.converting with
      | false => rfl
      | true => have := h5 h; simp_all
    have z1 := isC_zero hT hrd
    have z2 := isU_zero hT hcv
    have z3 := aU_le_isU s.ts
    obtain ⟨k1, k2, k3, k4, k5, k6, k7⟩ := hw
    simp only [Follows]
    refine ⟨⟨?_, ?_, ?_, ?_, ?_, ?_⟩, k1 _ (hT.mono ht ?_), ⟨?_, ?_, ?_, ?_⟩, ?_, ?_, ?_⟩ <;>
      simp_all [pcOk] <;> omega
  · cases hs

theorem sim_unlock_upgrade {b : Bool} {s s' : State} {o : Own} {t : Nat} {w v : Option Nat} {es : List Event}
    (hR : R b s o) (ht : s.ts[t]? = some .idle) (hs : unlock s t .upgrade w v = some (s', es)) :
    Follows specNext (R b s') o es := by
  have hb : ∀ s', (o.upgrader = some t → o.converting = false → R b s' { o with upgrader := none }) →
      Follows specNext (R b s') o [.released t .upgrade] := fun s' h =>
    follows_pre (c := o.upgrader == some t && !o.converting) rfl fun hc => by
      simp only [Bool.and_eq_true, beq_iff_eq, Bool.not_eq_true'] at hc
      exact h hc.1 hc.2
  obtain ⟨⟨h1, h2, h3, h4, h5, h6⟩, hT, ⟨w1, w2, w3, w4⟩, h7, h8, h9⟩ := hR
  have hmono : ∀ u q, u ≠ t → o.upgrader = some t → o.converting = false → pcOk o u q →
      pcOk { o with upgrader := none } u q := by
    intro u q hne hu hc
    simp only [pcOk, hu, hc]
    grind
  simp only [unlock] at hs
  split at hs
  · next hn =>
    split at hs
    · next ts hrw =>
      simp only [Option.some.injEq, Prod.mk.injEq] at hs
      obtain ⟨rfl, rfl⟩ := hs
      have hw := releaseWaiters_rw hrw
      refine hb _ fun hu hc => ?_
      have hcnt : s.data.sharedCount = o.readers.length + 1 := by simpa [hu, hc] using h3
      rw [decShared_eq (by omega)] at hn ⊢
      simp only [Data.noShared, beq_iff_eq] at hn
      have hrd : o.readers = [] := by
        have : o.readers.length = 0 := by omega
        simpa using this
      have hwr : o.writer = none := by
        cases hww : o.writer with
        | none => rfl
        | some => simp_all
      have z1 := isC_zero hT hrd
      have z2 := isU_zero hT hc
      have z3 := aU_le_isU s.ts
      obtain ⟨k1, k2, k3, k4, k5, k6, k7⟩ := hw
      refine ⟨⟨?_, ?_, ?_, ?_, ?_, ?_⟩, k1 _ (hT.mono ht fun u q hne => hmono u q hne hu hc), ⟨?_, ?_, ?_, ?_⟩, ?_, ?_, ?_⟩ <;>
        simp_all <;> omega
    · cases hs
  · next hn =>
    simp only [Option.some.injEq, Prod.mk.injEq] at hs
    obtain ⟨rfl, rfl⟩ := hs
    refine hb _ fun hu hc => ?_
    have hcnt : s.data.sharedCount = o.readers.length + 1 := by simpa [hu, hc] using h3
    rw [decShared_eq (by omega)] at hn ⊢
    simp only [Data.noShared, beq_iff_eq] at hn
    have hwr : o.writer = none := by
      cases hww : o.writer with
      | none => rfl
      | some => simp_all
    refine ⟨⟨?_, ?_, ?_, ?_, ?_, ?_⟩, (hT.mono ht fun u q hne => hmono u q hne hu hc).nas, ⟨?_, ?_, ?_, ?_⟩, ?_, ?_, ?_⟩ <;>
      simp_all [nas_S, nas_G, nas_U, nas_isU, nas_isX]

theorem sim_unlock_shared {b : Bool} {s s' : State} {o : Own} {t : Nat} {w v : Option Nat} {es : List Event}
    (hR : R b s o) (ht : s.ts[t]? = some .idle) (hs : unlock s t .shared w v = some (s', es)) :
    Follows specNext (R b s') o es := by
  have hb : ∀ s', (t ∈ o.readers → R b s' { o with readers := o.readers.erase t }) →
      Follows specNext (R b s') o [.released t .shared] := fun s' h =>
    follows_pre (c := o.readers.contains t) rfl fun hc => h (by simpa using hc)
  obtain ⟨⟨h1, h2, h3, h4, h5, h6⟩, hT, ⟨w1, w2, w3, w4⟩, h7, h8, h9⟩ := hR
  have hT' : TI { o with readers := o.readers.erase t } s.ts := hT.mono ht fun u q hne => by
    simp only [pcOk, List.mem_erase_of_ne hne]
    exact id
  have hlen : t ∈ o.readers → (o.readers.erase t).length + 1 = o.readers.length := by
    intro h
    have := List.length_erase_of_mem h
    have := List.length_pos_of_mem h
    omega
  have hne : t ∈ o.readers → o.readers.isEmpty = false := by
    intro h
    cases hr : o.readers with
    | nil => simp [hr] at h
    | cons => rfl
  have hwr : t ∈ o.readers → o.writer = none := by
    intro h
    cases hww : o.writer with
    | none => rfl
    | some => have := h4 (by simp [hww]); simp_all
  have hpos : t ∈ o.readers → s.data.sharedCount ≠ 0 := by
    intro h; have := hlen h; omega
  simp only [unlock] at hs
  split at hs
  · next hn =>
    split at hs
    · next hup =>
      split at hs
      · next ts₁ hno =>
        split at hs
        · next ts hrw =>
          simp only [Option.some.injEq, Prod.mk.injEq] at hs
          obtain ⟨rfl, rfl⟩ := hs
          have hw := releaseWaiters_rw hrw
          have hN := notifyOne_no hno
          refine hb _ fun hm => ?_
          have p1 := hlen hm
          have p2 := hne hm
          have p3 := hwr hm
          rw [decShared_eq (hpos hm)] at hn hup ⊢
          simp only [Data.noShared, beq_iff_eq] at hn hup
          have p4 := hN.effU rfl (isU_le_one hT) (no_expired_U hT)
          have hrd : o.readers.erase t = [] := by
            have : (o.readers.erase t).length = 0 := by omega
            simpa using this
          have hus : o.upgrader.isSome = true := by
            cases hu : o.upgrader <;> simp_all
          have hcv : o.converting = true := by
            cases hc : o.converting <;> simp_all
          obtain ⟨k1, k2, k3, k4, k5, k6, k7⟩ := hw
          refine ⟨⟨?_, ?_, ?_, ?_, ?_, ?_⟩, k1 _ (hN.ti _ hT'), ⟨?_, ?_, ?_, ?_⟩, ?_, ?_, ?_⟩ <;>
            clear hb hlen hne hwr hpos p1 hno hrw hT hT' <;> simp_all [hN.convU, hN.convX]
        · cases hs
      · cases hs
    · next hup =>
      split at hs
      · next ts hrw =>
        simp only [Option.some.injEq, Prod.mk.injEq] at hs
        obtain ⟨rfl, rfl⟩ := hs
        have hw := releaseWaiters_rw hrw
        refine hb _ fun hm => ?_
        have p1 := hlen hm
        have p2 := hne hm
        have p3 := hwr hm
        rw [decShared_eq (hpos hm)] at hn hup ⊢
        simp only [Data.noShared, beq_iff_eq] at hn hup
        have hrd : o.readers.erase t = [] := by
          have : (o.readers.erase t).length = 0 := by omega
          simpa using this
        have hus : o.upgrader = none := by
          cases hu : o.upgrader <;> simp_all
        have hcv : o.converting = false := by
          cases hc : o.converting with
          | false => rfl
          | true => have := h5 hc; simp_all
        have z1 := isC_zero hT' hrd
        have z2 := isU_zero hT hcv
        have z3 := aU_le_isU s.ts
        obtain ⟨k1, k2, k3, k4, k5, k6, k7⟩ := hw
        refine ⟨⟨?_, ?_, ?_, ?_, ?_, ?_⟩, k1 _ hT', ⟨?_, ?_, ?_, ?_⟩, ?_, ?_, ?_⟩ <;>
          clear hb hlen hne hwr hpos p1 hrw hT hT' <;> simp_all
      · cases hs
  · next hn =>
    simp only [Option.some.injEq, Prod.mk.injEq] at hs
    obtain ⟨rfl, rfl⟩ := hs
    refine hb _ fun hm => ?_
    have p1 := hlen hm
    have p2 := hne hm
    have p3 := hwr hm
    rw [decShared_eq (hpos hm)] at hn ⊢
    simp only [Data.noShared, beq_iff_eq] at hn
    have : o.converting = true → (o.readers.erase t).isEmpty = false := by
      intro hc
      cases he : o.readers.erase t with
      | cons => rfl
      | nil => simp [hc, he] at h3 p1; omega
    refine ⟨⟨?_, ?_, ?_, ?_, ?_, ?_⟩, hT', ⟨?_, ?_, ?_, ?_⟩, ?_, ?_, ?_⟩ <;>
      simp_all <;> grind

theorem sim_down {b : Bool} {s s' : State} {o : Own} {t : Nat} {c : Down} {w : Option Nat} {es : List Event}
    (hR : R b s o) (ht : s.ts[t]? = some .idle) (hs : down s t c w = some (s', es)) :
    Follows specNext (R b s') o es := by
  simp only [down] at hs
  split at hs
  · cases hs
  · next ts hrw =>
    simp only [Option.some.injEq, Prod.mk.injEq] at hs
    obtain ⟨rfl, rfl⟩ := hs
    obtain ⟨k1, k2, k3, k4, k5, k6, k7⟩ := releaseWaiters_rw hrw
    obtain ⟨⟨h1, h2, h3, h4, h5, h6⟩, hT, ⟨w1, w2, w3, w4⟩, h7, h8, h9⟩ := hR
    have hcv : o.writer = some t → o.converting = false := by
      intro h
      cases hc : o.converting with
      | false => rfl
      | true => have := h5 hc; simp_all
    cases c with
    | exclusiveToUpgrade =>
      refine follows_pre (c := o.writer == some t) rfl fun hc => ?_
      have hwr : o.writer = some t := by simpa using hc
      obtain ⟨hrd, hup⟩ := h4 (by simp [hwr])
      have hcv := hcv hwr
      simp only [Follows]
      refine ⟨⟨?_, ?_, ?_, ?_, ?_, ?_⟩, k1 _ (hT.mono ht ?_), ⟨?_, ?_, ?_, ?_⟩, ?_, ?_, ?_⟩ <;>
        simp_all [pcOk, Data.incShared]
    | exclusiveToShared =>
      refine follows_pre (c := o.writer == some t) rfl fun hc => ?_
      have hwr : o.writer = some t := by simpa using hc
      obtain ⟨hrd, hup⟩ := h4 (by simp [hwr])
      have hcv := hcv hwr
      simp only [Follows]
      refine ⟨⟨?_, ?_, ?_, ?_, ?_, ?_⟩, k1 _ (hT.mono ht ?_), ⟨?_, ?_, ?_, ?_⟩, ?_, ?_, ?_⟩ <;>
        simp_all [pcOk, Data.incShared]
    | upgradeToShared =>
      refine follows_pre (c := o.upgrader == some t && !o.converting) rfl fun hc => ?_
      simp only [Bool.and_eq_true, beq_iff_eq, Bool.not_eq_true'] at hc
      obtain ⟨hu, hcv⟩ := hc
      have hwr : o.writer = none := by
        cases hww : o.writer with
        | none => rfl
        | some => simp_all
      have hmono : ∀ u q, u ≠ t → pcOk o u q → pcOk { o with upgrader := none, readers := t :: o.readers } u q := by
        intro u q hne
        simp only [pcOk, hu, hcv]
        grind
      simp only [Follows]
      refine ⟨⟨?_, ?_, ?_, ?_, ?_, ?_⟩, k1 _ (hT.mono ht hmono), ⟨?_, ?_, ?_, ?_⟩, ?_, ?_, ?_⟩ <;>
        simp_all

theorem sim_resume {b : Bool} {s s' : State} {o : Own} {t : Nat} {w : Option Nat} {es : List Event}
    (hR : R b s o) (hs : step s (.resume t w) = some (s', es)) : Follows specNext (R b s') o es := by
  simp only [step] at hs
  split at hs
  · next op tm ht =>
    have hpre := opPre_of_pcOk hR ht rfl
    split at hs
    · next hr =>
      simp only [Option.some.injEq, Prod.mk.injEq] at hs
      obtain ⟨rfl, rfl⟩ := hs
      exact follows_grant hR ht (Or.inr (Or.inl ⟨_, rfl⟩)) hr hpre
    · next hr =>
      simp only [Option.some.injEq, Prod.mk.injEq] at hs
      obtain ⟨rfl, rfl⟩ := hs
      refine R_block hR ht (Or.inr rfl) (by simpa using hr) ?_ (X_of_pc hR ht rfl)
      have := hR.pcs t _ ht
      simpa [pcOk, PC.op, PC.wf] using this
  · next op ht =>
    have hpre := opPre_of_pcOk hR ht rfl
    have hwf := (hR.pcs t _ ht).1
    have c1 := cnt_set aS .idle ht
    have c2 := cnt_set aG .idle ht
    have c3 := cnt_set aE .idle ht
    have c4 := cnt_set wE .idle ht
    have c5 := cnt_set aU .idle ht
    have c6 := cnt_set isU .idle ht
    have c7 := cnt_set isX .idle ht
    split at hs
    · next hr =>
      simp only [Option.some.injEq, Prod.mk.injEq] at hs
      obtain ⟨rfl, rfl⟩ := hs
      exact follows_grant hR ht (Or.inr (Or.inr rfl)) hr hpre
    · next hr =>
      obtain ⟨⟨h1, h2, h3, h4, h5, h6⟩, hT, ⟨w1, w2, w3, w4⟩, h7, h8, h9⟩ := hR
      have hT' := hT.set ht (pcOk_idle o t)
      split at hs
      · next hop =>
        subst hop
        split at hs
        · next ts hrw =>
          simp only [Option.some.injEq, Prod.mk.injEq] at hs
          obtain ⟨rfl, rfl⟩ := hs
          obtain ⟨k1, k2, k3, k4, k5, k6, k7⟩ := releaseWaiters_rw hrw
          simp only [Follows, specNext]
          simp [aS, aG, aE, wE, aU, isU, isX] at c1 c2 c3 c4 c5 c6 c7
          refine ⟨⟨?_, ?_, ?_, ?_, ?_, ?_⟩, k1 _ hT', ⟨?_, ?_, ?_, ?_⟩, ?_, ?_, ?_⟩ <;>
            simp_all [Op.ready, Data.canLock]
          all_goals grind
        · cases hs
      · next hop =>
        simp only [Option.some.injEq, Prod.mk.injEq] at hs
        obtain ⟨rfl, rfl⟩ := hs
        have : specNext o (.timedOut t op) = .ok o := by cases op <;> first | rfl | contradiction
        simp only [Follows, this]
        refine ⟨⟨h1, h2, h3, h4, h5, h6⟩, hT', ⟨?_, ?_, ?_, ?_⟩, ?_, ?_, h9⟩ <;>
          cases op <;> simp_all [aS, aG, aE, wE, aU, isU, isX, PC.wf]
        all_goals grind
  · cases hs

/-- Labels allowed under each mode of the relation. -/
def Allowed (b : Bool) (l : Label) : Prop :=
  ∀ t tm, (b = true → l ≠ .call t .timedSharedToExclusive tm) ∧ (b = false → l ≠ .call t .upgradeToExclusive tm)

theorem step_sim {b : Bool} (s : State) (l : Label) (s' : State) (es : List Event) (o : Own) (hl : Allowed b l)
    (hR : R b s o) (hs : step s l = some (s', es)) : Follows specNext (R b s') o es := by
  cases l with
  | call t op tm =>
    cases hop : op
    case exclusive => subst hop; exact sim_exclusive hR hs
    case upgradeToExclusive =>
      subst hop
      cases b with
      | true => exact sim_upgradeToExclusive hR hs
      | false => exact absurd rfl ((hl t tm).2 rfl)
    all_goals
      refine sim_simple (by simp [hop]) (by simp [hop]) ?_ hR hs
      intro hx
      cases b with
      | false => rfl
      | true => exact absurd (by rw [hx]) ((hl t tm).1 rfl)
  | tryCall t op =>
    simp only [step] at hs
    split at hs
    · next ht =>
      split at hs
      · next hr =>
        simp only [Option.some.injEq, Prod.mk.injEq] at hs
        obtain ⟨rfl, rfl⟩ := hs
        exact sim_try_true hR ht hr
      · next hr =>
        simp only [Option.some.injEq, Prod.mk.injEq] at hs
        obtain ⟨rfl, rfl⟩ := hs
        exact sim_try_false hR (by simpa using hr)
    · cases hs
  | unlock t m w v =>
    simp only [step] at hs
    split at hs
    · next ht =>
      cases m with
      | shared => exact sim_unlock_shared hR ht hs
      | upgrade => exact sim_unlock_upgrade hR ht hs
      | exclusive => exact sim_unlock_exclusive hR ht hs
    · cases hs
  | down t c w =>
    simp only [step] at hs
    split at hs
    · next ht => exact sim_down hR ht hs
    · cases hs
  | spurious t =>
    simp only [step] at hs
    split at hs
    · next op tm ht =>
      simp only [Option.some.injEq, Prod.mk.injEq] at hs
      obtain ⟨rfl, rfl⟩ := hs
      exact R_wake hR ht (Or.inl rfl)
    · cases hs
  | timeout t =>
    simp only [step] at hs
    split at hs
    · next op ht =>
      simp only [Option.some.injEq, Prod.mk.injEq] at hs
      obtain ⟨rfl, rfl⟩ := hs
      exact R_wake hR ht (Or.inr ⟨rfl, rfl⟩)
    · cases hs
  | resume t w => exact sim_resume hR hs

theorem R_init (b : Bool) (n : Nat) : R b (init n) free := by
  refine ⟨⟨rfl, rfl, rfl, ?_, ?_, ?_⟩, ?_, ⟨?_, ?_, ?_, ?_⟩, ?_, ?_, ?_⟩ <;>
    simp [init, free, cnt_replicate, aS, aG, aE, aU, isX]
  intro t p hp
  simp only [List.getElem?_replicate] at hp
  split at hp
  · cases hp; exact pcOk_idle _ _
  · cases hp

/-! ### An outstanding exclusive request keeps its flag honest -/

def isE : PC → Bool
  | .asleep .exclusive _ => true
  | .woken .exclusive _ => true
  | .expired .exclusive => true
  | _ => false

/-- `exclusive_waiting_blocked` is only set while there is a writer or somebody inside `lock`. -/
def EW (s : State) : Prop := s.data.exclusiveWaitingBlocked = true → s.data.exclusive = true ∨ 0 < cnt isE s.ts

theorem nas_isE (ts : List PC) : cnt isE (notifyAllShared ts) = cnt isE ts :=
  cnt_nas _ _ fun p => by cases p with | asleep op tm => cases op <;> rfl | _ => rfl

theorem no_isE {c : Cond} {ts ts' : List PC} {w : Option Nat} (h : notifyOne c ts w = some ts') :
    cnt isE ts' = cnt isE ts := by
  cases w with
  | none => simp only [notifyOne] at h; split at h <;> cases h; rfl
  | some u =>
    simp only [notifyOne] at h
    split at h
    · next op tm hu =>
      split at h
      · cases h
        have := cnt_set isE (.woken op tm) hu
        cases op <;> simp_all [isE]
      · cases h
    · split at h
      · cases h; rfl
      · cases h
    · cases h

theorem rw_isE {ts ts' : List PC} {w : Option Nat} (h : releaseWaiters ts w = some ts') :
    cnt isE ts' = cnt isE ts := by
  unfold releaseWaiters at h
  cases hn : notifyOne .exclusive ts w with
  | none => simp [hn] at h
  | some ts₁ =>
    simp only [hn, Option.map_some, Option.some.injEq] at h
    subst h
    rw [nas_isE, no_isE hn]

theorem step_ew (s : State) (l : Label) (s' : State) (es : List Event) (h : EW s) (hs : step s l = some (s', es)) :
    EW s' := by
  unfold EW at *
  cases l with
  | call t op tm =>
    simp only [step] at hs
    (repeat' split at hs) <;> simp only [Option.some.injEq, Prod.mk.injEq, reduceCtorEq] at hs <;> obtain ⟨rfl, rfl⟩ := hs
    · cases op <;> simp_all [Op.enter, Op.grant, Data.incShared, Data.decShared]
    · next ht _ _ =>
      have := cnt_set isE (.asleep op tm) ht
      cases op <;> simp_all [Op.enter, Data.decShared, isE]
  | tryCall t op =>
    simp only [step] at hs
    (repeat' split at hs) <;> simp only [Option.some.injEq, Prod.mk.injEq, reduceCtorEq] at hs <;> obtain ⟨rfl, rfl⟩ := hs
    · cases op <;> simp_all [TryOp.grant, Data.incShared]
    · exact h
  | unlock t m w v =>
    simp only [step, unlock] at hs
    (repeat' split at hs) <;> simp only [Option.some.injEq, Prod.mk.injEq, reduceCtorEq] at hs <;> obtain ⟨rfl, rfl⟩ := hs <;>
      simp_all [Data.decShared, nas_isE]
  | down t c w =>
    simp only [step, down] at hs
    (repeat' split at hs) <;> simp only [Option.some.injEq, Prod.mk.injEq, reduceCtorEq] at hs <;> obtain ⟨rfl, rfl⟩ := hs <;>
      simp_all
  | spurious t =>
    simp only [step] at hs
    (repeat' split at hs) <;> simp only [Option.some.injEq, Prod.mk.injEq, reduceCtorEq] at hs; obtain ⟨rfl, rfl⟩ := hs
    next op tm ht =>
      have := cnt_set isE (.woken op tm) ht
      cases op <;> simp_all [isE]
  | timeout t =>
    simp only [step] at hs
    (repeat' split at hs) <;> simp only [Option.some.injEq, Prod.mk.injEq, reduceCtorEq] at hs; obtain ⟨rfl, rfl⟩ := hs
    next op ht =>
      have := cnt_set isE (.expired op) ht
      cases op <;> simp_all [isE]
  | resume t w =>
    simp only [step] at hs
    (repeat' split at hs) <;> simp only [Option.some.injEq, Prod.mk.injEq, reduceCtorEq] at hs <;> obtain ⟨rfl, rfl⟩ := hs
    · next op tm ht hr =>
      have := cnt_set isE .idle ht
      cases op <;> simp_all [isE, Op.grant, Data.incShared]
    · next op tm ht hr =>
      have := cnt_set isE (.asleep op tm) ht
      cases op <;> simp_all [isE]
    · next op ht hr =>
      have := cnt_set isE .idle ht
      cases op <;> simp_all [isE, Op.grant, Data.incShared]
    · simp
    · next op ht hr hne =>
      have := cnt_set isE .idle ht
      cases op <;> simp_all [isE]

theorem isE_requests {s : State} (h : 0 < cnt isE s.ts) : ∃ u, RequestsExclusive s u := by
  obtain ⟨u, p, hu, hp⟩ := exists_of_cnt_pos h
  refine ⟨u, ?_⟩
  cases p with
  | idle => cases hp
  | asleep op tm => cases op <;> simp [isE] at hp; exact ⟨tm, Or.inl hu⟩
  | woken op tm => cases op <;> simp [isE] at hp; exact ⟨tm, Or.inr (Or.inl hu)⟩
  | expired op => cases op <;> simp [isE] at hp; exact ⟨true, Or.inr (Or.inr hu)⟩

theorem wE_about {s : State} (hr : s.data.canLock = true) (h : 0 < cnt wE s.ts) : ∃ u, AboutToWrite s u := by
  obtain ⟨u, p, hu, hp⟩ := exists_of_cnt_pos h
  refine ⟨u, ?_⟩
  cases p with
  | idle => cases hp
  | asleep op tm => cases hp
  | woken op tm => cases op <;> simp [wE] at hp; exact ⟨_, by simp [step, hu, Op.ready, hr]; rfl⟩
  | expired op => cases op <;> simp [wE] at hp; exact ⟨_, by simp [step, hu, Op.ready, hr]; rfl⟩

end Verif.SharedMutex
