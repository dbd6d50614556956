import Verif.SharedMutex.Spec
/-! Helper lemmas and the simulation relation for the shared mutex model. -/

namespace Verif.SharedMutex

/-- The operation a thread is inside, if it is blocked or coming back from a wait. -/
def PC.op : PC → Option Op
  | .idle => none
  | .asleep op _ => some op
  | .woken op _ => some op
  | .expired op => some op

/-- `unlock_upgrade_and_lock` is never timed. -/
def PC.wf : PC → Bool
  | .idle => true
  | .asleep op tm => op != .upgradeToExclusive || !tm
  | .woken op tm => op != .upgradeToExclusive || !tm
  | .expired op => op != .upgradeToExclusive

def aS : PC → Bool
  | .asleep .shared _ => true
  | _ => false
def aG : PC → Bool
  | .asleep .upgrade _ => true
  | _ => false
def aE : PC → Bool
  | .asleep .exclusive _ => true
  | _ => false
def wE : PC → Bool
  | .woken .exclusive _ => true
  | .expired .exclusive => true
  | _ => false
def aU : PC → Bool
  | .asleep .upgradeToExclusive _ => true
  | _ => false
def isU : PC → Bool
  | .asleep .upgradeToExclusive _ => true
  | .woken .upgradeToExclusive _ => true
  | .expired .upgradeToExclusive => true
  | _ => false
def isC : PC → Bool
  | .asleep .timedSharedToUpgrade _ => true
  | .woken .timedSharedToUpgrade _ => true
  | .expired .timedSharedToUpgrade => true
  | _ => false
def isX : PC → Bool
  | .asleep .timedSharedToExclusive _ => true
  | .woken .timedSharedToExclusive _ => true
  | .expired .timedSharedToExclusive => true
  | _ => false

/-- What a thread inside an operation implies about the owners. -/
def pcOk (o : Own) (t : Nat) (p : PC) : Prop :=
  p.wf = true ∧
  (p.op = some .upgradeToExclusive → o.converting = true ∧ o.upgrader = some t) ∧
  (p.op = some .timedUpgradeToExclusive → o.converting = false ∧ o.upgrader = some t) ∧
  (p.op = some .timedSharedToExclusive → t ∈ o.readers) ∧
  (p.op = some .timedSharedToUpgrade → t ∈ o.readers)

def TI (o : Own) (ts : List PC) : Prop := ∀ (t : Nat) (p : PC), ts[t]? = some p → pcOk o t p

/-- Data relation. -/
structure DR (d : Data) (o : Own) : Prop where
  excl : d.exclusive = (o.writer.isSome || (o.converting && o.readers.isEmpty))
  upg : d.upgrade = (o.upgrader.isSome && !(o.converting && o.readers.isEmpty))
  count : d.sharedCount = o.readers.length + b2n (o.upgrader.isSome && !o.converting)
  wr : o.writer.isSome = true → o.readers = [] ∧ o.upgrader = none
  conv : o.converting = true → o.upgrader.isSome = true
  ewb : d.exclusiveWaitingBlocked = true → d.exclusive = true ∨ o.pending ≠ []

/-- Wake-up invariants. -/
structure WK (d : Data) (ts : List PC) : Prop where
  s : 0 < cnt aS ts → d.exclusive = true ∨ d.exclusiveWaitingBlocked = true
  g : 0 < cnt aG ts → d.exclusive = true ∨ d.exclusiveWaitingBlocked = true ∨ d.upgrade = true
  e : d.sharedCount = 0 → d.exclusive = false → 0 < cnt aE ts → 0 < cnt wE ts
  u : 0 < cnt aU ts → d.sharedCount ≠ 0

/-- `b = true`: schedules without timed shared-to-exclusive conversions; `b = false`: schedules without
`unlock_upgrade_and_lock`. -/
structure R (b : Bool) (s : State) (o : Own) : Prop where
  data : DR s.data o
  pcs : TI o s.ts
  wake : WK s.data s.ts
  cu : o.converting = true → 0 < cnt isU s.ts
  bt : b = true → cnt isX s.ts = 0
  bf : b = false → o.converting = false

/-! ### Notifications -/

theorem getElem?_notifyAllShared (ts : List PC) (t : Nat) :
    (notifyAllShared ts)[t]? = (ts[t]?).map PC.wakeShared := by
  simp [notifyAllShared]

theorem cnt_nas (f : PC → Bool) (ts : List PC) (h : ∀ p, f p.wakeShared = f p) :
    cnt f (notifyAllShared ts) = cnt f ts := by
  rw [notifyAllShared, cnt_map]; exact cnt_congr ts h

theorem wakeShared_op (p : PC) : p.wakeShared.op = p.op := by
  cases p with
  | asleep op tm => cases op <;> rfl
  | _ => rfl

theorem wakeShared_wf (p : PC) : p.wakeShared.wf = p.wf := by
  cases p with
  | asleep op tm => cases op <;> rfl
  | _ => rfl

theorem nas_S (ts : List PC) : cnt aS (notifyAllShared ts) = 0 := by
  rw [notifyAllShared, cnt_map, cnt_eq_zero]
  intro t p _
  cases p with
  | asleep op tm => cases op <;> rfl
  | _ => rfl

theorem nas_G (ts : List PC) : cnt aG (notifyAllShared ts) = 0 := by
  rw [notifyAllShared, cnt_map, cnt_eq_zero]
  intro t p _
  cases p with
  | asleep op tm => cases op <;> rfl
  | _ => rfl

theorem nas_E (ts : List PC) : cnt aE (notifyAllShared ts) = cnt aE ts :=
  cnt_nas _ _ fun p => by cases p with | asleep op tm => cases op <;> rfl | _ => rfl
theorem nas_wE (ts : List PC) : cnt wE (notifyAllShared ts) = cnt wE ts :=
  cnt_nas _ _ fun p => by cases p with | asleep op tm => cases op <;> rfl | _ => rfl
theorem nas_U (ts : List PC) : cnt aU (notifyAllShared ts) = cnt aU ts :=
  cnt_nas _ _ fun p => by cases p with | asleep op tm => cases op <;> rfl | _ => rfl
theorem nas_isU (ts : List PC) : cnt isU (notifyAllShared ts) = cnt isU ts :=
  cnt_nas _ _ fun p => by cases p with | asleep op tm => cases op <;> rfl | _ => rfl
theorem nas_isX (ts : List PC) : cnt isX (notifyAllShared ts) = cnt isX ts :=
  cnt_nas _ _ fun p => by cases p with | asleep op tm => cases op <;> rfl | _ => rfl

theorem TI.nas {o : Own} {ts : List PC} (h : TI o ts) : TI o (notifyAllShared ts) := by
  intro t p hp
  rw [getElem?_notifyAllShared] at hp
  cases hq : ts[t]? with
  | none => simp [hq] at hp
  | some q =>
    simp only [hq, Option.map_some, Option.some.injEq] at hp
    subst hp
    have := h t q hq
    unfold pcOk at *
    rw [wakeShared_op, wakeShared_wf]; exact this

/-- Summary of `notifyOne`. -/
structure NO (c : Cond) (ts ts' : List PC) : Prop where
  ti : ∀ o, TI o ts → TI o ts'
  convU : cnt isU ts' = cnt isU ts
  convX : cnt isX ts' = cnt isX ts
  s : cnt aS ts' ≤ cnt aS ts
  g : cnt aG ts' ≤ cnt aG ts
  e : cnt aE ts' ≤ cnt aE ts
  we : cnt wE ts ≤ cnt wE ts'
  u : cnt aU ts' ≤ cnt aU ts
  eff : c = .exclusive → 0 < cnt aE ts' → 0 < cnt wE ts' ∨ 0 < cnt isC ts
  effU : c = .upgrade → cnt isU ts ≤ 1 → (∀ t : Nat, ts[t]? ≠ some (PC.expired .upgradeToExclusive)) → cnt aU ts' = 0

theorem TI.set {o : Own} {ts : List PC} {t : Nat} {p q : PC} (h : TI o ts) (hp : ts[t]? = some p)
    (hq : pcOk o t q) : TI o (ts.set t q) := by
  intro u r hr
  rw [getElem?_set_eq hp] at hr
  split at hr
  · next htu => cases hr; exact htu ▸ hq
  · exact h u r hr

theorem any_false {c : Cond} {ts : List PC} (h : ¬ ts.any (PC.asleepOn c) = true) {t : Nat} {p : PC}
    (hp : ts[t]? = some p) : p.asleepOn c = false := by
  cases hb : p.asleepOn c with
  | false => rfl
  | true => exact absurd (List.any_eq_true.mpr ⟨p, List.mem_of_getElem? hp, hb⟩) h

theorem notifyOne_no {c : Cond} {ts ts' : List PC} {w : Option Nat} (h : notifyOne c ts w = some ts') :
    NO c ts ts' := by
  cases w with
  | none =>
    simp only [notifyOne] at h
    split at h
    · cases h
    · next hn =>
      cases h
      refine ⟨fun _ h => h, rfl, rfl, Nat.le_refl _, Nat.le_refl _, Nat.le_refl _, Nat.le_refl _, Nat.le_refl _, ?_, ?_⟩
      · intro hc he
        obtain ⟨t, p, hp, hf⟩ := exists_of_cnt_pos he
        have := any_false hn hp
        subst hc
        cases p with
        | asleep op tm => cases op <;> simp [aE, PC.asleepOn, Op.cond] at hf this
        | _ => simp [aE] at hf
      · intro hc _ _
        rw [cnt_eq_zero]
        intro t p hp
        have := any_false hn hp
        subst hc
        cases p with
        | asleep op tm => cases op <;> simp [aU, PC.asleepOn, Op.cond] at this ⊢
        | _ => rfl
  | some v =>
    simp only [notifyOne] at h
    split at h
    · next op tm hv =>
      split at h
      · next hc =>
        cases h
        have hU := cnt_set isU (.woken op tm) hv
        have hX := cnt_set isX (.woken op tm) hv
        have h1 := cnt_set aS (.woken op tm) hv
        have h2 := cnt_set aG (.woken op tm) hv
        have h3 := cnt_set aE (.woken op tm) hv
        have h4 := cnt_set wE (.woken op tm) hv
        have h5 := cnt_set aU (.woken op tm) hv
        refine ⟨?_, ?_, ?_, ?_, ?_, ?_, ?_, ?_, ?_, ?_⟩
        · intro o ho
          exact ho.set hv (by have := ho v _ hv; simpa [pcOk, PC.op, PC.wf] using this)
        · cases op <;> simp_all [isU]
        · cases op <;> simp_all [isX]
        · simp [aS] at h1; omega
        · simp [aG] at h2; omega
        · simp [aE] at h3; omega
        · have : b2n (wE (.asleep op tm)) = 0 := rfl
          omega
        · simp [aU] at h5; omega
        · intro hcc _
          subst hcc
          cases op <;> simp [Op.cond] at hc
          · left; simp [wE] at h4; omega
          · right; exact cnt_pos hv rfl
        · intro hcc hle _
          subst hcc
          cases op <;> simp [Op.cond] at hc
          have hle' : cnt aU ts ≤ cnt isU ts := cnt_le ts fun p hp => by
            cases p with
            | asleep op tm => cases op <;> simp_all [aU, isU]
            | _ => simp [aU] at hp
          have ha : b2n (aU (.asleep .upgradeToExclusive tm)) = 1 := rfl
          have hb : b2n (aU (.woken .upgradeToExclusive tm)) = 0 := rfl
          omega
      · cases h
    · next op hv =>
      split at h
      · next hc =>
        cases h
        refine ⟨fun _ h => h, rfl, rfl, Nat.le_refl _, Nat.le_refl _, Nat.le_refl _, Nat.le_refl _, Nat.le_refl _, ?_, ?_⟩
        · intro hcc _
          subst hcc
          cases op <;> simp [Op.cond] at hc
          · left; exact cnt_pos hv rfl
          · right; exact cnt_pos hv rfl
        · intro hcc _ hne
          subst hcc
          cases op <;> simp [Op.cond] at hc
          exact absurd hv (hne v)
      · cases h
    · cases h

/-- Summary of `release_waiters`. -/
structure RW (ts ts' : List PC) : Prop where
  ti : ∀ o, TI o ts → TI o ts'
  convU : cnt isU ts' = cnt isU ts
  convX : cnt isX ts' = cnt isX ts
  s : cnt aS ts' = 0
  g : cnt aG ts' = 0
  u : cnt aU ts' ≤ cnt aU ts
  eff : 0 < cnt aE ts' → 0 < cnt wE ts' ∨ 0 < cnt isC ts

theorem releaseWaiters_rw {ts ts' : List PC} {w : Option Nat} (h : releaseWaiters ts w = some ts') : RW ts ts' := by
  unfold releaseWaiters at h
  cases hn : notifyOne .exclusive ts w with
  | none => simp [hn] at h
  | some ts₁ =>
    simp only [hn, Option.map_some, Option.some.injEq] at h
    subst h
    have hN := notifyOne_no hn
    refine ⟨fun o ho => (hN.ti o ho).nas, ?_, ?_, nas_S _, nas_G _, ?_, ?_⟩
    · rw [nas_isU]; exact hN.convU
    · rw [nas_isX]; exact hN.convX
    · rw [nas_U]; exact hN.u
    · rw [nas_E, nas_wE]; exact hN.eff rfl

/-! ### Grants -/

/-- Precondition of a grant. -/
def opPre (b : Bool) (o : Own) (t : Nat) : Op → Prop
  | .upgradeToExclusive => o.converting = true ∧ o.upgrader = some t
  | .timedUpgradeToExclusive => o.converting = false ∧ o.upgrader = some t
  | .timedSharedToExclusive => t ∈ o.readers ∧ b = false ∧ o.converting = false
  | .timedSharedToUpgrade => t ∈ o.readers
  | _ => True

def Granted (o : Own) (t : Nat) (op : Op) (d' : Data) (v : Verdict Own) : Prop :=
    ∃ o', v = .ok o' ∧ DR d' o' ∧
      (∀ u q, u ≠ t → pcOk o u q → pcOk o' u q) ∧ (o'.converting = true → o.converting = true ∧ op ≠ .upgradeToExclusive)

theorem Granted.must {o o' : Own} {t : Nat} {op : Op} {d' : Data} {c : Bool} (hc : c = true)
    (hD : DR d' o') (hp : ∀ u q, u ≠ t → pcOk o u q → pcOk o' u q)
    (hv : o'.converting = true → o.converting = true ∧ op ≠ .upgradeToExclusive) :
    Granted o t op d' (must c o') := ⟨o', by simp [SharedMutex.must, hc], hD, hp, hv⟩

theorem grant_shared {d : Data} {o : Own} {t : Nat} (hD : DR d o) (hr : Op.shared.ready d = true) :
    Granted o t .shared (Op.shared.grant d) (specNext o (.granted t .shared)) := by
  obtain ⟨h1, h2, h3, h4, h5, h6⟩ := hD
  simp only [Op.ready, Data.canLockShared, specNext, Own.addReader, Op.grant, Data.incShared] at *
  refine Granted.must ?_ ⟨?_, ?_, ?_, ?_, ?_, ?_⟩ ?_ ?_ <;> grind [pcOk]

theorem grant_upgrade {d : Data} {o : Own} {t : Nat} (hD : DR d o) (hr : Op.upgrade.ready d = true) :
    Granted o t .upgrade (Op.upgrade.grant d) (specNext o (.granted t .upgrade)) := by
  obtain ⟨h1, h2, h3, h4, h5, h6⟩ := hD
  simp only [Op.ready, Data.canLockUpgrade, specNext, Own.setUpgrader, Op.grant, Data.incShared] at *
  refine Granted.must ?_ ⟨?_, ?_, ?_, ?_, ?_, ?_⟩ ?_ ?_ <;> grind [pcOk, b2n]

theorem grant_exclusive {d : Data} {o : Own} {t : Nat} (hD : DR d o) (hr : Op.exclusive.ready d = true) :
    Granted o t .exclusive (Op.exclusive.grant d) (specNext o (.granted t .exclusive)) := by
  obtain ⟨h1, h2, h3, h4, h5, h6⟩ := hD
  simp only [Op.ready, Data.canLock, specNext, Own.setWriter, Op.grant] at *
  have : o.readers = [] := by
    cases hr : o.readers with
    | nil => rfl
    | cons => grind
  have : o.upgrader = none := by
    cases hu : o.upgrader with
    | none => rfl
    | some => grind [b2n]
  refine Granted.must ?_ ⟨?_, ?_, ?_, ?_, ?_, ?_⟩ ?_ ?_ <;> grind [pcOk, b2n]

theorem grant_uToE {d : Data} {o : Own} {t : Nat} (hD : DR d o) (hr : Op.upgradeToExclusive.ready d = true)
    (hp : o.converting = true ∧ o.upgrader = some t) :
    Granted o t .upgradeToExclusive (Op.upgradeToExclusive.grant d) (specNext o (.granted t .upgradeToExclusive)) := by
  obtain ⟨h1, h2, h3, h4, h5, h6⟩ := hD
  simp only [Op.ready, Data.noShared, specNext, Own.upgradeToWriter, Op.grant] at *
  have : o.readers = [] := by
    cases hr : o.readers with
    | nil => rfl
    | cons => grind
  have : o.writer = none := by
    cases hu : o.writer with
    | none => rfl
    | some => grind
  refine Granted.must ?_ ⟨?_, ?_, ?_, ?_, ?_, ?_⟩ ?_ ?_ <;> grind [pcOk, b2n]
theorem grant_tUToE {d : Data} {o : Own} {t : Nat} (hD : DR d o) (hr : Op.timedUpgradeToExclusive.ready d = true)
    (hp : o.converting = false ∧ o.upgrader = some t) :
    Granted o t .timedUpgradeToExclusive (Op.timedUpgradeToExclusive.grant d) (specNext o (.granted t .timedUpgradeToExclusive)) := by
  obtain ⟨h1, h2, h3, h4, h5, h6⟩ := hD
  simp only [Op.ready, Data.oneShared, specNext, Own.upgradeToWriter, Op.grant] at *
  have : o.readers = [] := by
    cases hr : o.readers with
    | nil => rfl
    | cons => grind [b2n]
  refine Granted.must ?_ ⟨?_, ?_, ?_, ?_, ?_, ?_⟩ ?_ ?_ <;> grind [pcOk, b2n]
theorem grant_tSToE {d : Data} {o : Own} {t : Nat} (hD : DR d o) (hr : Op.timedSharedToExclusive.ready d = true)
    (hp : t ∈ o.readers ∧ o.converting = false) :
    Granted o t .timedSharedToExclusive (Op.timedSharedToExclusive.grant d) (specNext o (.granted t .timedSharedToExclusive)) := by
  obtain ⟨h1, h2, h3, h4, h5, h6⟩ := hD
  simp only [Op.ready, Data.oneShared, specNext, Own.readerToWriter, Op.grant] at *
  have : o.readers = [t] := by
    rcases hr : o.readers with _ | ⟨r, _ | ⟨r', rs⟩⟩ <;> grind [b2n]
  have : o.upgrader = none := by
    cases hu : o.upgrader with
    | none => rfl
    | some => grind [b2n]
  refine Granted.must ?_ ⟨?_, ?_, ?_, ?_, ?_, ?_⟩ ?_ ?_ <;> grind [pcOk, b2n]
theorem grant_tSToU {d : Data} {o : Own} {t : Nat} (hD : DR d o) (hr : Op.timedSharedToUpgrade.ready d = true)
    (hp : t ∈ o.readers) :
    Granted o t .timedSharedToUpgrade (Op.timedSharedToUpgrade.grant d) (specNext o (.granted t .timedSharedToUpgrade)) := by
  obtain ⟨h1, h2, h3, h4, h5, h6⟩ := hD
  simp only [Op.ready, Data.canLockUpgrade, specNext, Own.readerToUpgrader, Op.grant] at *
  refine Granted.must ?_ ⟨?_, ?_, ?_, ?_, ?_, ?_⟩ ?_ ?_ <;> grind [pcOk, b2n, List.length_erase_of_mem]


theorem grant_spec {b : Bool} {d : Data} {o : Own} {t : Nat} {op : Op} (hD : DR d o) (hr : op.ready d = true)
    (hp : opPre b o t op) : Granted o t op (op.grant d) (specNext o (.granted t op)) := by
  cases op with
  | shared => exact grant_shared hD hr
  | upgrade => exact grant_upgrade hD hr
  | exclusive => exact grant_exclusive hD hr
  | upgradeToExclusive => exact grant_uToE hD hr hp
  | timedUpgradeToExclusive => exact grant_tUToE hD hr hp
  | timedSharedToExclusive => exact grant_tSToE hD hr ⟨hp.1, hp.2.2⟩
  | timedSharedToUpgrade => exact grant_tSToU hD hr hp

theorem isU_zero {o : Own} {ts : List PC} (h : TI o ts) (hc : o.converting = false) : cnt isU ts = 0 := by
  rw [cnt_eq_zero]
  intro t p hp
  have := (h t p hp).2.1
  cases p with
  | idle => rfl
  | asleep op tm => cases op <;> simp_all [isU, PC.op]
  | woken op tm => cases op <;> simp_all [isU, PC.op]
  | expired op => cases op <;> simp_all [isU, PC.op]

theorem aU_le_isU (ts : List PC) : cnt aU ts ≤ cnt isU ts := cnt_le ts fun p hp => by
  cases p with
  | asleep op tm => cases op <;> simp_all [aU, isU]
  | _ => simp [aU] at hp

/-- A thread about to be granted `op`: either it just called or it comes back from its wait. -/
def Entering (op : Op) (p : PC) : Prop := p = .idle ∨ (∃ tm, p = .woken op tm) ∨ p = .expired op

theorem wk_grant {d : Data} {ts : List PC} {t : Nat} {p : PC} {op : Op} (hW : WK d ts) (hr : op.ready d = true)
    (hp : ts[t]? = some p) (he : Entering op p)
    (hU : op = .timedUpgradeToExclusive ∨ op = .timedSharedToExclusive → cnt aU ts = 0) :
    WK (op.grant d) (ts.set t .idle) := by
  obtain ⟨w1, w2, w3, w4⟩ := hW
  have c1 := cnt_set aS .idle hp
  have c2 := cnt_set aG .idle hp
  have c3 := cnt_set aE .idle hp
  have c4 := cnt_set wE .idle hp
  have c5 := cnt_set aU .idle hp
  have z1 : aS .idle = false := rfl
  have z2 : aG .idle = false := rfl
  have z3 : aE .idle = false := rfl
  have z4 : wE .idle = false := rfl
  have z5 : aU .idle = false := rfl
  rcases he with rfl | ⟨tm, rfl⟩ | rfl <;> cases op <;>
  simp only [Op.ready, Data.canLockShared, Data.canLock, Data.canLockUpgrade, Data.noShared, Data.oneShared,
    Op.grant, Data.incShared, aS, aG, aE, wE, aU, b2n] at * <;>
  constructor <;> grind

theorem R_grant {b : Bool} {s : State} {o o₁ : Own} {t : Nat} {p : PC} {op : Op} (hR : R b s o)
    (hp : s.ts[t]? = some p) (he : Entering op p) (hr : op.ready s.data = true) (hpre : opPre b o t op)
    (hs : specNext o (.granted t op) = .ok o₁) :
    R b { data := op.grant s.data, ts := s.ts.set t .idle } o₁ := by
  obtain ⟨o', hv, hD, hq, hc⟩ := grant_spec hR.data hr hpre
  rw [hs] at hv
  cases hv
  refine ⟨hD, ?_, ?_, ?_, ?_, ?_⟩
  · intro u q hu
    simp only [] at hu
    rw [getElem?_set_eq hp] at hu
    split at hu
    · cases hu; simp [pcOk, PC.wf, PC.op]
    · next hne => exact hq u q (Ne.symm hne) (hR.pcs u q hu)
  · refine wk_grant hR.wake hr hp he ?_
    intro hop
    have : o.converting = false := by
      rcases hop with rfl | rfl
      · exact hpre.1
      · exact hpre.2.2
    have := isU_zero hR.pcs this
    have := aU_le_isU s.ts
    omega
  · intro h1
    obtain ⟨h2, h3⟩ := hc h1
    have := hR.cu h2
    have := cnt_set isU .idle hp
    rcases he with rfl | ⟨tm, rfl⟩ | rfl <;> cases op <;> simp_all [isU]
  · intro h1
    have := hR.bt h1
    have := cnt_set isX .idle hp
    have : b2n (isX .idle) = 0 := rfl
    simp only []; omega
  · intro h1
    cases hcv : o₁.converting with
    | false => rfl
    | true => have := hR.bf h1; have := (hc hcv).1; simp_all

/-- Granting is always allowed by the specification. -/
theorem follows_grant {b : Bool} {s : State} {o : Own} {t : Nat} {p : PC} {op : Op} (hR : R b s o)
    (hp : s.ts[t]? = some p) (he : Entering op p) (hr : op.ready s.data = true) (hpre : opPre b o t op) :
    Follows specNext (R b { data := op.grant s.data, ts := s.ts.set t .idle }) o [.granted t op] := by
  obtain ⟨o', hv, -⟩ := grant_spec hR.data hr hpre
  simp only [Follows, hv]
  exact R_grant hR hp he hr hpre hv

theorem R_block {b : Bool} {s : State} {o : Own} {t : Nat} {p : PC} {op : Op} {tm : Bool} (hR : R b s o)
    (hp : s.ts[t]? = some p) (he : p = .idle ∨ p = .woken op tm) (hr : op.ready s.data = false)
    (hok : pcOk o t (.asleep op tm)) (hX : op = .timedSharedToExclusive → b = false) :
    R b { s with ts := s.ts.set t (.asleep op tm) } o := by
  obtain ⟨hD, hT, ⟨w1, w2, w3, w4⟩, hcu, hbt, hbf⟩ := hR
  have c1 := cnt_set aS (.asleep op tm) hp
  have c2 := cnt_set aG (.asleep op tm) hp
  have c3 := cnt_set aE (.asleep op tm) hp
  have c4 := cnt_set wE (.asleep op tm) hp
  have c5 := cnt_set aU (.asleep op tm) hp
  have c6 := cnt_set isU (.asleep op tm) hp
  have c7 := cnt_set isX (.asleep op tm) hp
  refine ⟨hD, hT.set hp hok, ?_, ?_, ?_, hbf⟩
  · rcases he with rfl | rfl <;> cases op <;>
    simp only [Op.ready, Data.canLockShared, Data.canLock, Data.canLockUpgrade, Data.noShared, Data.oneShared,
      aS, aG, aE, wE, aU, b2n] at * <;>
    constructor <;> grind
  · rcases he with rfl | rfl <;> cases op <;> simp only [isU, b2n] at * <;> grind
  · rcases he with rfl | rfl <;> cases op <;> simp only [isX, b2n] at * <;> grind

theorem opPre_of_pcOk {b : Bool} {s : State} {o : Own} {t : Nat} {p : PC} {op : Op} (hR : R b s o)
    (hp : s.ts[t]? = some p) (ho : p.op = some op) : opPre b o t op := by
  obtain ⟨h1, h2, h3, h4, h5⟩ := hR.pcs t p hp
  cases op <;> simp only [opPre]
  · exact h2 ho
  · exact h3 ho
  · have hx : isX p = true := by cases p <;> simp_all [isX, PC.op]
    have := cnt_pos hp hx
    cases b with
    | false => exact ⟨h4 ho, rfl, hR.bf rfl⟩
    | true => have := hR.bt rfl; omega
  · exact h5 ho

theorem X_of_pc {b : Bool} {s : State} {o : Own} {t : Nat} {p : PC} {op : Op} (hR : R b s o)
    (hp : s.ts[t]? = some p) (ho : p.op = some op) (hx : op = .timedSharedToExclusive) : b = false := by
  subst hx
  exact (opPre_of_pcOk hR hp ho).2.1

/-- Changing the state of one thread without touching the data. -/
theorem R_wake {b : Bool} {s : State} {o : Own} {t : Nat} {op : Op} {tm : Bool} {q : PC} (hR : R b s o)
    (hp : s.ts[t]? = some (.asleep op tm)) (hq : q = .woken op tm ∨ (tm = true ∧ q = .expired op)) :
    R b { s with ts := s.ts.set t q } o := by
  obtain ⟨hD, hT, ⟨w1, w2, w3, w4⟩, hcu, hbt, hbf⟩ := hR
  have c1 := cnt_set aS q hp
  have c2 := cnt_set aG q hp
  have c3 := cnt_set aE q hp
  have c4 := cnt_set wE q hp
  have c5 := cnt_set aU q hp
  have c6 := cnt_set isU q hp
  have c7 := cnt_set isX q hp
  have hok := hT t _ hp
  refine ⟨hD, hT.set hp ?_, ?_, ?_, ?_, hbf⟩
  · rcases hq with rfl | ⟨rfl, rfl⟩ <;> simp_all [pcOk, PC.wf, PC.op]
  · rcases hq with rfl | ⟨rfl, rfl⟩ <;> cases op <;>
    simp only [aS, aG, aE, wE, aU, b2n] at * <;>
    constructor <;> grind
  · rcases hq with rfl | ⟨rfl, rfl⟩ <;> cases op <;> simp only [isU, b2n] at * <;> grind
  · rcases hq with rfl | ⟨rfl, rfl⟩ <;> cases op <;> simp only [isX, b2n] at * <;> grind

end Verif.SharedMutex
