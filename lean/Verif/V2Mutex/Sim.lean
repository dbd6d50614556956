import Verif.V2Mutex.Spec
/-! # The model follows the specification -/

set_option linter.unusedSimpArgs false

namespace Verif.V2Mutex

def PC.isG2 : PC → Bool
  | .gate2 .. => true
  | _ => false

/-- What is known while a thread waits on `gate2_`. -/
def At2 (n : Nat) (o : Own) (t : Nat) : Op → Prop
  | .lock => o.upgrader = none ∧ o.readers.length ≤ n ∧ (o.disturbed = false → n = o.readers.length)
  | .sharedToExclusive => o.upgrader = none ∧ t ∈ o.readers ∧ o.readers.length ≤ n + 1 ∧ (o.disturbed = false → n + 1 = o.readers.length)
  | .upgradeToExclusive => o.upgrader = some t ∧ o.readers.length ≤ n ∧ (o.disturbed = false → n = o.readers.length)
  | _ => False

structure G2 (s : State) (o : Own) (t : Nat) (op : Op) (sv : Nat) : Prop where
  w : s.w = true
  u : s.u = false
  writer : o.writer = none
  pend : t ∈ o.pending
  uniq : ∀ t', (s.pc t').isG2 = true → t' = t
  saved : op ≠ .lock → s.n ≤ sv ∧ sv < s.limit
  at2 : At2 s.n o t op

theorem G2.entered {s : State} {o : Own} {t : Nat} {op : Op} {sv : Nat} (hg : G2 s o t op sv) : o.entered t op = true := by
  have ha := hg.at2
  cases op <;> simp only [At2] at ha <;> simp [Own.entered, Op.exclusive, hg.writer, ha.1]

structure Wr (s : State) (o : Own) : Prop where
  w : s.w = true
  u : s.u = false
  n : s.n = 0
  readers : o.readers = []
  upgrader : o.upgrader = none
  none2 : ∀ t, (s.pc t).isG2 = false

structure Free (s : State) (o : Own) : Prop where
  writer : o.writer = none
  none2 : ∀ t, (s.pc t).isG2 = false
  u : s.u = o.upgrader.isSome
  n : o.owners ≤ s.n
  exact : o.disturbed = false → s.n = o.owners

/-- What is known while a thread waits on `gate1_`. -/
def At1 (o : Own) (t : Nat) : Op → Prop
  | .lock => t ∈ o.pending
  | .sharedToExclusive => t ∈ o.pending ∧ t ∈ o.readers
  | .sharedToUpgrade => t ∈ o.readers
  | .upgradeToExclusive => False
  | _ => True

structure Rel (lim : Nat) (s : State) (o : Own) : Prop where
  lpos : 0 < lim
  lim : s.limit = lim
  nle : s.n ≤ s.limit
  wr : ∀ t, o.writer = some t → Wr s o
  g2 : ∀ t op sv tm sl, s.pc t = .gate2 op sv tm sl → G2 s o t op sv
  fr : s.w = false → Free s o
  stuck : s.w = true → o.writer = none → (∀ t, (s.pc t).isG2 = false) → o.thrown = true
  g1 : ∀ t op tm sl, s.pc t = .gate1 op tm sl → At1 o t op
  bound : ∀ t, s.threads ≤ t → s.pc t = .idle

theorem rel_init (threads : Nat) {lim : Nat} (hl : 0 < lim) : Rel lim (init threads lim) free := by
  constructor <;> simp [init, free, Own.owners, PC.isG2, hl]
  constructor <;> simp [init, free, Own.owners, PC.isG2]

/-- A thread that does not sleep on `gate2_` changes its place without effect. -/
theorem Rel.pc1 {lim : Nat} {s : State} {o : Own} (h : Rel lim s o) (t : Nat) (p : PC) (hb : s.threads ≤ t → p = .idle) (h2 : p.isG2 = false) (h2' : (s.pc t).isG2 = false)
    (h1 : ∀ op tm sl, p = .gate1 op tm sl → At1 o t op) : Rel lim { s with pc := upd s.pc t p } o := by
  have hn : ∀ t', (upd s.pc t p t').isG2 = (s.pc t').isG2 := by
    intro t'
    simp only [upd_apply]
    split
    · rename_i e; subst e; rw [h2, h2']
    · rfl
  refine { lim := h.lim, lpos := h.lpos, nle := h.nle, wr := ?_, g2 := ?_, fr := ?_, stuck := ?_, g1 := ?_, bound := ?_ }
  · intro t' ht'
    have := h.wr t' ht'
    exact { this with none2 := fun x => by rw [hn]; exact this.none2 x }
  · intro t' op sv tm sl he
    simp only [upd_apply] at he
    split at he
    · rw [he] at h2; cases h2
    · have := h.g2 t' op sv tm sl he
      exact { this with uniq := fun x hx => this.uniq x (by rwa [hn] at hx) }
  · intro hw
    have := h.fr hw
    exact { this with none2 := fun x => by rw [hn]; exact this.none2 x }
  · intro hw ho hx
    exact h.stuck hw ho fun x => by have := hx x; rwa [hn] at this
  · intro t' op tm sl he
    simp only [upd_apply] at he
    split at he
    · rename_i e; subst e; exact h1 op tm sl he
    · exact h.g1 t' op tm sl he
  · intro t' ht'
    simp only [upd_apply]
    split
    · rename_i e; subst e; exact hb ht'
    · exact h.bound t' ht'

/-- The specification forgets or learns of a thread that waits for exclusive ownership. -/
theorem Rel.pend {lim : Nat} {s : State} {o : Own} (h : Rel lim s o) (t : Nat) (ps : List Nat) (ph th : Bool) (hps : ∀ x, x ≠ t → x ∈ o.pending → x ∈ ps) (ht : t ∈ o.pending → t ∉ ps → (s.pc t = .idle))
    (hph : o.phantom = true → ph = true) (hth : o.thrown = true → th = true) : Rel lim s { o with pending := ps, phantom := ph, thrown := th } := by
  have hd : ({ o with pending := ps, phantom := ph, thrown := th } : Own).disturbed = false → o.disturbed = false := by
    simp only [Own.disturbed, Bool.or_eq_false_iff]
    rintro ⟨h1, h2⟩
    refine ⟨?_, ?_⟩
    · cases hx : o.phantom with
      | false => rfl
      | true => rw [hph hx] at h1; cases h1
    · cases hx : o.thrown with
      | false => rfl
      | true => rw [hth hx] at h2; cases h2
  have hin : ∀ x, x ∈ o.pending → s.pc x ≠ .idle → x ∈ ps := by
    intro x hx hp
    by_cases hxt : x = t
    · subst hxt
      by_cases hxp : x ∈ ps
      · exact hxp
      · exact absurd (ht hx hxp) hp
    · exact hps x hxt hx
  refine { lim := h.lim, lpos := h.lpos, nle := h.nle, wr := ?_, g2 := ?_, fr := ?_, stuck := ?_, g1 := ?_, bound := h.bound }
  · intro t' ht'
    exact { h.wr t' ht' with }
  · intro t' op sv tm sl he
    have := h.g2 t' op sv tm sl he
    refine { this with pend := hin t' this.pend (by rw [he]; simp), at2 := ?_ }
    have ha := this.at2
    cases op <;> simp only [At2] at ha ⊢
    · exact ⟨ha.1, ha.2.1, fun hx => ha.2.2 (hd hx)⟩
    · exact ⟨ha.1, ha.2.1, ha.2.2.1, fun hx => ha.2.2.2 (hd hx)⟩
    · exact ⟨ha.1, ha.2.1, fun hx => ha.2.2 (hd hx)⟩
  · intro hw
    have := h.fr hw
    exact { this with exact := fun hx => this.exact (hd hx) }
  · intro hw ho hx
    exact hth (h.stuck hw ho hx)
  · intro t' op tm sl he
    have := h.g1 t' op tm sl he
    have hne : s.pc t' ≠ .idle := by rw [he]; simp
    cases op <;> simp only [At1] at this ⊢
    · exact hin t' this hne
    · exact ⟨hin t' this.1 hne, this.2⟩
    · exact this

theorem wake1_isG2 (p : PC) : p.wake1.isG2 = p.isG2 := by
  unfold PC.wake1
  split <;> rfl

theorem wake1_gate2 {p : PC} {op : Op} {sv : Nat} {tm : Bool} {sl : Sleep} (h : p.wake1 = .gate2 op sv tm sl) : p = .gate2 op sv tm sl := by
  unfold PC.wake1 at h
  split at h
  · cases h
  · exact h

theorem wake1_gate1 {p : PC} {op : Op} {tm : Bool} {sl : Sleep} (h : p.wake1 = .gate1 op tm sl) : ∃ sl', p = .gate1 op tm sl' := by
  unfold PC.wake1 at h
  split at h
  · cases h; exact ⟨_, rfl⟩
  · exact ⟨_, h⟩

theorem Rel.notifyAll1 {lim : Nat} {s : State} {o : Own} (h : Rel lim s o) : Rel lim s.notifyAll1 o := by
  refine { lim := h.lim, lpos := h.lpos, nle := h.nle, wr := ?_, g2 := ?_, fr := ?_, stuck := ?_, g1 := ?_, bound := ?_ }
  · intro t ht
    have := h.wr t ht
    exact { this with none2 := fun x => by simp only [State.notifyAll1, wake1_isG2]; exact this.none2 x }
  · intro t op sv tm sl he
    have := h.g2 t op sv tm sl (wake1_gate2 he)
    exact { this with uniq := fun x hx => this.uniq x (by simpa only [State.notifyAll1, wake1_isG2] using hx) }
  · intro hw
    have := h.fr hw
    exact { this with none2 := fun x => by simp only [State.notifyAll1, wake1_isG2]; exact this.none2 x }
  · intro hw ho hx
    exact h.stuck hw ho fun x => by have := hx x; simpa only [State.notifyAll1, wake1_isG2] using this
  · intro t op tm sl he
    obtain ⟨sl', he⟩ := wake1_gate1 he
    exact h.g1 t op tm sl' he
  · intro t ht
    simp only [State.notifyAll1, h.bound t ht, PC.wake1]

/-- A thread on `gate2_` is woken, or its deadline passes. -/
theorem Rel.pc2 {lim : Nat} {s : State} {o : Own} (h : Rel lim s o) (t : Nat) (op : Op) (sv : Nat) (tm tm' : Bool) (sl sl' : Sleep) (hp : s.pc t = .gate2 op sv tm sl) :
    Rel lim { s with pc := upd s.pc t (.gate2 op sv tm' sl') } o := by
  have hn : ∀ t', (upd s.pc t (.gate2 op sv tm' sl') t').isG2 = (s.pc t').isG2 := by
    intro t'
    simp only [upd_apply]
    split
    · rename_i e; subst e; rw [hp]; rfl
    · rfl
  refine { lim := h.lim, lpos := h.lpos, nle := h.nle, wr := ?_, g2 := ?_, fr := ?_, stuck := ?_, g1 := ?_, bound := ?_ }
  · intro t' ht'
    have := h.wr t' ht'
    exact { this with none2 := fun x => by rw [hn]; exact this.none2 x }
  · intro t' op' sv' tm1 sl1 he
    simp only [upd_apply] at he
    split at he
    · rename_i e; subst e; cases he
      have := h.g2 t' op sv tm sl hp
      exact { this with uniq := fun x hx => this.uniq x (by rwa [hn] at hx) }
    · have := h.g2 t' op' sv' tm1 sl1 he
      exact { this with uniq := fun x hx => this.uniq x (by rwa [hn] at hx) }
  · intro hw
    have := h.fr hw
    exact { this with none2 := fun x => by rw [hn]; exact this.none2 x }
  · intro hw ho hx
    exact h.stuck hw ho fun x => by have := hx x; rwa [hn] at this
  · intro t' op' tm1 sl1 he
    simp only [upd_apply] at he
    split at he
    · cases he
    · exact h.g1 t' op' tm1 sl1 he
  · intro t' ht'
    simp only [upd_apply]
    split
    · rename_i e; subst e; rw [h.bound t' ht'] at hp; cases hp
    · exact h.bound t' ht'

theorem notifyOne1_rel {lim : Nat} {s s' : State} {o : Own} {pick : Option Nat} (h : Rel lim s o) (hs : s.notifyOne1 pick = some s') : Rel lim s' o := by
  cases pick with
  | none => simp only [State.notifyOne1] at hs; split at hs <;> cases hs; exact h
  | some t =>
    simp only [State.notifyOne1] at hs
    split at hs
    · rename_i ha
      cases hs
      cases hp : s.pc t with
      | idle => simp [hp, PC.asleep1] at ha
      | gate2 => simp [hp, PC.asleep1] at ha
      | gate1 op tm sl =>
        refine h.pc1 t _ ?_ ?_ (by rw [hp]; rfl) ?_
        · intro hb; rw [h.bound t hb] at hp; cases hp
        · rw [wake1_isG2]; rfl
        · intro op' tm' sl' he
          obtain ⟨sl1, he⟩ := wake1_gate1 he
          cases he
          exact h.g1 t op tm sl hp
    · split at hs <;> cases hs; exact h

theorem notifyOne2_rel {lim : Nat} {s s' : State} {o : Own} {pick : Option Nat} (h : Rel lim s o) (hs : s.notifyOne2 pick = some s') : Rel lim s' o := by
  cases pick with
  | none => simp only [State.notifyOne2] at hs; split at hs <;> cases hs; exact h
  | some t =>
    simp only [State.notifyOne2] at hs
    split at hs
    · rename_i ha
      cases hs
      cases hp : s.pc t with
      | idle => simp [hp, PC.asleep2] at ha
      | gate1 => simp [hp, PC.asleep2] at ha
      | gate2 op sv tm sl =>
        cases sl <;> simp [hp, PC.asleep2] at ha
        exact h.pc2 t op sv tm tm _ _ hp
    · split at hs <;> cases hs; exact h

/-! ## Three kinds of states -/

theorem Rel.ofFree {lim : Nat} {s : State} {o : Own} (lim' : s.limit = lim) (lpos' : 0 < lim) (nle : s.n ≤ s.limit) (hw : s.w = false) (hf : Free s o) (g1 : ∀ t op tm sl, s.pc t = .gate1 op tm sl → At1 o t op)
    (bound : ∀ t, s.threads ≤ t → s.pc t = .idle) : Rel lim s o := by
  refine { lim := lim', lpos := lpos', nle := nle, wr := ?_, g2 := ?_, fr := fun _ => hf, stuck := ?_, g1 := g1, bound := bound }
  · intro t ht; rw [hf.writer] at ht; cases ht
  · intro t op sv tm sl he
    have := hf.none2 t
    rw [he] at this; cases this
  · intro h; rw [hw] at h; cases h

theorem Rel.ofWriter {lim : Nat} {s : State} {o : Own} (t : Nat) (lim' : s.limit = lim) (lpos' : 0 < lim) (ho : o.writer = some t) (hw : Wr s o) (g1 : ∀ t op tm sl, s.pc t = .gate1 op tm sl → At1 o t op)
    (bound : ∀ t, s.threads ≤ t → s.pc t = .idle) : Rel lim s o := by
  refine { lim := lim', lpos := lpos', nle := by rw [hw.n]; exact Nat.zero_le _, wr := fun _ _ => hw, g2 := ?_, fr := ?_, stuck := ?_, g1 := g1, bound := bound }
  · intro t op sv tm sl he
    have := hw.none2 t
    rw [he] at this; cases this
  · intro h; rw [hw.w] at h; cases h
  · intro _ h; rw [ho] at h; cases h

theorem Rel.ofG2 {lim : Nat} {s : State} {o : Own} (t : Nat) (op : Op) (sv : Nat) (tm : Bool) (sl : Sleep) (lim' : s.limit = lim) (lpos' : 0 < lim) (nle : s.n ≤ s.limit) (hp : s.pc t = .gate2 op sv tm sl) (hg : G2 s o t op sv)
    (g1 : ∀ t op tm sl, s.pc t = .gate1 op tm sl → At1 o t op) (bound : ∀ t, s.threads ≤ t → s.pc t = .idle) : Rel lim s o := by
  refine { lim := lim', lpos := lpos', nle := nle, wr := ?_, g2 := ?_, fr := ?_, stuck := ?_, g1 := g1, bound := bound }
  · intro t ht; rw [hg.writer] at ht; cases ht
  · intro t' op' sv' tm' sl' he
    have := hg.uniq t' (by rw [he]; rfl)
    subst this
    rw [hp] at he; cases he
    exact hg
  · intro h; rw [hg.w] at h; cases h
  · intro _ _ h
    have := h t
    rw [hp] at this; cases this

/-- The other threads keep what they know on `gate1_`. -/
theorem Rel.keep1 {lim : Nat} {s : State} {o o' : Own} (h : Rel lim s o) (t : Nat) (p : PC) (hp : ∀ op tm sl, p ≠ .gate1 op tm sl) (hpend : ∀ x, x ≠ t → x ∈ o.pending → x ∈ o'.pending)
    (hr : ∀ x, x ≠ t → x ∈ o.readers → x ∈ o'.readers) : ∀ x op tm sl, upd s.pc t p x = .gate1 op tm sl → At1 o' x op := by
  intro x op tm sl he
  simp only [upd_apply] at he
  split at he
  · exact absurd he (hp op tm sl)
  · rename_i hx
    have := h.g1 x op tm sl he
    cases op <;> simp only [At1] at this ⊢
    · exact hpend x hx this
    · exact ⟨hpend x hx this.1, hr x hx this.2⟩
    · exact hr x hx this

theorem Rel.keepBound {lim : Nat} {s : State} {o : Own} (h : Rel lim s o) (t : Nat) (p : PC) (hb : s.threads ≤ t → p = .idle) : ∀ x, s.threads ≤ x → upd s.pc t p x = .idle := by
  intro x hx
  simp only [upd_apply]
  split
  · rename_i e; subst e; exact hb hx
  · exact h.bound x hx

theorem upd_idle {s : State} {t : Nat} (h : s.pc t = .idle) : upd s.pc t .idle = s.pc := by
  funext x
  simp only [upd_apply]
  split
  · rename_i e; rw [e, h]
  · rfl

/-- `t` becomes the writer. -/
theorem Rel.toWriter {lim : Nat} {s : State} {o : Own} (h : Rel lim s o) (t : Nat) (h2 : ∀ x, x ≠ t → (s.pc x).isG2 = false) (hr : ∀ x ∈ o.readers, x = t) :
    Rel lim { s with w := true, u := false, n := 0, pc := upd s.pc t .idle } { o with writer := some t, readers := [], upgrader := none, pending := o.pending.erase t } := by
  refine Rel.ofWriter t h.lim h.lpos rfl ⟨rfl, rfl, rfl, rfl, rfl, ?_⟩ (h.keep1 t .idle (by simp) ?_ ?_) (h.keepBound t .idle fun _ => rfl)
  · intro x
    simp only [upd_apply]
    split
    · rfl
    · rename_i hx; exact h2 x hx
  · intro x hx hm
    exact (List.mem_erase_of_ne hx).mpr hm
  · intro x hx hm
    exact absurd (hr x hm) hx

theorem none2_upd {s : State} {t : Nat} {p : PC} (h : ∀ x, (s.pc x).isG2 = false) (hp : p.isG2 = false) : ∀ x, (upd s.pc t p x).isG2 = false := by
  intro x
  simp only [upd_apply]
  split
  · exact hp
  · exact h x

theorem mem_of_contains {l : List Nat} {t : Nat} (h : l.contains t = true) : t ∈ l := by simpa using h

theorem length_erase {l : List Nat} {t : Nat} (h : t ∈ l) : (l.erase t).length + 1 = l.length := by
  rw [List.length_erase_of_mem h]
  have := List.length_pos_of_mem h
  omega

theorem none_of_isSome {α : Type} {b : Bool} {x : Option α} (h : b = x.isSome) (hb : b = false) : x = none := by
  subst hb
  cases x with
  | none => rfl
  | some _ => cases h

/-- A request that has passed `gate1_` and is at its end. -/
theorem pass1_true {lim : Nat} {s : State} {o : Own} (h : Rel lim s o) (t : Nat) (op : Op) (tm : Bool) (hmay : o.may t op = true) (hr : op.ready s = true) (ha : op.asserts s = true ∨ op ≠ .upgradeToExclusive)
    (hd : (s.pass1 t tm op).2 = true) : Follows (next lim) (Rel lim (s.pass1 t tm op).1) o [.granted t op] := by
  have nil : ∀ {x : List Nat}, x.length ≤ 0 → x = [] := fun hx => List.length_eq_zero_iff.mp (by omega)
  cases op with
  | lock =>
    simp only [Op.ready, State.noWriterNoUpgrader, Bool.and_eq_true, Bool.not_eq_true'] at hr
    have hf := h.fr hr.1
    simp only [State.pass1, State.enter2, State.noReaders] at hd ⊢
    by_cases hn : (s.n == 0) = true
    · simp only [hn, ↓reduceIte] at hd ⊢
      simp only [beq_iff_eq] at hn
      have hu : o.upgrader = none := none_of_isSome hf.u hr.2
      have hrd : o.readers = [] := by have := hf.n; rw [hn, Own.owners] at this; exact nil (by omega)
      simp only [Follows, next, Own.setWriter, must, hf.writer, hu, hrd, Option.isNone_none, List.isEmpty_nil, Bool.and_self, if_true]
      have := h.toWriter t (fun x _ => hf.none2 x) (by simp [hrd])
      rw [← hr.2, ← hn] at this
      simpa [hu, hrd] using this
    · rw [Bool.not_eq_true] at hn; simp only [hn, Bool.false_eq_true, ↓reduceIte] at hd
  | shared =>
    simp only [Op.ready, State.noWriterNoMaxReaders, Bool.and_eq_true, Bool.not_eq_true', bne_iff_ne, ne_eq] at hr
    have hf := h.fr hr.1
    simp only [State.pass1, Follows, next, Own.addReader, must, hf.writer, Option.isNone_none, if_true]
    refine Rel.ofFree h.lim h.lpos ?_ hr.1 ⟨rfl, none2_upd hf.none2 rfl, hf.u, ?_, ?_⟩ (h.keep1 t .idle (by simp) (fun _ _ h => h) (fun _ _ h => List.mem_cons_of_mem _ h)) (h.keepBound t _ fun _ => rfl)
    · have := h.nle; simp only; omega
    · have := hf.n; simp only [Own.owners, List.length_cons] at this ⊢; omega
    · intro hx; have := hf.exact hx; simp only [Own.owners, List.length_cons] at this ⊢; omega
  | upgrade =>
    simp only [Op.ready, State.noWriterNoUpgraderNoMaxReaders, Bool.and_eq_true, Bool.not_eq_true', bne_iff_ne, ne_eq] at hr
    have hf := h.fr hr.1.1
    have hu : o.upgrader = none := none_of_isSome hf.u hr.1.2
    simp only [State.pass1, Follows, next, Own.setUpgrader, must, hf.writer, hu, Option.isNone_none, Bool.and_self, if_true]
    refine Rel.ofFree h.lim h.lpos ?_ hr.1.1 ⟨rfl, none2_upd hf.none2 rfl, rfl, ?_, ?_⟩ (h.keep1 t .idle (by simp) (fun _ _ h => h) (fun _ _ h => h)) (h.keepBound t _ fun _ => rfl)
    · have := h.nle; simp only; omega
    · have := hf.n; simp only [Own.owners, hu, Option.toList, List.length_cons, List.length_nil] at this ⊢; omega
    · intro hx; have := hf.exact hx; simp only [Own.owners, hu, Option.toList, List.length_cons, List.length_nil] at this ⊢; omega
  | sharedToExclusive =>
    simp only [Op.ready, State.noWriterNoUpgrader, Bool.and_eq_true, Bool.not_eq_true'] at hr
    have hf := h.fr hr.1
    have hm := mem_of_contains hmay
    simp only [State.pass1, State.enter2, State.noReaders] at hd ⊢
    by_cases hn : (s.n - 1 == 0) = true
    · simp only [hn, ↓reduceIte] at hd ⊢
      simp only [beq_iff_eq] at hn
      have hu : o.upgrader = none := none_of_isSome hf.u hr.2
      have hrd : o.readers = [t] := by
        have := hf.n
        rw [Own.owners] at this
        have hl : o.readers.length ≤ 1 := by omega
        match hrr : o.readers, hl, hm with
        | [x], _, hm => simp only [List.mem_singleton] at hm; rw [hm]
      simp only [Follows, next, Own.readerToWriter, must, hf.writer, hu, hrd, Option.isNone_none, beq_self_eq_true, Bool.and_self, if_true]
      have := h.toWriter t (fun x _ => hf.none2 x) (by simp [hrd])
      rw [← hr.2] at this
      simpa [hu, hrd, hn] using this
    · rw [Bool.not_eq_true] at hn; simp only [hn, Bool.false_eq_true, ↓reduceIte] at hd
  | sharedToUpgrade =>
    simp only [Op.ready, State.noWriterNoUpgrader, Bool.and_eq_true, Bool.not_eq_true'] at hr
    have hf := h.fr hr.1
    have hm := mem_of_contains hmay
    have hu : o.upgrader = none := none_of_isSome hf.u hr.2
    simp only [State.pass1, Follows, next, Own.readerToUpgrader, must, hf.writer, hu, Option.isNone_none, Bool.and_self, Bool.true_and]
    rw [if_pos (show o.readers.contains t = true from hmay)]
    have hl := length_erase hm
    refine Rel.ofFree h.lim h.lpos h.nle hr.1 ⟨rfl, none2_upd hf.none2 rfl, rfl, ?_, ?_⟩ (h.keep1 t .idle (by simp) (fun _ _ h => h) (fun _ hx h => (List.mem_erase_of_ne hx).mpr h)) (h.keepBound t _ fun _ => rfl)
    · have := hf.n; simp only [Own.owners, hu, Option.toList, List.length_cons, List.length_nil] at this ⊢; omega
    · intro hx; have := hf.exact hx; simp only [Own.owners, hu, Option.toList, List.length_cons, List.length_nil] at this ⊢; omega
  | upgradeToExclusive =>
    have ha := ha.resolve_right (by simp)
    simp only [Op.asserts, Bool.and_eq_true, Bool.not_eq_true', decide_eq_true_eq] at ha
    have hf := h.fr ha.1.1
    simp only [Own.may, beq_iff_eq] at hmay
    simp only [State.pass1, State.enter2, State.noReaders] at hd ⊢
    by_cases hn : (s.n - 1 == 0) = true
    · simp only [hn, ↓reduceIte] at hd ⊢
      simp only [beq_iff_eq] at hn
      have hrd : o.readers = [] := by have := hf.n; rw [Own.owners, hmay] at this; simp only [Option.toList, List.length_cons, List.length_nil] at this; exact nil (by omega)
      simp only [Follows, next, Own.upgradeToWriter, must, hf.writer, hmay, hrd, Option.isNone_none, beq_self_eq_true, List.isEmpty_nil, Bool.and_self, if_true]
      have := h.toWriter t (fun x _ => hf.none2 x) (by simp [hrd])
      simpa [hrd, hn] using this
    · rw [Bool.not_eq_true] at hn; simp only [hn, Bool.false_eq_true, ↓reduceIte] at hd

/-- A request that has passed `gate1_` and waits on `gate2_`. -/
theorem pass1_false {lim : Nat} {s : State} {o : Own} (h : Rel lim s o) (t : Nat) (op : Op) (tm : Bool) (ht : t < s.threads) (hmay : o.may t op = true) (hr : op.ready s = true) (ha : op.asserts s = true ∨ op ≠ .upgradeToExclusive)
    (hpend : t ∈ o.pending) (hd : (s.pass1 t tm op).2 = false) : Rel lim (s.pass1 t tm op).1 o := by
  have uniq : ∀ (p : PC) (hf : Free s o) (x : Nat), (upd s.pc t p x).isG2 = true → x = t := by
    intro p hf x hx
    simp only [upd_apply] at hx
    split at hx
    · assumption
    · rw [hf.none2 x] at hx; cases hx
  have same : ∀ p, upd s.pc t p t = p := fun p => by simp [upd_apply]
  cases op with
  | lock =>
    simp only [Op.ready, State.noWriterNoUpgrader, Bool.and_eq_true, Bool.not_eq_true'] at hr
    have hf := h.fr hr.1
    have hu : o.upgrader = none := none_of_isSome hf.u hr.2
    simp only [State.pass1, State.enter2, State.noReaders] at hd ⊢
    by_cases hn : (s.n == 0) = true
    · simp only [hn, ↓reduceIte] at hd; cases hd
    · rw [Bool.not_eq_true] at hn; simp only [hn, Bool.false_eq_true, ↓reduceIte] at hd ⊢; rw [← Bool.not_eq_true] at hn
      refine Rel.ofG2 t .lock 0 tm .asleep h.lim h.lpos h.nle (same _) ⟨rfl, hr.2, hf.writer, hpend, uniq _ hf, by simp, ⟨hu, ?_, ?_⟩⟩ (h.keep1 t _ (by simp) (fun _ _ h => h) (fun _ _ h => h)) (h.keepBound t _ fun hb => by omega)
      · have := hf.n; simp only [Own.owners, hu, Option.toList, List.length_nil] at this ⊢; omega
      · intro hx; have := hf.exact hx; simp only [Own.owners, hu, Option.toList, List.length_nil] at this ⊢; omega
  | shared => simp [State.pass1] at hd
  | upgrade => simp [State.pass1] at hd
  | sharedToUpgrade => simp [State.pass1] at hd
  | sharedToExclusive =>
    simp only [Op.ready, State.noWriterNoUpgrader, Bool.and_eq_true, Bool.not_eq_true'] at hr
    have hf := h.fr hr.1
    have hm := mem_of_contains hmay
    have hu : o.upgrader = none := none_of_isSome hf.u hr.2
    have hpos := List.length_pos_of_mem hm
    have hnle := h.nle
    simp only [State.pass1, State.enter2, State.noReaders] at hd ⊢
    by_cases hn : (s.n - 1 == 0) = true
    · simp only [hn, ↓reduceIte] at hd; cases hd
    · rw [Bool.not_eq_true] at hn; simp only [hn, Bool.false_eq_true, ↓reduceIte] at hd ⊢; rw [← Bool.not_eq_true] at hn
      simp only [beq_iff_eq] at hn
      refine Rel.ofG2 t .sharedToExclusive (s.n - 1) tm .asleep h.lim h.lpos (by simp only; omega) (same _) ⟨rfl, hr.2, hf.writer, hpend, uniq _ hf, fun _ => ⟨Nat.le_refl _, by simp only; omega⟩, ⟨hu, hm, ?_, ?_⟩⟩ (h.keep1 t _ (by simp) (fun _ _ h => h) (fun _ _ h => h)) (h.keepBound t _ fun hb => by omega)
      · have := hf.n; simp only [Own.owners, hu, Option.toList, List.length_nil] at this ⊢; omega
      · intro hx; have := hf.exact hx; simp only [Own.owners, hu, Option.toList, List.length_nil] at this ⊢; omega
  | upgradeToExclusive =>
    have ha := ha.resolve_right (by simp)
    simp only [Op.asserts, Bool.and_eq_true, Bool.not_eq_true', decide_eq_true_eq] at ha
    have hf := h.fr ha.1.1
    simp only [Own.may, beq_iff_eq] at hmay
    have hnle := h.nle
    simp only [State.pass1, State.enter2, State.noReaders] at hd ⊢
    by_cases hn : (s.n - 1 == 0) = true
    · simp only [hn, ↓reduceIte] at hd; cases hd
    · rw [Bool.not_eq_true] at hn; simp only [hn, Bool.false_eq_true, ↓reduceIte] at hd ⊢; rw [← Bool.not_eq_true] at hn
      simp only [beq_iff_eq] at hn
      refine Rel.ofG2 t .upgradeToExclusive (s.n - 1) tm .asleep h.lim h.lpos (by simp only; omega) (same _) ⟨rfl, rfl, hf.writer, hpend, uniq _ hf, fun _ => ⟨Nat.le_refl _, by simp only; omega⟩, ⟨hmay, ?_, ?_⟩⟩ (h.keep1 t _ (by simp) (fun _ _ h => h) (fun _ _ h => h)) (h.keepBound t _ fun hb => by omega)
      · have := hf.n; simp only [Own.owners, hmay, Option.toList, List.length_cons, List.length_nil] at this ⊢; omega
      · intro hx; have := hf.exact hx; simp only [Own.owners, hmay, Option.toList, List.length_cons, List.length_nil] at this ⊢; omega

/-! ## The steps -/

theorem Rel.cases {lim : Nat} {s : State} {o : Own} (h : Rel lim s o) (hw : s.w = true) : (∃ t, o.writer = some t ∧ Wr s o) ∨ (∃ t op sv tm sl, s.pc t = .gate2 op sv tm sl ∧ G2 s o t op sv) ∨ (o.thrown = true ∧ o.writer = none ∧ ∀ t, (s.pc t).isG2 = false) := by
  cases ho : o.writer with
  | some t => exact Or.inl ⟨t, rfl, h.wr t ho⟩
  | none =>
    by_cases hg : ∀ t, (s.pc t).isG2 = false
    · exact Or.inr (Or.inr ⟨h.stuck hw ho hg, rfl, hg⟩)
    · rw [Classical.not_forall] at hg
      obtain ⟨t, ht⟩ := hg
      cases hp : s.pc t with
      | idle => simp [hp, PC.isG2] at ht
      | gate1 => simp [hp, PC.isG2] at ht
      | gate2 op sv tm sl => exact Or.inr (Or.inl ⟨t, op, sv, tm, sl, hp, h.g2 t op sv tm sl hp⟩)

theorem Rel.around {lim : Nat} {s : State} {o : Own} (h : Rel lim s o) (hw : s.w = true) : o.disturbed = true ∨ o.writerAround = true := by
  rcases h.cases hw with ⟨t, ho, _⟩ | ⟨t, op, sv, tm, sl, _, hg⟩ | ⟨ht, _⟩
  · right; simp [Own.writerAround, ho]
  · right
    have := hg.pend
    cases hp : o.pending with
    | nil => rw [hp] at this; cases this
    | cons => simp [Own.writerAround, hp]
  · left; simp [Own.disturbed, ht]

theorem two_le {l : List Nat} {a b : Nat} (ha : a ∈ l) (hb : b ∈ l) (hne : a ≠ b) : 2 ≤ l.length := by
  match l, ha, hb with
  | [x], ha, hb => simp only [List.mem_singleton] at ha hb; exact absurd (ha.trans hb.symm) hne
  | x :: y :: l, _, _ => simp only [List.length_cons]; omega

/-- A reader that is not waiting is counted. -/
theorem Rel.reader_pos {lim : Nat} {s : State} {o : Own} (h : Rel lim s o) {t : Nat} (hp : (s.pc t).isG2 = false) (hm : t ∈ o.readers) : 0 < s.n ∨ o.thrown = true := by
  have hpos := List.length_pos_of_mem hm
  cases hw : s.w with
  | false =>
    have := (h.fr hw).n
    rw [Own.owners] at this
    left; omega
  | true =>
    rcases h.cases hw with ⟨t', ho, hr⟩ | ⟨t', op, sv, tm, sl, hp', hg⟩ | ⟨ht, _⟩
    · rw [hr.readers] at hm; cases hm
    · left
      have ha := hg.at2
      have hne : t' ≠ t := by rintro rfl; rw [hp'] at hp; cases hp
      cases op <;> simp only [At2] at ha
      · omega
      · have := two_le ha.2.1 hm hne; omega
      · omega
    · exact Or.inr ht

theorem Rel.upgrader_ok {lim : Nat} {s : State} {o : Own} (h : Rel lim s o) {t : Nat} (hp : (s.pc t).isG2 = false) (hm : o.upgrader = some t) : (s.w = false ∧ s.u = true ∧ 0 < s.n) ∨ o.thrown = true := by
  cases hw : s.w with
  | false =>
    have hf := h.fr hw
    have := hf.n
    simp only [Own.owners, hm, Option.toList, List.length_cons, List.length_nil] at this
    exact Or.inl ⟨rfl, by rw [hf.u, hm]; rfl, by omega⟩
  | true =>
    rcases h.cases hw with ⟨t', ho, hr⟩ | ⟨t', op, sv, tm, sl, hp', hg⟩ | ⟨ht, _⟩
    · rw [hr.upgrader] at hm; cases hm
    · have ha := hg.at2
      cases op <;> simp only [At2] at ha
      · rw [ha.1] at hm; cases hm
      · rw [ha.1] at hm; cases hm
      · have : t' = t := by have := ha.1.symm.trans hm; simpa using this
        subst this
        rw [hp'] at hp; cases hp
    · exact Or.inr ht

theorem follows_called {lim : Nat} {P : Own → Prop} {o : Own} {t : Nat} {op : Op} {es : List Event} (h : o.may t op = true → Follows (next lim) P o es) : Follows (next lim) P o (op.callEvents t ++ es) := by
  have key : Follows (next lim) P o ([.called t op] ++ es) := by
    simp only [List.cons_append, List.nil_append, Follows, next, pre]
    by_cases hm : o.may t op = true
    · simp only [hm, if_true]; exact h hm
    · simp only [hm]; trivial
  cases op with
  | lock => exact h rfl
  | shared => exact h rfl
  | upgrade => exact h rfl
  | sharedToExclusive | sharedToUpgrade | upgradeToExclusive => exact key

theorem follows_pre {lim : Nat} {P : Own → Prop} {o : Own} {e : Event} {b : Bool} {v : Verdict Own} (hn : next lim o e = pre b v) (h : b = true → ∃ o', v = .ok o' ∧ P o') : Follows (next lim) P o [e] := by
  simp only [Follows, hn, pre]
  cases b with
  | false => trivial
  | true =>
    obtain ⟨o', hv, hP⟩ := h rfl
    simp only [hv, if_true]
    exact hP

theorem follows_ok {lim : Nat} {P : Own → Prop} {o o' : Own} {e : Event} (hn : next lim o e = .ok o') (h : P o') : Follows (next lim) P o [e] := by
  simp only [Follows, hn]; exact h

theorem sim_dead {lim : Nat} {s : State} {o : Own} (h : Rel lim s o) : Rel lim { s with dead := true } o := { h with
  wr := fun t ht => { h.wr t ht with }, g2 := fun t op sv tm sl he => { h.g2 t op sv tm sl he with }, fr := fun hw => { h.fr hw with } }

theorem pass1_not_done {s : State} {t : Nat} {tm : Bool} {op : Op} (h : (s.pass1 t tm op).2 = false) : op.exclusive = true := by
  cases op <;> first | rfl | (simp [State.pass1] at h)

theorem sim_call {lim : Nat} {s s' : State} {o : Own} {es : List Event} {t : Nat} {op : Op} {tm : Bool} (h : Rel lim s o) (hd : s.dead = false) (hs : step s (.call t op tm) = some (s', es)) : Follows (next lim) (Rel lim s') o es := by
  simp only [step] at hs
  rw [if_neg (by simp [hd])] at hs
  split at hs
  · rename_i hc
    obtain ⟨ht, hp, -⟩ := hc
    have h2 : (s.pc t).isG2 = false := by rw [hp]; rfl
    have hpend : Rel lim s { o with pending := t :: o.pending } :=
      h.pend t (t :: o.pending) o.phantom o.thrown (fun _ _ hx => List.mem_cons_of_mem _ hx) (fun _ hx => absurd (List.mem_cons_self) hx) id id
    split at hs
    · rename_i ha
      split at hs
      · rename_i hr
        simp only [Option.some.injEq, Prod.mk.injEq] at hs
        obtain ⟨rfl, rfl⟩ := hs
        refine follows_called fun hm => ?_
        cases hdone : (s.pass1 t tm op).2 with
        | true =>
          simp only [if_true]
          exact pass1_true h t op tm hm hr (Or.inl ha) hdone
        | false =>
          simp only [Bool.false_eq_true, if_false]
          refine follows_ok (o' := { o with pending := t :: o.pending }) (by simp only [next, pass1_not_done hdone, if_true]) ?_
          refine pass1_false hpend t op tm ht ?_ hr (Or.inl ha) (by simp) hdone
          cases op <;> exact hm
      · rename_i hr
        simp only [Option.some.injEq, Prod.mk.injEq] at hs
        obtain ⟨rfl, rfl⟩ := hs
        refine follows_called fun hm => ?_
        refine follows_ok rfl ?_
        split
        · refine hpend.pc1 t (.gate1 op tm .asleep) (fun hb => by omega) rfl h2 ?_
          rintro op' tm' sl' he
          cases he
          cases op <;> simp only [At1, Op.exclusive] at *
          · simp
          · exact ⟨by simp, mem_of_contains hm⟩
          · exact mem_of_contains hm
          · exact hr rfl
        · rename_i hx
          refine h.pc1 t (.gate1 op tm .asleep) (fun hb => by omega) rfl h2 ?_
          rintro op' tm' sl' he
          cases he
          cases op <;> simp only [At1, Op.exclusive] at *
          · exact absurd trivial hx
          · exact absurd trivial hx
          · exact mem_of_contains hm
          · exact hx trivial
    · rename_i ha
      simp only [Option.some.injEq, Prod.mk.injEq] at hs
      obtain ⟨rfl, rfl⟩ := hs
      refine follows_called fun hm => ?_
      refine follows_pre rfl fun _ => ⟨o, ?_, sim_dead h⟩
      have : o.thrown = true := by
        cases op <;> simp only [Op.asserts, decide_eq_true_eq] at ha
        · exact absurd trivial ha
        · exact absurd trivial ha
        · exact absurd trivial ha
        · exact (h.reader_pos h2 (mem_of_contains hm)).resolve_left ha
        · exact (h.reader_pos h2 (mem_of_contains hm)).resolve_left ha
        · simp only [Own.may, beq_iff_eq] at hm
          refine (h.upgrader_ok h2 hm).resolve_left ?_
          rintro ⟨h1, h2, h3⟩
          simp [h1, h2, h3] at ha
      simp [must, this]
  · cases hs

theorem sim_try {lim : Nat} {s s' : State} {o : Own} {es : List Event} {t : Nat} {op : TryOp} (h : Rel lim s o) (hd : s.dead = false) (hs : step s (.tryCall t op) = some (s', es)) : Follows (next lim) (Rel lim s') o es := by
  have nil : ∀ {x : List Nat}, x.length ≤ 0 → x = [] := fun hx => List.length_eq_zero_iff.mp (by omega)
  simp only [step] at hs
  rw [if_neg (by simp [hd])] at hs
  split at hs
  · rename_i hc
    obtain ⟨ht, hp⟩ := hc
    have h2 : (s.pc t).isG2 = false := by rw [hp]; rfl
    have hi := upd_idle hp
    split at hs
    · rename_i ha
      split at hs
      · rename_i hr
        simp only [Option.some.injEq, Prod.mk.injEq] at hs
        obtain ⟨rfl, rfl⟩ := hs
        cases op with
        | lock =>
          simp only [TryOp.ready, Bool.and_eq_true, Bool.not_eq_true', beq_iff_eq] at hr
          have hf := h.fr hr.1.1
          have hu : o.upgrader = none := none_of_isSome hf.u hr.1.2
          have hrd : o.readers = [] := by have := hf.n; rw [hr.2, Own.owners] at this; exact nil (by omega)
          refine follows_ok (o' := { o with writer := some t, pending := o.pending.erase t }) (by simp [next, Own.setWriter, must, hf.writer, hu, hrd]) ?_
          have := h.toWriter t (fun x _ => hf.none2 x) (by simp [hrd])
          rw [hi] at this
          simpa only [TryOp.grant, hu, hrd] using this
        | shared =>
          simp only [TryOp.ready, State.noWriterNoMaxReaders, Bool.and_eq_true, Bool.not_eq_true', bne_iff_ne, ne_eq] at hr
          have hf := h.fr hr.1
          refine follows_ok (o' := { o with readers := t :: o.readers }) (by simp [next, Own.addReader, must, hf.writer]) ?_
          refine Rel.ofFree h.lim h.lpos ?_ hr.1 ⟨hf.writer, hf.none2, hf.u, ?_, ?_⟩ ?_ h.bound
          · have := h.nle; simp only [TryOp.grant]; omega
          · have := hf.n; simp only [TryOp.grant, Own.owners, List.length_cons] at this ⊢; omega
          · intro hx; have := hf.exact hx; simp only [TryOp.grant, Own.owners, List.length_cons] at this ⊢; omega
          · have := h.keep1 (o' := { o with readers := t :: o.readers }) t .idle (by simp) (fun _ _ h => h) (fun _ _ h => List.mem_cons_of_mem _ h)
            rwa [hi] at this
        | upgrade =>
          simp only [TryOp.ready, State.noWriterNoUpgraderNoMaxReaders, Bool.and_eq_true, Bool.not_eq_true', bne_iff_ne, ne_eq] at hr
          have hf := h.fr hr.1.1
          have hu : o.upgrader = none := none_of_isSome hf.u hr.1.2
          refine follows_ok (o' := { o with upgrader := some t }) (by simp [next, Own.setUpgrader, must, hf.writer, hu]) ?_
          refine Rel.ofFree h.lim h.lpos ?_ hr.1.1 ⟨hf.writer, hf.none2, rfl, ?_, ?_⟩ ?_ h.bound
          · have := h.nle; simp only [TryOp.grant]; omega
          · have := hf.n; simp only [TryOp.grant, Own.owners, hu, Option.toList, List.length_cons, List.length_nil] at this ⊢; omega
          · intro hx; have := hf.exact hx; simp only [TryOp.grant, Own.owners, hu, Option.toList, List.length_cons, List.length_nil] at this ⊢; omega
          · have := h.keep1 (o' := { o with upgrader := some t }) t .idle (by simp) (fun _ _ h => h) (fun _ _ h => h)
            rwa [hi] at this
        | sharedToExclusive =>
          simp only [TryOp.ready, Bool.and_eq_true, Bool.not_eq_true', beq_iff_eq] at hr
          have hf := h.fr hr.1.1
          have hu : o.upgrader = none := none_of_isSome hf.u hr.1.2
          refine follows_pre rfl fun hm => ?_
          have hm := mem_of_contains hm
          have hrd : o.readers = [t] := by
            have := hf.n
            rw [Own.owners] at this
            have hl : o.readers.length ≤ 1 := by omega
            match hrr : o.readers, hl, hm with
            | [x], _, hm => simp only [List.mem_singleton] at hm; rw [hm]
          refine ⟨{ o with writer := some t, readers := [], pending := o.pending.erase t }, by simp [Own.readerToWriter, must, hf.writer, hu, hrd], ?_⟩
          have := h.toWriter t (fun x _ => hf.none2 x) (by simp [hrd])
          rw [hi] at this
          simpa only [TryOp.grant, hu, hrd] using this
        | sharedToUpgrade =>
          simp only [TryOp.ready, State.noWriterNoUpgrader, Bool.and_eq_true, Bool.not_eq_true'] at hr
          have hf := h.fr hr.1
          have hu : o.upgrader = none := none_of_isSome hf.u hr.2
          refine follows_pre rfl fun hm => ?_
          have hm' := mem_of_contains hm
          have hl := length_erase hm'
          refine ⟨{ o with upgrader := some t, readers := o.readers.erase t }, by simp only [Own.readerToUpgrader, must, hf.writer, hu, hm, Option.isNone_none, Bool.and_self, if_true], ?_⟩
          refine Rel.ofFree h.lim h.lpos h.nle hr.1 ⟨hf.writer, hf.none2, rfl, ?_, ?_⟩ ?_ h.bound
          · have := hf.n; simp only [TryOp.grant, Own.owners, hu, Option.toList, List.length_cons, List.length_nil] at this ⊢; omega
          · intro hx; have := hf.exact hx; simp only [TryOp.grant, Own.owners, hu, Option.toList, List.length_cons, List.length_nil] at this ⊢; omega
          · have := h.keep1 (o' := { o with upgrader := some t, readers := o.readers.erase t }) t .idle (by simp) (fun _ _ h => h) (fun _ hx h => (List.mem_erase_of_ne hx).mpr h)
            rwa [hi] at this
        | upgradeToExclusive =>
          simp only [TryOp.ready, beq_iff_eq] at hr
          simp only [TryOp.asserts, Bool.and_eq_true, Bool.not_eq_true', decide_eq_true_eq] at ha
          have hf := h.fr ha.1.1
          refine follows_pre rfl fun hm => ?_
          rw [beq_iff_eq] at hm
          have hrd : o.readers = [] := by have := hf.n; rw [hr, Own.owners, hm] at this; simp only [Option.toList, List.length_cons, List.length_nil] at this; exact nil (by omega)
          refine ⟨{ o with writer := some t, upgrader := none, pending := o.pending.erase t }, by simp [Own.upgradeToWriter, must, hf.writer, hm, hrd], ?_⟩
          have := h.toWriter t (fun x _ => hf.none2 x) (by simp [hrd])
          rw [hi] at this
          simpa only [TryOp.grant, hrd] using this
      · rename_i hr
        simp only [Option.some.injEq, Prod.mk.injEq] at hs
        obtain ⟨rfl, rfl⟩ := hs
        refine follows_pre rfl fun hm => ⟨o, ?_, h⟩
        have key : o.disturbed = true ∨ o.reason lim t op = true := by
          by_cases hdis : o.disturbed = true
          · exact Or.inl hdis
          right
          rw [Bool.not_eq_true] at hdis
          cases hw : s.w with
          | true =>
            have har := (h.around hw).resolve_left (by simp [hdis])
            cases op <;> simp only [Own.reason, har, Bool.true_or]
            simp only [TryOp.asserts, hw] at ha
            simp at ha
          | false =>
            have hf := h.fr hw
            have hx := hf.exact hdis
            have hlim := h.lim
            cases op <;> simp only [TryOp.ready, State.noWriterNoMaxReaders, State.noWriterNoUpgraderNoMaxReaders, State.noWriterNoUpgrader, hw, hf.u, Own.reason] at hr ⊢
            · cases hu : o.upgrader <;> simp_all [Own.owners]
            · simp at hr; simp; right; omega
            · cases hu : o.upgrader <;> simp_all [Own.owners]
            · cases hu : o.upgrader with
              | some _ => simp
              | none =>
                simp only [hu, Own.owners, Option.toList, List.length_nil] at hx
                by_cases hrd : o.readers = [t]
                · simp_all
                · simp [hrd]
            · cases hu : o.upgrader <;> simp_all
            · simp only [Own.mayTry, beq_iff_eq] at hm
              simp only [Own.owners, hm, Option.toList, List.length_cons, List.length_nil] at hx
              cases hrd : o.readers <;> simp_all
        simp only [must]
        rw [if_pos]
        simpa using key
    · rename_i ha
      simp only [Option.some.injEq, Prod.mk.injEq] at hs
      obtain ⟨rfl, rfl⟩ := hs
      refine follows_pre rfl fun hm => ⟨o, ?_, sim_dead h⟩
      have : o.thrown = true := by
        cases op <;> simp only [TryOp.asserts, decide_eq_true_eq] at ha
        · exact absurd trivial ha
        · exact absurd trivial ha
        · exact absurd trivial ha
        · exact (h.reader_pos h2 (mem_of_contains hm)).resolve_left ha
        · exact (h.reader_pos h2 (mem_of_contains hm)).resolve_left ha
        · simp only [Own.mayTry, beq_iff_eq] at hm
          refine (h.upgrader_ok h2 hm).resolve_left ?_
          rintro ⟨h1, h2, h3⟩
          simp [h1, h2, h3] at ha
      simp [must, this]
  · cases hs

/-- A reader leaves. -/
theorem Rel.leave {lim : Nat} {s : State} {o : Own} (h : Rel lim s o) {t : Nat} (hp : s.pc t = .idle) (hm : t ∈ o.readers) (hn : 0 < s.n) : Rel lim { s with n := s.n - 1 } { o with readers := o.readers.erase t } := by
  have hl := length_erase hm
  have hnle := h.nle
  refine { lim := h.lim, lpos := h.lpos, nle := by simp only; omega, wr := ?_, g2 := ?_, fr := ?_, stuck := h.stuck, g1 := ?_, bound := h.bound }
  · intro x hx
    have := (h.wr x hx).readers
    rw [this] at hm; cases hm
  · intro x op sv tm sl he
    have hne : x ≠ t := by rintro rfl; rw [hp] at he; cases he
    have hg := h.g2 x op sv tm sl he
    refine { hg with saved := ?_, at2 := ?_ }
    · intro ho
      have := hg.saved ho
      simp only
      omega
    · have ha := hg.at2
      cases op <;> simp only [At2, Own.disturbed] at ha ⊢
      · exact ⟨ha.1, by omega, fun hx => by have := ha.2.2 hx; omega⟩
      · have := two_le ha.2.1 hm hne
        exact ⟨ha.1, (List.mem_erase_of_ne hne).mpr ha.2.1, by omega, fun hx => by have := ha.2.2.2 hx; omega⟩
      · exact ⟨ha.1, by omega, fun hx => by have := ha.2.2 hx; omega⟩
  · intro hw
    have hf := h.fr hw
    refine { hf with n := ?_, exact := ?_ }
    · have := hf.n; simp only [Own.owners] at this ⊢; omega
    · intro hx; have := hf.exact hx; simp only [Own.owners] at this ⊢; omega
  · intro x op tm sl he
    have hne : x ≠ t := by rintro rfl; rw [hp] at he; cases he
    have := h.g1 x op tm sl he
    cases op <;> simp only [At1] at this ⊢
    · exact this
    · exact ⟨this.1, (List.mem_erase_of_ne hne).mpr this.2⟩
    · exact (List.mem_erase_of_ne hne).mpr this

theorem sim_down {lim : Nat} {s s' : State} {o : Own} {es : List Event} {t : Nat} {d : Down} {pick : Option Nat} (h : Rel lim s o) (hd : s.dead = false) (hs : step s (.down t d pick) = some (s', es)) : Follows (next lim) (Rel lim s') o es := by
  simp only [step] at hs
  rw [if_neg (by simp [hd])] at hs
  split at hs
  · rename_i hc
    obtain ⟨ht, hp⟩ := hc
    have h2 : (s.pc t).isG2 = false := by rw [hp]; rfl
    have hi := upd_idle hp
    have keep : ∀ o' : Own, o'.pending = o.pending → (∀ x, x ≠ t → x ∈ o.readers → x ∈ o'.readers) → ∀ x op tm sl, s.pc x = .gate1 op tm sl → At1 o' x op := by
      intro o' hpe hr
      have := h.keep1 (o' := o') t .idle (by simp) (fun x _ hx => by rwa [hpe]) hr
      rwa [hi] at this
    split at hs
    · rename_i ha
      split at hs
      · rename_i s1 he
        simp only [Option.some.injEq, Prod.mk.injEq] at hs
        obtain ⟨rfl, rfl⟩ := hs
        cases d with
        | unlock =>
          refine follows_pre rfl fun hm => ⟨_, rfl, ?_⟩
          rw [beq_iff_eq] at hm
          simp only [State.down, Option.some.injEq] at he
          subst he
          have hw := h.wr t hm
          refine Rel.notifyAll1 (Rel.ofFree h.lim h.lpos (Nat.zero_le _) rfl ⟨rfl, hw.none2, by simp only [hw.upgrader]; rfl, ?_, ?_⟩ (keep _ rfl fun _ _ h => h) h.bound)
          · simp [Own.owners, hw.readers, hw.upgrader]
          · simp [Own.owners, hw.readers, hw.upgrader]
        | unlockShared =>
          refine follows_pre rfl fun hm => ⟨_, rfl, ?_⟩
          simp only [Down.asserts, decide_eq_true_eq] at ha
          have hl := h.leave hp (mem_of_contains hm) ha
          simp only [State.down] at he
          split at he
          · split at he
            · exact notifyOne1_rel hl he
            · cases he; exact hl
          · split at he
            · exact notifyOne2_rel hl he
            · cases he; exact hl
        | unlockUpgrade =>
          refine follows_pre rfl fun hm => ⟨_, rfl, ?_⟩
          rw [beq_iff_eq] at hm
          simp only [State.down, Option.some.injEq] at he
          subst he
          simp only [Down.asserts, Bool.and_eq_true, Bool.not_eq_true', decide_eq_true_eq] at ha
          have hf := h.fr ha.1.1
          have hnle := h.nle
          refine Rel.notifyAll1 (Rel.ofFree h.lim h.lpos (by simp only; omega) ha.1.1 ⟨hf.writer, hf.none2, rfl, ?_, ?_⟩ (keep _ rfl fun _ _ h => h) h.bound)
          · have := hf.n; simp only [Own.owners, hm, Option.toList, List.length_cons, List.length_nil] at this ⊢; omega
          · intro hx; have := hf.exact hx; simp only [Own.owners, hm, Option.toList, List.length_cons, List.length_nil] at this ⊢; omega
        | exclusiveToShared =>
          refine follows_pre rfl fun hm => ⟨_, rfl, ?_⟩
          rw [beq_iff_eq] at hm
          simp only [State.down, Option.some.injEq] at he
          subst he
          have hw := h.wr t hm
          have hlim : 0 < s.limit := by rw [h.lim]; exact h.lpos
          refine Rel.notifyAll1 (Rel.ofFree h.lim h.lpos hlim rfl ⟨rfl, hw.none2, by simp only [hw.upgrader]; rfl, ?_, ?_⟩ (keep _ rfl fun _ _ h => List.mem_cons_of_mem _ h) h.bound)
          · simp [Own.owners, hw.readers, hw.upgrader]
          · simp [Own.owners, hw.readers, hw.upgrader]
        | upgradeToShared =>
          refine follows_pre rfl fun hm => ⟨_, rfl, ?_⟩
          rw [beq_iff_eq] at hm
          simp only [State.down, Option.some.injEq] at he
          subst he
          simp only [Down.asserts, Bool.and_eq_true, Bool.not_eq_true', decide_eq_true_eq] at ha
          have hf := h.fr ha.1.1
          refine Rel.notifyAll1 (Rel.ofFree h.lim h.lpos h.nle ha.1.1 ⟨hf.writer, hf.none2, rfl, ?_, ?_⟩ (keep _ rfl fun _ _ h => List.mem_cons_of_mem _ h) h.bound)
          · have := hf.n; simp only [Own.owners, hm, Option.toList, List.length_cons, List.length_nil] at this ⊢; omega
          · intro hx; have := hf.exact hx; simp only [Own.owners, hm, Option.toList, List.length_cons, List.length_nil] at this ⊢; omega
        | exclusiveToUpgrade =>
          refine follows_pre rfl fun hm => ⟨_, rfl, ?_⟩
          rw [beq_iff_eq] at hm
          simp only [State.down, Option.some.injEq] at he
          subst he
          have hw := h.wr t hm
          have hlim : 0 < s.limit := by rw [h.lim]; exact h.lpos
          refine Rel.notifyAll1 (Rel.ofFree h.lim h.lpos hlim rfl ⟨rfl, hw.none2, rfl, ?_, ?_⟩ (keep _ rfl fun _ _ h => h) h.bound)
          · simp [Own.owners, hw.readers, hw.upgrader]
          · simp [Own.owners, hw.readers, hw.upgrader]
      · cases hs
    · rename_i ha
      simp only [Option.some.injEq, Prod.mk.injEq] at hs
      obtain ⟨rfl, rfl⟩ := hs
      refine follows_pre rfl fun hm => ⟨o, ?_, sim_dead h⟩
      have wr : o.writer = some t → (s.w && !s.u && s.n == 0) = true := by
        intro ho
        have := h.wr t ho
        simp [this.w, this.u, this.n]
      have up : o.upgrader = some t → ¬ ((!s.w && s.u && decide (0 < s.n)) = true) → o.thrown = true := by
        intro ho hx
        refine (h.upgrader_ok h2 ho).resolve_left ?_
        rintro ⟨h1, h2, h3⟩
        simp [h1, h2, h3] at hx
      have : o.thrown = true := by
        cases d <;> simp only [Down.asserts, Own.mayDown, beq_iff_eq] at ha hm
        · exact absurd (wr hm) ha
        · exact (h.reader_pos h2 (mem_of_contains hm)).resolve_left (by simpa using ha)
        · exact up hm ha
        · exact absurd (wr hm) ha
        · exact up hm ha
        · exact absurd (wr hm) ha
      simp [must, this]
  · cases hs

/-- A thread gives up waiting on `gate1_`. -/
theorem Rel.give1 {lim : Nat} {s : State} {o : Own} (h : Rel lim s o) {t : Nat} {op : Op} {tm : Bool} {sl : Sleep} (hp : s.pc t = .gate1 op tm sl) (ph th : Bool) (hph : o.phantom = true → ph = true) (hth : o.thrown = true → th = true) :
    Rel lim { s with pc := upd s.pc t .idle } { o with pending := o.pending.erase t, phantom := ph, thrown := th } := by
  have h1 := h.pc1 t .idle (fun _ => rfl) rfl (by rw [hp]; rfl) (by simp)
  exact h1.pend t _ ph th (fun x hx hm => (List.mem_erase_of_ne hx).mpr hm) (fun _ _ => by simp [upd_apply]) hph hth

theorem state_eq {s : State} (hw : s.w = true) (hu : s.u = false) (hn : s.n = 0) (p : Nat → PC) : ({ s with pc := p } : State) = { s with w := true, u := false, n := 0, pc := p } := by
  rw [State.mk.injEq]
  exact ⟨rfl, rfl, hw, hu, hn, rfl, rfl⟩

theorem sim_rest {lim : Nat} {s s' : State} {o : Own} {es : List Event} {l : Label} (h : Rel lim s o) (hd : s.dead = false) (hl : ∀ t, l = .spurious t ∨ l = .timeout t ∨ l = .interrupt t ∨ l = .resume t → step s l = some (s', es) → Follows (next lim) (Rel lim s') o es)
    (hs : step s l = some (s', es)) : Follows (next lim) (Rel lim s') o es := by
  cases l with
  | call t op tm => exact sim_call h hd hs
  | tryCall t op => exact sim_try h hd hs
  | down t d pick => exact sim_down h hd hs
  | spurious t => exact hl t (by simp) hs
  | timeout t => exact hl t (by simp) hs
  | interrupt t => exact hl t (by simp) hs
  | resume t => exact hl t (by simp) hs

theorem Rel.lt_of_gate1 {lim : Nat} {s : State} {o : Own} (h : Rel lim s o) {t : Nat} (hp : s.pc t ≠ .idle) : t < s.threads := by
  by_cases hb : s.threads ≤ t
  · exact absurd (h.bound t hb) hp
  · omega

theorem sim_resume1 {lim : Nat} {s s' : State} {o : Own} {es : List Event} {t : Nat} {op : Op} {tm : Bool} {sl : Sleep} (h : Rel lim s o) (hp : s.pc t = .gate1 op tm sl) (hs : s.resume1 t op tm sl = some (s', es)) :
    Follows (next lim) (Rel lim s') o es := by
  have ht := h.lt_of_gate1 (t := t) (by rw [hp]; simp)
  have ha := h.g1 t op tm sl hp
  simp only [State.resume1] at hs
  split at hs
  · cases hs
  · split at hs
    · rename_i hr
      simp only [Option.some.injEq, Prod.mk.injEq] at hs
      obtain ⟨rfl, rfl⟩ := hs
      have hne : op ≠ .upgradeToExclusive := by rintro rfl; exact ha
      have hm : o.may t op = true := by
        cases op <;> simp only [At1] at ha <;> first | rfl | (simp only [Own.may, List.contains_iff_mem]; first | exact ha.2 | exact ha) | exact absurd ha id
      cases hdone : (s.pass1 t tm op).2 with
      | true =>
        simp only [if_true]
        exact pass1_true h t op tm hm hr (Or.inr hne) hdone
      | false =>
        simp only [Bool.false_eq_true, if_false, Follows]
        refine pass1_false h t op tm ht hm hr (Or.inr hne) ?_ hdone
        cases op <;> simp only [At1] at ha <;> first | exact ha | exact ha.1 | (have := pass1_not_done hdone; cases this) | exact absurd ha id
    · split at hs
      · simp only [Option.some.injEq, Prod.mk.injEq] at hs
        obtain ⟨rfl, rfl⟩ := hs
        exact follows_ok rfl (h.give1 hp _ _ (by intro hx; simp [hx]) id)
      · simp only [Option.some.injEq, Prod.mk.injEq] at hs
        obtain ⟨rfl, rfl⟩ := hs
        refine h.pc1 t _ (fun hb => by omega) rfl (by rw [hp]; rfl) ?_
        rintro op' tm' sl' he
        cases he
        exact ha

theorem sim_resume2 {lim : Nat} {s s' : State} {o : Own} {es : List Event} {t : Nat} {op : Op} {sv : Nat} {tm : Bool} {sl : Sleep} (h : Rel lim s o) (hp : s.pc t = .gate2 op sv tm sl) (hs : s.resume2 t op sv tm sl = some (s', es)) :
    Follows (next lim) (Rel lim s') o es := by
  have nil : ∀ {x : List Nat}, x.length ≤ 0 → x = [] := fun hx => List.length_eq_zero_iff.mp (by omega)
  have hg := h.g2 t op sv tm sl hp
  have ha := hg.at2
  have h2 : ∀ x, x ≠ t → (s.pc x).isG2 = false := by
    intro x hx
    cases hb : (s.pc x).isG2 with
    | false => rfl
    | true => exact absurd (hg.uniq x hb) hx
  have none2 : ∀ x, (upd s.pc t .idle x).isG2 = false := by
    intro x
    simp only [upd_apply]
    split
    · rfl
    · rename_i hx; exact h2 x hx
  simp only [State.resume2, State.noReaders, beq_iff_eq] at hs
  split at hs
  · cases hs
  · split at hs
    · rename_i hn
      simp only [Option.some.injEq, Prod.mk.injEq] at hs
      obtain ⟨rfl, rfl⟩ := hs
      rw [state_eq hg.w hg.u hn]
      cases op <;> simp only [At2] at ha
      · have hrd := nil (x := o.readers) (by omega)
        refine follows_ok (o' := { o with writer := some t, pending := o.pending.erase t }) (by simp [next, Own.setWriter, must, hg.writer, ha.1, hrd]) ?_
        have := h.toWriter t h2 (by simp [hrd])
        simpa only [ha.1, hrd] using this
      · have hrd : o.readers = [t] := by
          have hl : o.readers.length ≤ 1 := by omega
          have hm := ha.2.1
          match hrr : o.readers, hl, hm with
          | [x], _, hm => simp only [List.mem_singleton] at hm; rw [hm]
        refine follows_ok (o' := { o with writer := some t, readers := [], pending := o.pending.erase t }) (by simp [next, Own.readerToWriter, must, hg.writer, ha.1, hrd]) ?_
        have := h.toWriter t h2 (by simp [hrd])
        simpa only [ha.1, hrd] using this
      · have hrd := nil (x := o.readers) (by omega)
        refine follows_ok (o' := { o with writer := some t, upgrader := none, pending := o.pending.erase t }) (by simp [next, Own.upgradeToWriter, must, hg.writer, ha.1, hrd]) ?_
        have := h.toWriter t h2 (by simp [hrd])
        simpa only [hrd] using this
    · split at hs
      · simp only [Option.some.injEq, Prod.mk.injEq] at hs
        obtain ⟨rfl, rfl⟩ := hs
        refine follows_ok rfl ?_
        rw [hg.entered]
        have keep := fun ph th => h.keep1 (o' := { o with pending := o.pending.erase t, phantom := ph, thrown := th }) t .idle (by simp) (fun x hx hm => (List.mem_erase_of_ne hx).mpr hm) (fun _ _ h => h)
        cases op <;> simp only [At2] at ha
        · refine Rel.ofFree h.lim h.lpos h.nle rfl ⟨hg.writer, none2, by simp only [State.fail2, hg.u, ha.1]; rfl, ?_, ?_⟩ (keep _ _) (h.keepBound t _ fun _ => rfl)
          · simp only [State.fail2, Own.owners, ha.1, Option.toList, List.length_nil]; omega
          · intro hx
            have := ha.2.2 (by simpa [Own.disturbed] using hx)
            simp only [State.fail2, Own.owners, ha.1, Option.toList, List.length_nil]; omega
        · have hsv := hg.saved (by simp)
          refine Rel.ofFree h.lim h.lpos (by simp only [State.fail2]; omega) rfl ⟨hg.writer, none2, by simp only [State.fail2, hg.u, ha.1]; rfl, ?_, ?_⟩ (keep _ _) (h.keepBound t _ fun _ => rfl)
          · simp only [State.fail2, Own.owners, ha.1, Option.toList, List.length_nil]; omega
          · intro hx; simp [Own.disturbed] at hx
        · have hsv := hg.saved (by simp)
          refine Rel.ofFree h.lim h.lpos (by simp only [State.fail2]; omega) rfl ⟨hg.writer, none2, by simp only [State.fail2, ha.1]; rfl, ?_, ?_⟩ (keep _ _) (h.keepBound t _ fun _ => rfl)
          · simp only [State.fail2, Own.owners, ha.1, Option.toList, List.length_cons, List.length_nil]; omega
          · intro hx; simp [Own.disturbed] at hx
      · simp only [Option.some.injEq, Prod.mk.injEq] at hs
        obtain ⟨rfl, rfl⟩ := hs
        exact h.pc2 t op sv tm tm sl .asleep hp

/-- An interrupted wait on `gate2_` leaves `write_entered_` set. -/
theorem Rel.throw2 {lim : Nat} {s : State} {o : Own} (h : Rel lim s o) {t : Nat} {op : Op} {sv : Nat} {tm : Bool} {sl : Sleep} (hp : s.pc t = .gate2 op sv tm sl) :
    Rel lim { s with pc := upd s.pc t .idle } { o with pending := o.pending.erase t, thrown := true } := by
  have hg := h.g2 t op sv tm sl hp
  refine { lim := h.lim, lpos := h.lpos, nle := h.nle, wr := ?_, g2 := ?_, fr := ?_, stuck := fun _ _ _ => rfl, g1 := h.keep1 t .idle (by simp) (fun x hx hm => (List.mem_erase_of_ne hx).mpr hm) (fun _ _ h => h), bound := h.keepBound t _ fun _ => rfl }
  · intro x hx; simp only [hg.writer] at hx; cases hx
  · intro x op' sv' tm' sl' he
    simp only [upd_apply] at he
    split at he
    · cases he
    · rename_i hx
      exact absurd (hg.uniq x (by rw [he]; rfl)) hx
  · intro hw; simp only [hg.w] at hw; cases hw

theorem sim {lim : Nat} {s s' : State} {o : Own} {es : List Event} {l : Label} (h : Rel lim s o) (hs : step s l = some (s', es)) : Follows (next lim) (Rel lim s') o es := by
  have hd : s.dead = false := by
    cases hd : s.dead with
    | false => rfl
    | true => simp [step, hd] at hs
  refine sim_rest h hd (fun t hl hs => ?_) hs
  rcases hl with rfl | rfl | rfl | rfl
  · simp only [step] at hs
    rw [if_neg (by simp [hd])] at hs
    split at hs
    · rename_i op tm hp
      cases hs
      refine h.pc1 t _ (fun hb => ?_) rfl (by rw [hp]; rfl) ?_
      · rw [h.bound t hb] at hp; cases hp
      · rintro op' tm' sl' he
        cases he
        exact h.g1 _ _ _ _ hp
    · rename_i op sv tm hp
      cases hs
      exact h.pc2 t op sv tm tm .asleep .awake hp
    · cases hs
  · simp only [step] at hs
    rw [if_neg (by simp [hd])] at hs
    split at hs
    · rename_i op hp
      cases hs
      refine h.pc1 t _ (fun hb => ?_) rfl (by rw [hp]; rfl) ?_
      · rw [h.bound t hb] at hp; cases hp
      · rintro op' tm' sl' he
        cases he
        exact h.g1 _ _ _ _ hp
    · rename_i op sv hp
      cases hs
      exact h.pc2 t op sv true true .asleep .expired hp
    · cases hs
  · simp only [step] at hs
    rw [if_neg (by simp [hd])] at hs
    split at hs
    · rename_i hp
      cases hs
      exact follows_ok rfl (h.give1 hp _ _ id (by intro hx; simp [hx]))
    · rename_i hp
      cases hs
      refine follows_ok rfl ?_
      rw [(h.g2 _ _ _ _ _ hp).entered, Bool.or_true]
      exact h.throw2 hp
    · cases hs
  · simp only [step] at hs
    rw [if_neg (by simp [hd])] at hs
    split at hs
    · rename_i hp
      exact sim_resume1 h hp hs
    · rename_i hp
      exact sim_resume2 h hp hs
    · cases hs

end Verif.V2Mutex
