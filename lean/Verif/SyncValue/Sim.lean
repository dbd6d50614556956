import Verif.SyncValue.Lemmas
/-!
# `synchronized_value`: simulation
-/

set_option linter.unusedSimpArgs false

namespace Verif.SyncValue

theorem eval_eq (c : Cmp) (x y : Nat) : c.eval x y = decide (c.holds x y) := by
  rw [Bool.eq_iff_iff, decide_eq_true_iff]; cases c <;> simp [Cmp.eval, Cmp.holds]

theorem mirror_eq (c : Cmp) (x y : Nat) : c.mirror.eval x y = decide (c.holds y x) := by
  rw [Bool.eq_iff_iff, decide_eq_true_iff]; cases c <;> simp [Cmp.mirror, Cmp.eval, Cmp.holds] <;> omega

def PC.sectOf : PC → List Nat
  | .sect ks => ks
  | _ => []

theorem sectOf_holds {p : PC} {k : Nat} (h : k ∈ p.sectOf) : k ∈ p.holds := by
  cases p <;> simp_all [PC.sectOf, PC.holds]

/-- The two objects of an operation are different when they have to be. -/
def Two.ok (o : Two) (a b : Nat) : Prop := o = .assign ∨ o = .swap → a ≠ b

/-- What a thread has read is still so. `v`: the values as they appear to the outside; `w`: the values stored. -/
def PCok (v w : Nat → Nat) : PC → Prop
  | .first o a b _ => o.ok a b
  | .second o a b _ => o.ok a b
  | .undo o a b _ => o.ok a b
  | .in2 o a b => o.ok a b
  | .assign2 a b y => a ≠ b ∧ y = v b
  | .cmp2 _ a _ x => x = v a
  | .swap2 a b x => a ≠ b ∧ x = v a
  | .swap3 a b x => a ≠ b ∧ x = v a ∧ w a = v b
  | _ => True

theorem PCok.congr {v w v' w' : Nat → Nat} {p : PC} (h : PCok v w p) (e : ∀ k ∈ p.holds, v' k = v k ∧ w' k = w k) : PCok v' w' p := by
  cases p <;> simp_all [PCok, PC.holds]

/-- The value of the object is stored in the object, not held by a thread in the middle of a swap. -/
def Settled (pc : Nat → PC) (k : Nat) : Prop := ∀ t b x, pc t ≠ .swap3 k b x

structure R (s : State) (σ : Sp) : Prop where
  inv : Inv s
  ok : ∀ t, PCok σ.val s.val (s.pc t)
  val : ∀ k, Settled s.pc k → σ.val k = s.val k
  sect : ∀ t, σ.sect t = (s.pc t).sectOf
  held : ∀ t k, σ.held k = some t ↔ k ∈ (s.pc t).sectOf

theorem R.settled {s : State} {σ : Sp} (h : R s σ) {t k : Nat} (hk : k ∈ (s.pc t).holds) (hn : ∀ b x, s.pc t ≠ .swap3 k b x) : Settled s.pc k := by
  intro u b x hu
  have h1 : s.own k = some t := h.inv.own.owner hk
  have h2 : s.own k = some u := h.inv.own.owner (by simp [hold, hu, PC.holds])
  obtain rfl : t = u := by simpa using h1.symm.trans h2
  exact hn b x hu

theorem R.may {s : State} {σ : Sp} (h : R s σ) {t k : Nat} (hk : k ∈ (s.pc t).holds) : σ.may t k := by
  simp only [Sp.may]
  cases hh : σ.held k with
  | none => exact .inl rfl
  | some u =>
    have h1 : s.own k = some t := h.inv.own.owner hk
    have h2 : s.own k = some u := h.inv.own.owner (sectOf_holds ((h.held u k).1 hh))
    exact .inr (by rw [← h1, h2])

/-- A step of `t` that changes no value and leaves and enters no section. -/
theorem R.quiet {s s' : State} {σ : Sp} (h : R s σ) {t : Nat} {p : PC} (hi : Inv s') (e : s'.pc = upd s.pc t p) (ev : s'.val = s.val) (hp : PCok σ.val s.val p)
    (h1 : ∀ a b x, s.pc t ≠ .swap3 a b x) (h3 : p.sectOf = (s.pc t).sectOf) : R s' σ := by
  obtain ⟨_, r1, r2, r3, r4⟩ := h
  refine ⟨hi, fun u => ?_, fun k hk => ?_, fun u => ?_, fun u k => ?_⟩
  · rw [e, ev]; simp only [upd_apply]; split; exact hp; exact r1 u
  · rw [ev]
    refine r2 k fun u b x hu => ?_
    by_cases hut : u = t
    · subst hut; exact h1 _ _ _ hu
    · exact hk u b x (by rw [e]; simp only [upd_apply, if_neg hut, hu])
  · rw [e]; simp only [upd_apply]; split; rename_i hu; rw [hu, h3]; exact r3 t; exact r3 u
  · rw [e]; simp only [upd_apply]; split; rename_i hu; rw [hu, h3]; exact r4 t k; exact r4 u k

/-- A step of `t` that changes values of objects it has locked, and after which none of them is in the middle of a swap. -/
theorem R.store {s s' : State} {σ : Sp} (h : R s σ) {t : Nat} {p : PC} {v : Nat → Nat} (hi : Inv s') (e : s'.pc = upd s.pc t p)
    (hv : ∀ k, k ∉ (s.pc t).holds → v k = σ.val k ∧ s'.val k = s.val k) (hw : ∀ k, k ∈ (s.pc t).holds → v k = s'.val k) (hp : PCok v s'.val p)
    (h3 : p.sectOf = (s.pc t).sectOf) : R s' { σ with val := v } := by
  have hinv := h.inv
  obtain ⟨_, r1, r2, r3, r4⟩ := h
  refine ⟨hi, fun u => ?_, fun k hk => ?_, fun u => ?_, fun u k => ?_⟩
  · rw [e]; simp only [upd_apply]; split
    · exact hp
    · rename_i hu
      refine (r1 u).congr fun k hk => hv k fun hk' => hu ?_
      have a1 : s.own k = some u := hinv.own.owner hk
      have a2 : s.own k = some t := hinv.own.owner hk'
      simpa using a1.symm.trans a2
  · by_cases hm : k ∈ (s.pc t).holds
    · exact hw k hm
    · simp only
      rw [(hv k hm).1, (hv k hm).2]
      refine r2 k fun u b x hu => ?_
      by_cases hut : u = t
      · subst hut; exact hm (by rw [hu]; simp [PC.holds])
      · exact hk u b x (by rw [e]; simp only [upd_apply, if_neg hut, hu])
  · rw [e]; simp only [upd_apply]; split; rename_i hu; rw [hu, h3]; exact r3 t; exact r3 u
  · rw [e]; simp only [upd_apply]; split; rename_i hu; rw [hu, h3]; exact r4 t k; exact r4 u k

theorem R.enter {s : State} {σ : Sp} (h : R s σ) {t : Nat} {ks : List Nat} (hi : Inv (s.setPc t (.sect ks))) (hk : ∀ k, k ∈ ks ↔ k ∈ (s.pc t).holds)
    (h1 : ∀ a b x, s.pc t ≠ .swap3 a b x) (hs : (s.pc t).sectOf = []) : Follows next (R (s.setPc t (.sect ks))) σ [.entered t ks] := by
  have hfree : ∀ k ∈ ks, σ.held k = none := by
    intro k hm
    cases hh : σ.held k with
    | none => rfl
    | some u =>
      exfalso
      have a1 : s.own k = some t := h.inv.own.owner ((hk k).1 hm)
      have a3 := (h.held u k).1 hh
      have a2 : s.own k = some u := h.inv.own.owner (sectOf_holds a3)
      obtain rfl : t = u := by simpa using a1.symm.trans a2
      rw [hs] at a3; cases a3
  simp only [Follows, next, if_pos hfree]
  obtain ⟨hinv, r1, r2, r3, r4⟩ := h
  refine ⟨hi, fun u => ?_, fun k hk' => ?_, fun u => ?_, fun u k => ?_⟩ <;> simp only [State.setPc, upd_apply]
  · split; trivial; exact r1 u
  · refine r2 k fun u b x hu => ?_
    by_cases hut : u = t
    · subst hut; exact h1 _ _ _ hu
    · exact hk' u b x (by simp only [State.setPc, upd_apply, if_neg hut, hu])
  · split; rfl; exact r3 u
  · by_cases hm : k ∈ ks
    · simp only [hm, if_true, Option.some.injEq]
      constructor
      · rintro rfl; simp [PC.sectOf, hm]
      · intro h
        split at h
        · rename_i e; exact e.symm
        · have := (r4 u k).2 h; rw [hfree k hm] at this; cases this
    · simp only [hm, if_false]
      rw [r4 u k]
      split
      · rename_i e; subst e; rw [hs]; simp [PC.sectOf, hm]
      · rfl

theorem sim_call {s s' : State} {σ : Sp} {t : Nat} {c : Call} {es : List Event} (h : R s σ) (hi : s.pc t = .idle) (hs : call false s t c = some (s', es)) :
    Follows next (R s') σ es := by
  have hinv := h.inv.call hi hs
  cases c with
  | one k o =>
    simp only [call, Option.some.injEq, Prod.mk.injEq] at hs
    obtain ⟨rfl, rfl⟩ := hs
    exact h.quiet hinv rfl rfl trivial (by simp [hi]) (by simp [hi, PC.sectOf])
  | two a b o =>
    cases o <;> simp only [call] at hs <;> (try split at hs) <;> (try contradiction) <;> simp only [Option.some.injEq, Prod.mk.injEq, reduceCtorEq] at hs <;>
      obtain ⟨rfl, rfl⟩ := hs
    · rename_i hab
      subst hab
      simp only [Follows, next, true_or, if_true]
      have : upd σ.val a (σ.val a) = σ.val := by funext j; simp only [upd_apply]; split <;> simp_all
      rw [this]; exact h
    · rename_i hab; exact h.quiet hinv rfl rfl (fun _ => hab) (by simp [hi]) (by simp [hi, PC.sectOf])
    · rename_i hab
      subst hab
      simp only [Follows, next, true_or, if_true]
      have : upd (upd σ.val a (σ.val a)) a (σ.val a) = σ.val := by funext j; simp only [upd_apply]; split <;> simp_all
      rw [this]; exact h
    · rename_i hab; exact h.quiet hinv rfl rfl (fun _ => hab) (by simp [hi]) (by simp [hi, PC.sectOf])
    · exact h.quiet hinv rfl rfl (by simp [PCok, Two.ok]) (by simp [hi]) (by simp [hi, PC.sectOf])
    · exact h.quiet hinv rfl rfl (by simp [PCok, Two.ok]) (by simp [hi]) (by simp [hi, PC.sectOf])

theorem sim_go {r : Bool} {s s' : State} {σ : Sp} {t : Nat} {es : List Event} (h : R s σ) (hs : go r s t = some (s', es)) : Follows next (R s') σ es := by
  have hinv := h.inv.go hs
  have hok := h.ok t
  have h3 := h.inv.no3 t
  simp only [go] at hs
  split at hs
  all_goals rename_i hpc; rw [hpc] at hok h3
  all_goals have hset : ∀ k ∈ (s.pc t).holds, (∀ b x, s.pc t ≠ .swap3 k b x) → σ.val k = s.val k := fun k hk hn => h.val k (h.settled hk hn)
  all_goals have hmay : ∀ k ∈ (s.pc t).holds, σ.may t k := fun k hk => h.may hk
  all_goals rw [hpc] at hset hmay
  all_goals (try split at hs) <;> (try simp only [Option.some.injEq, Prod.mk.injEq, reduceCtorEq] at hs) <;> (try obtain ⟨rfl, rfl⟩ := hs)
  · exact h.quiet hinv rfl rfl trivial (by simp [hpc]) (by simp [hpc, PC.sectOf])
  · rename_i k
    have : σ.may t k ∧ s.val k = σ.val k := ⟨hmay k (by simp [PC.holds]), (hset k (by simp [PC.holds]) (by simp)).symm⟩
    simp only [Follows, next, if_pos this]
    exact h.quiet hinv rfl rfl trivial (by simp [hpc]) (by simp [hpc, PC.sectOf])
  · rename_i k v
    simp only [Follows, next, if_pos (hmay k (by simp [PC.holds]))]
    refine h.store hinv rfl (fun j hj => ?_) (fun j hj => ?_) trivial (by simp [hpc, PC.sectOf])
    · have : j ≠ k := by simpa [hpc, PC.holds] using hj
      simp [State.setPc, upd_apply, this]
    · have : j = k := by simpa [hpc, PC.holds] using hj
      simp [State.setPc, upd_apply, this]
  · rename_i k left c v
    have : σ.may t k ∧ c.withValue left (s.val k) v = (if left then decide (c.holds v (σ.val k)) else decide (c.holds (σ.val k) v)) :=
      ⟨hmay k (by simp [PC.holds]), by rw [hset k (by simp [PC.holds]) (by simp)]; cases left
                                       · exact eval_eq c _ _
                                       · exact mirror_eq c _ _⟩
    simp only [Follows, next, if_pos this]
    exact h.quiet hinv rfl rfl trivial (by simp [hpc]) (by simp [hpc, PC.sectOf])
  · exact h.enter hinv (by simp [hpc, PC.holds]) (by simp [hpc]) (by simp [hpc, PC.sectOf])
  · exact h.quiet hinv rfl rfl hok (by simp [hpc]) (by simp [hpc, PC.sectOf])
  · exact h.quiet hinv rfl rfl hok (by simp [hpc]) (by simp [hpc, PC.sectOf])
  · exact h.quiet hinv rfl rfl hok (by simp [hpc]) (by simp [hpc, PC.sectOf])
  · exact h.quiet hinv rfl rfl hok (by simp [hpc]) (by simp [hpc, PC.sectOf])
  · rename_i a b
    exact h.quiet hinv rfl rfl ⟨hok (.inl rfl), (hset b (by simp [PC.holds]) (by simp)).symm⟩ (by simp [hpc]) (by simp [hpc, PC.sectOf])
  · rename_i a b y
    have : a = b ∨ (σ.may t a ∧ σ.may t b) := .inr ⟨hmay a (by simp [PC.holds]), hmay b (by simp [PC.holds])⟩
    simp only [Follows, next, if_pos this]
    have ea := hset a (by simp [PC.holds]) (by simp)
    have eb := hset b (by simp [PC.holds]) (by simp)
    simp only [PCok] at hok
    refine h.store hinv rfl (fun j hj => ?_) (fun j hj => ?_) trivial (by simp [hpc, PC.sectOf])
    · have : j ≠ b ∧ j ≠ a := by simpa [hpc, PC.holds] using hj
      simp [State.setPc, upd_apply, this.2]
    · have : j = b ∨ j = a := by simpa [hpc, PC.holds] using hj
      simp only [State.setPc, upd_apply]; grind
  · rename_i c a b
    exact h.quiet hinv rfl rfl (hset a (by simp [PC.holds]) (by simp)).symm (by simp [hpc]) (by simp [hpc, PC.sectOf])
  · rename_i c a b x
    have eb := hset b (by simp [PC.holds]) (by simp)
    simp only [PCok] at hok
    have : σ.may t a ∧ σ.may t b ∧ c.eval x (s.val b) = decide (c.holds (σ.val a) (σ.val b)) := ⟨hmay a (by simp [PC.holds]), hmay b (by simp [PC.holds]), by rw [hok, eb]; exact eval_eq c _ _⟩
    simp only [Follows, next, if_pos this]
    exact h.quiet hinv rfl rfl trivial (by simp [hpc]) (by simp [hpc, PC.sectOf])
  · rename_i a b
    exact h.quiet hinv rfl rfl ⟨hok (.inr rfl), (hset a (by simp [PC.holds]) (by simp)).symm⟩ (by simp [hpc]) (by simp [hpc, PC.sectOf])
  · rename_i a b x
    have ea := hset a (by simp [PC.holds]) (by simp)
    have eb := hset b (by simp [PC.holds]) (by simp)
    simp only [PCok] at hok
    have hown : s.own a = some t := h.inv.own.owner (by simp [hold, hpc, PC.holds])
    have hI := h.inv
    obtain ⟨_, r1, r2, r3, r4⟩ := h
    refine ⟨hinv, fun u => ?_, fun k hk => ?_, fun u => ?_, fun u k => ?_⟩ <;> simp only [State.setPc, upd_apply]
    · split
      · exact ⟨hok.1, hok.2, by simp [upd_apply, eb]⟩
      · rename_i hu
        refine (r1 u).congr fun k hk => ⟨rfl, ?_⟩
        have : k ≠ a := by
          rintro rfl
          have a1 : s.own k = some u := hI.own.owner hk
          exact hu (by simpa using a1.symm.trans hown)
        simp [upd_apply, this]
    · have hka : k ≠ a := by
        rintro rfl; exact hk t b x (by simp [State.setPc, upd_apply])
      rw [if_neg hka]
      refine r2 k fun u b' x' hu => ?_
      by_cases hut : u = t
      · subst hut; rw [hpc] at hu; cases hu
      · exact hk u b' x' (by simp only [State.setPc, upd_apply, if_neg hut, hu])
    · split
      · rename_i e; subst e; rw [r3 u, hpc]; rfl
      · exact r3 u
    · rw [r4 u k]
      split
      · rename_i e; subst e; rw [hpc]; simp [PC.sectOf]
      · rfl
  · rename_i a b x
    have : a = b ∨ (σ.may t a ∧ σ.may t b) := .inr ⟨hmay a (by simp [PC.holds]), hmay b (by simp [PC.holds])⟩
    simp only [Follows, next, if_pos this]
    simp only [PCok] at hok
    have eb := hset b (by simp [PC.holds]) (by simp [hok.1])
    refine h.store hinv rfl (fun j hj => ?_) (fun j hj => ?_) trivial (by simp [hpc, PC.sectOf])
    · have : j ≠ b ∧ j ≠ a := by simpa [hpc, PC.holds] using hj
      simp [State.setPc, upd_apply, this.1, this.2]
    · have : j = b ∨ j = a := by simpa [hpc, PC.holds] using hj
      simp only [State.setPc, upd_apply]; grind
  · exact h.enter hinv (by simp [hpc, PC.holds, or_comm]) (by simp [hpc]) (by simp [hpc, PC.sectOf])
  · exact absurd rfl (h3 _)
  · exact h.quiet hinv rfl rfl trivial (by simp [hpc]) (by simp [hpc, PC.sectOf])
  · exact h.quiet hinv rfl rfl trivial (by simp [hpc]) (by simp [hpc, PC.sectOf])

theorem sim {r : Bool} {s s' : State} {σ : Sp} {l : Label} {es : List Event} (h : R s σ) (hs : step r false s l = some (s', es)) : Follows next (R s') σ es := by
  have hinv := h.inv.step hs
  cases l with
  | call t c =>
    simp only [step] at hs
    split at hs
    · rename_i hi; exact sim_call h hi hs
    · cases hs
  | go t => exact sim_go h hs
  | read t k =>
    simp only [step] at hs
    split at hs
    · rename_i ks hpc
      split at hs
      · rename_i hk
        simp only [Option.some.injEq, Prod.mk.injEq] at hs
        obtain ⟨rfl, rfl⟩ := hs
        have : σ.held k = some t ∧ s.val k = σ.val k :=
          ⟨(h.held t k).2 (by simp [hpc, PC.sectOf, hk]), (h.val k (h.settled (t := t) (by simp [hpc, PC.holds, hk]) (by simp [hpc]))).symm⟩
        simp only [Follows, next, if_pos this]
        exact h
      · cases hs
    · cases hs
  | write t k v =>
    simp only [step] at hs
    split at hs
    · rename_i ks hpc
      split at hs
      · rename_i hk
        simp only [Option.some.injEq, Prod.mk.injEq] at hs
        obtain ⟨rfl, rfl⟩ := hs
        have : σ.held k = some t := (h.held t k).2 (by simp [hpc, PC.sectOf, hk])
        simp only [Follows, next, if_pos this]
        have e : s.pc = upd s.pc t (s.pc t) := by funext u; simp only [upd_apply]; split <;> simp_all
        refine h.store hinv e (fun j hj => ?_) (fun j hj => ?_) (by rw [hpc]; trivial) rfl
        · have : j ≠ k := by rintro rfl; exact hj (by simp [hpc, PC.holds, hk])
          simp [upd_apply, this]
        · simp only [upd_apply]; split
          · rfl
          · exact h.val j (h.settled hj (by simp [hpc]))
      · cases hs
    · cases hs
  | leave t =>
    simp only [step] at hs
    split at hs
    · rename_i ks hpc
      simp only [Option.some.injEq, Prod.mk.injEq] at hs
      obtain ⟨rfl, rfl⟩ := hs
      have hsec : σ.sect t = ks := by rw [h.sect, hpc]; rfl
      simp only [Follows, next, hsec]
      obtain ⟨_, r1, r2, r3, r4⟩ := h
      refine ⟨hinv, fun u => ?_, fun k hk => ?_, fun u => ?_, fun u k => ?_⟩ <;> simp only [State.setPc, upd_apply]
      · split; trivial; exact r1 u
      · refine r2 k fun u b' x' hu => ?_
        by_cases hut : u = t
        · subst hut; rw [hpc] at hu; cases hu
        · exact hk u b' x' (by simp only [State.setPc, upd_apply, if_neg hut, hu])
      · split; rfl; exact r3 u
      · have hh : k ∈ ks → σ.held k = some t := fun hk => (r4 t k).2 (by simp [hpc, PC.sectOf, hk])
        have := r4 u k
        by_cases hm : k ∈ ks
        · simp only [hm, if_true]
          by_cases hut : u = t
          · subst hut; simp [PC.sectOf]
          · simp only [if_neg hut]
            rw [← this, hh hm]
            simp [Ne.symm hut]
        · simp only [hm, if_false]
          by_cases hut : u = t
          · subst hut; rw [this, hpc]; simp [PC.sectOf, hm]
          · simp only [if_neg hut]; exact this
    · cases hs

theorem R.init (v : Nat → Nat) : R (SyncValue.init v) { val := v } := by
  refine ⟨Inv.init v, ?_, ?_, ?_, ?_⟩ <;> simp [SyncValue.init, PCok, PC.sectOf]

end Verif.SyncValue
