import Verif.Unwrap.Inv
/-!
# Every step keeps the invariant of the model of `unwrap`
-/

set_option linter.unusedSimpArgs false
set_option linter.unusedVariables false

namespace Verif.Unwrap

theorem upd_upd {α : Type} (f : Nat → α) (i : Nat) (x y : α) : upd (upd f i x) i y = upd f i y := by
  funext j; simp only [upd_apply]; split <;> simp_all

theorem upd_self {α : Type} (f : Nat → α) (i : Nat) : upd f i (f i) = f := by
  funext j; simp only [upd_apply]; split <;> simp_all

/-- The parts of a stack whose first item is `c`. -/
theorem Inv.top {s es loc} (h : Inv s es loc) {t c : Nat} {rest : List Frame} (hs : items (s.stk t) = c :: items rest) :
    loc c = .thr t ∧ (∀ x, x ∈ items rest ↔ loc x = .thr t ∧ x ≠ c) ∧ (items rest).Nodup := by
  have hn := h.nodT t
  rw [hs] at hn
  have hn := List.nodup_cons.1 hn
  refine ⟨(h.locT c t).1 (by simp [hs]), fun x => ?_, hn.2⟩
  rw [← h.locT x t, hs]
  simp only [List.mem_cons]
  constructor
  · intro hx; exact ⟨.inr hx, fun he => hn.1 (he ▸ hx)⟩
  · rintro ⟨rfl | hx, hc⟩
    · exact absurd rfl hc
    · exact hx

theorem Inv.active {s es loc} (h : Inv s es loc) {t c : Nat} (hl : loc c = .thr t) : Active s c := (h.tok c).1 (by simp [hl])

theorem Inv.ltOf {s es loc} (h : Inv s es loc) {i : Nat} (hi : s.node i ≠ {}) : i < s.n := Nat.lt_of_not_le fun hc => hi (h.fresh i hc)

theorem Active.lt {s es loc c} (h : Inv s es loc) (ha : Active s c) : c < s.n ∧ (s.node c).out = none ∧ (s.node c).deferred = false := by
  refine ⟨h.ltOf fun hc => by simp [Active, hc] at ha, ha.1, ?_⟩
  cases hd : (s.node c).deferred with
  | false => rfl
  | true =>
    have h1 := h.def1 c hd
    rcases ha.2 with ⟨w, hw⟩ | hw
    · rw [h1.1] at hw; cases hw
    · rw [hd] at hw; cases hw.2

theorem fits_typed {s es loc} (h : Inv s es loc) {i : Nat} {o : Out} (hf : s.fits (s.node i).depth o = true) : Typed s i o := by
  cases o with
  | num v => simpa [State.fits, Typed] using hf
  | fut j =>
    cases j with
    | none => simpa [State.fits, Typed] using hf
    | some j =>
      simp only [State.fits, Bool.and_eq_true, beq_iff_eq] at hf
      exact ⟨h.heldlt j hf.1, hf.2⟩
  | exc => trivial
  | uninit => trivial

theorem store_lt {s es loc} (h : Inv s es loc) (o : Out) : ∀ i, s.store o i = true → i < s.n := by
  intro i hi
  cases o with
  | fut j =>
    cases j with
    | none => exact h.heldlt i hi
    | some j =>
      simp only [State.store, upd_apply] at hi
      split at hi
      · cases hi
      · exact h.heldlt i hi
  | _ => exact h.heldlt i hi

theorem take_lt {s es loc} (h : Inv s es loc) {k : Nat} {o : Out} (ho : (s.node k).out = some o) : ∀ i, s.take o i = true → i < s.n := by
  intro i hi
  cases o with
  | fut j =>
    cases j with
    | none => exact h.heldlt i hi
    | some j =>
      simp only [State.take, upd_apply] at hi
      split at hi
      · rename_i he; subst he; exact (h.typ k _ ho).1
      · exact h.heldlt i hi
  | _ => exact h.heldlt i hi

/-- A promise or function delivers. -/
theorem Inv.deliver {s es loc} (h : Inv s es loc) {t c : Nat} {o : Out} {w : Why} {rest : List Frame} {e : Event} (he : e = .sets t c o ∨ e = .ended t c o)
    (hlt : c < s.n) (hout : (s.node c).out = none) (hdef : (s.node c).deferred = false) (hk : ∀ w, (s.node c).kind ≠ .unwrap w)
    (hlc : loc c = .thr t ∨ loc c = .nowhere) (hit : ∀ x, x ∈ items rest ↔ loc x = .thr t ∧ x ≠ c) (hnd : (items rest).Nodup) (hfr : ∀ f ∈ rest, FrameOk s f)
    (hw : ∀ u, w = .unwrap u → u < s.n) (hf : s.fits (s.node c).depth o = true) :
    ∃ loc', Inv ({ s with held := s.store o }.finish t c o w rest) (es ++ [e]) loc' := by
  have hde : ∀ i o', Delivered (es ++ [e]) i o' ↔ Delivered es i o' ∨ i = c ∧ o' = o := by
    intro i o'
    simp only [Delivered, List.mem_append, List.mem_singleton]
    rcases he with rfl | rfl
    · simp only [Event.sets.injEq, reduceCtorEq, or_false]
      constructor
      · rintro ⟨t', (h | ⟨-, rfl, rfl⟩) | h⟩
        · exact .inl ⟨t', .inl h⟩
        · exact .inr ⟨rfl, rfl⟩
        · exact .inl ⟨t', .inr h⟩
      · rintro (⟨t', h | h⟩ | ⟨rfl, rfl⟩)
        · exact ⟨t', .inl (.inl h)⟩
        · exact ⟨t', .inr h⟩
        · exact ⟨t, .inl (.inr ⟨rfl, rfl, rfl⟩)⟩
    · simp only [Event.ended.injEq, reduceCtorEq, or_false]
      constructor
      · rintro ⟨t', h | h | ⟨-, rfl, rfl⟩⟩
        · exact .inl ⟨t', .inl h⟩
        · exact .inl ⟨t', .inr h⟩
        · exact .inr ⟨rfl, rfl⟩
      · rintro (⟨t', h | h⟩ | ⟨rfl, rfl⟩)
        · exact ⟨t', .inl h⟩
        · exact ⟨t', .inr (.inl h)⟩
        · exact ⟨t, .inr (.inr ⟨rfl, rfl, rfl⟩)⟩
  refine (h.hold (store_lt h o)).finish hlt hout hdef hlc hit hnd (fun f hm => (hfr f hm).mono (Nat.le_refl _) (fun _ _ => rfl) (fun _ _ => rfl) (fun _ => id))
    ((fits_typed h hf).mono (Nat.le_refl _) rfl (fun _ _ => rfl)) hw ?_ ?_ (.delivered ((hde c o).2 (.inr ⟨rfl, rfl⟩)))
  · intro u w'
    simp only [Unwraps, List.mem_append, List.mem_singleton]
    rcases he with rfl | rfl <;> simp
  · intro i o'
    rw [hde]
    simp only [hk, ne_eq, not_false_eq_true, implies_true, and_true]

theorem Inv.op {s es loc} (h : Inv s es loc) {t : Nat} {o : Op} {s' : State} {e : List Event} (hs : stepOp s t o = some (s', e)) :
    ∃ loc', Inv s' (es ++ e) loc' := by
  cases o with
  | promise d =>
    simp only [stepOp, Option.some.injEq, Prod.mk.injEq] at hs
    obtain ⟨rfl, rfl⟩ := hs
    refine ⟨loc, h.create (by simp) (.inl (by simp)) (by simp [Event.silent]) _ ?_⟩
    intro i hi
    simp only [upd_apply] at hi
    split at hi
    · omega
    · have := h.heldlt i hi; omega
  | defer d =>
    simp only [stepOp, Option.some.injEq, Prod.mk.injEq] at hs
    obtain ⟨rfl, rfl⟩ := hs
    refine ⟨loc, h.create (by simp) (.inr (by simp)) (by simp [Event.silent]) _ ?_⟩
    intro i hi
    simp only [upd_apply] at hi
    split at hi
    · omega
    · have := h.heldlt i hi; omega
  | unwrap w =>
    simp only [stepOp] at hs
    split at hs
    · rename_i hc
      simp only [Option.some.injEq, Prod.mk.injEq] at hs
      obtain ⟨rfl, rfl⟩ := hs
      have hw := h.heldlt w hc.1
      have h1 := h.createU (t := t) hw hc.2
      have h2 := h1.top (t := t) (c := s.n) (rest := s.stk t) (by simp [Frame.items])
      obtain ⟨loc', h3⟩ := h1.attach (j := w) (w := .unwrap s.n) (rest := s.stk t) (Nat.lt_succ_of_lt hw) (fun u hu => by cases hu; exact Nat.lt_succ_self _) (by simp) h2.1
        ⟨w, by simp, .inl ⟨by simp, rfl⟩⟩ h2.2.1 h2.2.2
        (fun f hf => h1.frames t f (by simp [hf]))
      refine ⟨loc', ?_⟩
      simp only [State.attach, upd_upd] at h3 ⊢
      exact h3
    · cases hs
  | set i o =>
    simp only [stepOp] at hs
    split at hs
    · rename_i hc
      obtain ⟨hlt, hk, hf⟩ := hc
      split at hs
      · simp only [Option.some.injEq, Prod.mk.injEq] at hs
        obtain ⟨rfl, rfl⟩ := hs
        exact ⟨loc, h.silent (by simp [Event.silent])⟩
      · rename_i ho
        simp only [Option.some.injEq, Prod.mk.injEq] at hs
        obtain ⟨rfl, rfl⟩ := hs
        have hnot : loc i = .nowhere := by
          cases hl : loc i with
          | nowhere => rfl
          | _ => have := (h.tok i).1 (by simp [hl]); simp [Active, hk] at this
        refine h.deliver (.inl rfl) hlt ho ?_ (by simp [hk]) (.inr hnot) ?_ (h.nodT t) (h.frames t) (by simp) hf
        · cases hd : (s.node i).deferred with
          | false => rfl
          | true => have := (h.def1 i hd).1; rw [hk] at this; cases this
        · intro x
          rw [h.locT]
          constructor
          · intro hx; exact ⟨hx, fun he => by rw [he, hnot] at hx; cases hx⟩
          · exact fun hx => hx.1
    · cases hs
  | get i =>
    simp only [stepOp] at hs
    split at hs
    · rename_i hh
      have hlt := h.heldlt i hh
      have hh' : ∀ j, upd s.held i false j = true → j < s.n := fun j hj => by
        simp only [upd_apply] at hj
        split at hj
        · cases hj
        · exact h.heldlt j hj
      split at hs
      · rename_i hd
        simp only [Option.some.injEq, Prod.mk.injEq] at hs
        obtain ⟨rfl, rfl⟩ := hs
        exact ⟨_, (((h.hold hh').defer (t := t) (i := i) hd).silent (by simp [Event.silent]))⟩
      · simp only [Option.some.injEq, Prod.mk.injEq] at hs
        obtain ⟨rfl, rfl⟩ := hs
        refine ⟨loc, ((h.hold hh').stack (t := t) (l := .wait i :: s.stk t) (by simp [Frame.items]) ?_).silent (by simp [Event.silent])⟩
        intro f hf
        rcases List.mem_cons.1 hf with rfl | hf
        · exact hlt
        · exact (h.hold hh').frames t f hf
    · cases hs
  | poll i =>
    simp only [stepOp] at hs
    split at hs
    · simp only [Option.some.injEq, Prod.mk.injEq] at hs
      obtain ⟨rfl, rfl⟩ := hs
      exact ⟨loc, h.silent (by simp [Event.silent])⟩
    · cases hs

theorem Inv.launch {s es loc} (h : Inv s es loc) {t c : Nat} {l : List Nat} {w : Why} {rest : List Frame} (hst : s.stk t = .launch (c :: l) w :: rest) {s' : State}
    (hs : stepLaunch s t c (.launch l w :: rest) = some s') : ∃ loc', Inv s' es loc' := by
  have htop := h.top (t := t) (c := c) (rest := .launch l w :: rest) (by simp [hst, Frame.items])
  have hact := (h.active htop.1).lt h
  have hfr0 := h.frames t (.launch (c :: l) w) (by simp [hst])
  have hfr : ∀ f ∈ Frame.launch l w :: rest, FrameOk s f := by
    intro f hf
    rcases List.mem_cons.1 hf with rfl | hf
    · exact ⟨fun x hx => hfr0.1 x (by simp [hx]), hfr0.2⟩
    · exact h.frames t f (by simp [hst, hf])
  have hfin : ∀ o, Typed s c o → Resolves es c o → (∃ w, (s.node c).kind = .unwrap w) → ∃ loc', Inv (s.finish t c o .other (.launch l w :: rest)) es loc' := by
    intro o ht hr ⟨w', hw'⟩
    have := h.finish (t := t) (c := c) (o := o) (w := .other) (rest := .launch l w :: rest) (e := []) hact.1 hact.2.1 hact.2.2 (.inl htop.1) htop.2.1 htop.2.2 hfr ht (by simp)
      (by simp) (by simp [hw']) (by simpa using hr)
    simpa using this
  simp only [stepLaunch] at hs
  split at hs
  · rename_i wr hk
    have hun : Unwraps es c wr := (h.unw c wr).2 hk
    split at hs
    · rename_i hin
      split at hs <;> try (cases hs; done)
      · rename_i e ho
        cases hs
        exact hfin _ trivial (.failed hun (h.sound _ _ ho) rfl) ⟨_, hk⟩
      · rename_i ho
        cases hs
        exact hfin _ trivial (.failed hun (h.sound _ _ ho) rfl) ⟨_, hk⟩
      · rename_i ho
        cases hs
        exact hfin _ trivial (.invalid hun (h.sound _ _ ho)) ⟨_, hk⟩
      · rename_i j ho
        cases hs
        exact ⟨loc, h.found hk hin ho htop.1 htop.2.1 htop.2.2 hfr⟩
    · rename_i j hin
      split at hs
      · cases hs
      · rename_i o ho
        cases hs
        obtain ⟨w', h1, h2⟩ := h.inner c j hin
        rw [hk] at h1; cases h1
        refine hfin _ ?_ (.inner hun (h.sound _ _ h2) (h.sound _ _ ho)) ⟨_, hk⟩
        have hd : (s.node c).depth = (s.node j).depth := by
          have h3 := (h.kindU c wr hk).2
          have h4 := (h.typ wr _ h2).2
          omega
        have := h.typ j o ho
        cases o with
        | num v => simpa [Typed, hd] using this
        | fut k => cases k <;> simpa [Typed, hd] using this
        | _ => trivial
  · cases hs

theorem Inv.go {s es loc} (h : Inv s es loc) {t : Nat} {s' : State} {e : List Event} (hs : stepGo s t = some (s', e)) : ∃ loc', Inv s' (es ++ e) loc' := by
  simp only [stepGo] at hs
  split at hs
  · rename_i c l w rest hst
    cases hl : stepLaunch s t c (.launch l w :: rest) with
    | none => rw [hl] at hs; cases hs
    | some s1 =>
      rw [hl] at hs
      simp only [Option.map_some, Option.some.injEq, Prod.mk.injEq] at hs
      obtain ⟨rfl, rfl⟩ := hs
      simpa using h.launch hst hl
  · rename_i w rest hst
    have hfr := h.frames t (.launch [] w) (by simp [hst])
    have hst' : Inv { s with stk := upd s.stk t rest } es loc := h.stack (by simp [hst, Frame.items]) (fun f hf => h.frames t f (by simp [hst, hf]))
    split at hs <;> simp only [Option.some.injEq, Prod.mk.injEq] at hs <;> obtain ⟨rfl, rfl⟩ := hs
    · exact ⟨loc, hst'.silent (by simp [Event.silent])⟩
    · rename_i u
      refine ⟨loc, (hst'.hold (g := upd s.held u true) fun i hi => ?_).silent (by simp [Event.silent])⟩
      simp only [upd_apply] at hi
      split at hi
      · rename_i he; rw [he]; exact hfr.2 u rfl
      · exact h.heldlt i hi
    · exact ⟨loc, hst'.silent (by simp [Event.silent])⟩
  · rename_i c j rest hst
    simp only [Option.some.injEq, Prod.mk.injEq] at hs
    obtain ⟨rfl, rfl⟩ := hs
    have htop := h.top (t := t) (c := c) (rest := rest) (by simp [hst, Frame.items])
    have hin : (s.node c).inner = some j := h.frames t (.hook c j) (by simp [hst])
    obtain ⟨w', h1, h2⟩ := h.inner c j hin
    obtain ⟨loc', h3⟩ := h.attach (t := t) (c := c) (j := j) (w := .other) (rest := rest) (h.typ w' _ h2).1 (by simp) (h.active htop.1).1 htop.1 ⟨w', h1, .inr hin⟩ htop.2.1 htop.2.2
      (fun f hf => h.frames t f (by simp [hst, hf]))
    exact ⟨loc', by simpa using h3⟩
  · rename_i i rest hst
    split at hs
    · cases hs
    · rename_i o ho
      simp only [Option.some.injEq, Prod.mk.injEq] at hs
      obtain ⟨rfl, rfl⟩ := hs
      have hst' : Inv { s with stk := upd s.stk t rest } es loc := h.stack (by simp [hst, Frame.items]) (fun f hf => h.frames t f (by simp [hst, hf]))
      exact ⟨loc, (hst'.hold (take_lt h ho)).silent (by simp [Event.silent])⟩
  · cases hs

/-- Running functions are those of deferred futures. -/
def Fns (s : State) : Prop := ∀ t i, .fn i ∈ s.stk t → (s.node i).kind = .deferred

theorem Fns.of {s s' : State} (h : Fns s) (hk : ∀ i, (s.node i).kind = .deferred → (s'.node i).kind = .deferred)
    (hf : ∀ t i, .fn i ∈ s'.stk t → .fn i ∈ s.stk t ∨ (s.node i).kind = .deferred) : Fns s' :=
  fun t i hm => (hf t i hm).elim (fun hm => hk i (h t i hm)) (hk i)

theorem Fns.step {s es loc} (h : Inv s es loc) (hF : Fns s) {l : Label} {s' : State} {e : List Event} (hs : step s l = some (s', e)) : Fns s' := by
  have hfresh : (s.node s.n).kind ≠ .deferred := by rw [h.fresh _ (Nat.le_refl _)]; simp
  have hfin : ∀ {s1 : State} {t c : Nat} {o : Out} {w : Why} {rest : List Frame}, s1.node = s.node → s1.stk = s.stk → (∀ f ∈ rest, f ∈ s.stk t ∨ ∃ l w, f = .launch l w) →
      Fns (s1.finish t c o w rest) := by
    intro s1 t c o w rest h1 h2 h3
    refine hF.of (fun i hi => ?_) (fun t' i hm => .inl ?_)
    · simp only [State.finish, upd_apply, h1]; split <;> simp_all
    · simp only [State.finish, upd_apply, h2] at hm
      split at hm
      · rename_i he; subst he
        simp only [List.mem_cons, reduceCtorEq, false_or] at hm
        rcases h3 _ hm with h | ⟨l, w, h⟩
        · exact h
        · cases h
      · exact hm
  have hatt : ∀ {s1 : State} {t c j : Nat} {w : Why} {rest : List Frame}, (∀ i, (s.node i).kind = .deferred → (s1.node i).kind = .deferred) → s1.stk = s.stk →
      (∀ f ∈ rest, f ∈ s.stk t) → Fns (s1.attach t c j w rest) := by
    intro s1 t c j w rest h1 h2 h3
    refine hF.of (fun i hi => ?_) (fun t' i hm => .inl ?_)
    · have := h1 i hi
      simp only [State.attach]; split <;> simp only [upd_apply] <;> split <;> simp_all
    · simp only [State.attach] at hm
      split at hm <;> simp only [upd_apply, h2] at hm <;> split at hm
      · rename_i he; subst he
        simp only [List.mem_cons, reduceCtorEq, false_or] at hm
        exact h3 _ hm
      · exact hm
      · rename_i he; subst he
        simp only [List.mem_cons, reduceCtorEq, false_or] at hm
        exact h3 _ hm
      · exact hm
  have hpop : ∀ {t : Nat} {f : Frame} {rest : List Frame} {g : Nat → Bool}, s.stk t = f :: rest → Fns { s with stk := upd s.stk t rest, held := g } := by
    intro t f rest g hst
    refine hF.of (fun i hi => hi) (fun t' i hm => .inl ?_)
    simp only [upd_apply] at hm
    split at hm
    · rename_i he; subst he; rw [hst]; simp [hm]
    · exact hm
  cases l with
  | op t o =>
    simp only [Unwrap.step] at hs
    split at hs
    · cases o with
      | promise d =>
        simp only [stepOp, Option.some.injEq, Prod.mk.injEq] at hs
        obtain ⟨rfl, rfl⟩ := hs
        exact hF.of (fun i hi => by simp only [upd_apply]; split <;> simp_all) (fun t' i hm => .inl hm)
      | defer d =>
        simp only [stepOp, Option.some.injEq, Prod.mk.injEq] at hs
        obtain ⟨rfl, rfl⟩ := hs
        exact hF.of (fun i hi => by simp only [upd_apply]; split <;> simp_all) (fun t' i hm => .inl hm)
      | unwrap w =>
        simp only [stepOp] at hs
        split at hs
        · simp only [Option.some.injEq, Prod.mk.injEq] at hs
          obtain ⟨rfl, rfl⟩ := hs
          exact hatt (fun i hi => by simp only [upd_apply]; split <;> simp_all) rfl (fun f hf => hf)
        · cases hs
      | set i o =>
        simp only [stepOp] at hs
        split at hs
        · split at hs <;> simp only [Option.some.injEq, Prod.mk.injEq] at hs <;> obtain ⟨rfl, rfl⟩ := hs
          · exact hF
          · exact hfin rfl rfl (fun f hf => .inl hf)
        · cases hs
      | get i =>
        simp only [stepOp] at hs
        split at hs
        · split at hs <;> simp only [Option.some.injEq, Prod.mk.injEq] at hs <;> obtain ⟨rfl, rfl⟩ := hs
          · rename_i hd
            refine hF.of (fun i hi => by simp only [upd_apply]; split <;> simp_all) (fun t' i' hm => ?_)
            simp only [upd_apply] at hm
            split at hm
            · rename_i he; subst he
              simp only [List.mem_cons, Frame.fn.injEq, reduceCtorEq, false_or] at hm
              rcases hm with rfl | hm
              · exact .inr (h.def1 _ hd).1
              · exact .inl hm
            · exact .inl hm
          · refine hF.of (fun i hi => hi) (fun t' i' hm => .inl ?_)
            simp only [upd_apply] at hm
            split at hm
            · rename_i he; subst he
              simp only [List.mem_cons, reduceCtorEq, false_or] at hm
              exact hm
            · exact hm
        · cases hs
      | poll i =>
        simp only [stepOp] at hs
        split at hs
        · simp only [Option.some.injEq, Prod.mk.injEq] at hs
          obtain ⟨rfl, rfl⟩ := hs
          exact hF
        · cases hs
    · cases hs
  | finish t o =>
    simp only [Unwrap.step] at hs
    split at hs
    · rename_i i rest hst
      split at hs
      · simp only [Option.some.injEq, Prod.mk.injEq] at hs
        obtain ⟨rfl, rfl⟩ := hs
        exact hfin rfl rfl (fun f hf => .inl (by simp [hst, hf]))
      · cases hs
    · cases hs
  | go t =>
    simp only [Unwrap.step, stepGo] at hs
    split at hs
    · rename_i c l w rest hst
      have hr : ∀ f ∈ Frame.launch l w :: rest, f ∈ s.stk t ∨ ∃ l w, f = Frame.launch l w := by
        intro f hf
        rcases List.mem_cons.1 hf with rfl | hf
        · exact .inr ⟨_, _, rfl⟩
        · exact .inl (by simp [hst, hf])
      cases hl : stepLaunch s t c (.launch l w :: rest) with
      | none => rw [hl] at hs; cases hs
      | some s1 =>
        rw [hl] at hs
        simp only [Option.map_some, Option.some.injEq, Prod.mk.injEq] at hs
        obtain ⟨rfl, rfl⟩ := hs
        simp only [stepLaunch] at hl
        split at hl
        · split at hl
          · split at hl <;> try (cases hl; done)
            · cases hl; exact hfin rfl rfl hr
            · cases hl; exact hfin rfl rfl hr
            · cases hl; exact hfin rfl rfl hr
            · cases hl
              refine hF.of (fun i hi => by simp only [upd_apply]; split <;> simp_all) (fun t' i' hm => .inl ?_)
              simp only [upd_apply] at hm
              split at hm
              · rename_i he; subst he
                simp only [List.mem_cons, reduceCtorEq, false_or] at hm
                simp [hst, hm]
              · exact hm
          · split at hl
            · cases hl
            · cases hl; exact hfin rfl rfl hr
        · cases hl
    · rename_i w rest hst
      split at hs <;> simp only [Option.some.injEq, Prod.mk.injEq] at hs <;> obtain ⟨rfl, rfl⟩ := hs <;> exact hpop hst
    · rename_i c j rest hst
      simp only [Option.some.injEq, Prod.mk.injEq] at hs
      obtain ⟨rfl, rfl⟩ := hs
      exact hatt (fun i hi => hi) rfl (fun f hf => by simp [hst, hf])
    · rename_i i rest hst
      split at hs
      · cases hs
      · simp only [Option.some.injEq, Prod.mk.injEq] at hs
        obtain ⟨rfl, rfl⟩ := hs
        exact hpop hst
    · cases hs

theorem Inv.step {s es loc} (h : Inv s es loc) (hF : Fns s) {l : Label} {s' : State} {e : List Event} (hs : step s l = some (s', e)) :
    ∃ loc', Inv s' (es ++ e) loc' := by
  cases l with
  | op t o =>
    simp only [Unwrap.step] at hs
    split at hs
    · exact h.op hs
    · cases hs
  | go t => exact h.go hs
  | finish t o =>
    simp only [Unwrap.step] at hs
    split at hs
    · rename_i i rest hst
      split at hs
      · rename_i hf
        simp only [Option.some.injEq, Prod.mk.injEq] at hs
        obtain ⟨rfl, rfl⟩ := hs
        have htop := h.top (t := t) (c := i) (rest := rest) (by simp [hst, Frame.items])
        have hact := (h.active htop.1).lt h
        refine h.deliver (.inr rfl) hact.1 hact.2.1 hact.2.2 (by simp [hF t i (by simp [hst])]) (.inl htop.1) htop.2.1 htop.2.2
          (fun f hf => h.frames t f (by simp [hst, hf])) (by simp) hf
      · cases hs
    · cases hs

/-- What holds of every reachable state and its history. -/
def Good (s : State) (es : List Event) : Prop := (∃ loc, Inv s es loc) ∧ Fns s

theorem Good.init : Good init [] := ⟨⟨_, Inv.init⟩, by intro t i h; simp [Unwrap.init] at h⟩

theorem Good.run {s : State} {es : List Event} (h : Good s es) : ∀ {ls : List Label} {s' : State} {es' : List Event}, run step s ls = some (s', es') → Good s' (es ++ es') := by
  intro ls
  induction ls generalizing s es with
  | nil => intro s' es' hr; rw [run_nil] at hr; cases hr; simpa using h
  | cons l ls ih =>
    intro s' es' hr
    obtain ⟨m, e1, e2, h1, h2, rfl⟩ := run_cons hr
    obtain ⟨⟨loc, hI⟩, hF⟩ := h
    have := ih ⟨hI.step hF h1, hF.step hI h1⟩ h2
    rwa [List.append_assoc] at this

end Verif.Unwrap
