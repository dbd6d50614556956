import Verif.WhenAll.Spec
/-! # The model of when_all and when_any follows its specification -/

set_option linter.unusedSimpArgs false

namespace Verif.WhenAll

/-- The inputs are ready. -/
def AllDone (done : Nat → Bool) (fs : List (Option Nat)) : Prop := ∀ x ∈ fs, ∃ i, x = some i ∧ done i = true

structure Ok (done : Nat → Bool) (w : Which) (fs : List (Option Nat)) (call : Option (Which × List (Option Nat))) (ready over : Bool) (p : PC) : Prop where
  fresh : p = .none → call = Option.none ∧ ready = false ∧ over = false
  called : p ≠ .none → call.isSome
  active : p ≠ .none → p ≠ .finished → p ≠ .crashed → call = Option.some (w, fs)
  notReady : p ≠ .returning → p ≠ .finished → p ≠ .crashed → ready = false
  notOver : (∀ todo inl, p = .wait todo inl → inl = true) → (∀ i todo inl, p = .exec i todo inl → inl = true) → p ≠ .finished → p ≠ .crashed → over = false
  defer : ∀ todo res, p = .defer todo res → ∀ x ∈ todo, x ∈ fs
  running : ∀ i todo res, p = .running i todo res → Option.some i ∈ fs ∧ ∀ x ∈ todo, x ∈ fs
  wait : ∀ todo inl, p = .wait todo inl → ∃ pre, fs = pre ++ todo ∧ (w.all = true → AllDone done pre)
  exec : ∀ i todo inl, p = .exec i todo inl → ∃ pre, fs = pre ++ Option.some i :: todo ∧ (w.all = true → AllDone done pre)

structure Rel (s : State) (σ : Spec) : Prop where
  done : σ.done = s.done
  taken : ∀ i, σ.taken i = true → s.deferred i = false
  doneDef : ∀ i, s.done i = true → s.deferred i = false
  pcs : ∀ c, Ok s.done (s.which c) (s.arg c) (σ.call c) (σ.ready c) (σ.over c) (s.pc c)

theorem rel_init (d : Nat → Bool) : Rel (init d) Spec.init := by
  constructor
  · rfl
  · simp [Spec.init]
  · simp [init]
  · intro c
    constructor <;> simp [init, Spec.init]

theorem AllDone.mono {done done' : Nat → Bool} (hd : ∀ i, done i = true → done' i = true) {fs : List (Option Nat)} (h : AllDone done fs) : AllDone done' fs := by
  intro x hx
  obtain ⟨i, h1, h2⟩ := h x hx
  exact ⟨i, h1, hd i h2⟩

theorem Ok.mono {done done' : Nat → Bool} (hd : ∀ i, done i = true → done' i = true) {w : Which} {fs : List (Option Nat)} {call : Option (Which × List (Option Nat))} {ready over : Bool} {p : PC}
    (h : Ok done w fs call ready over p) : Ok done' w fs call ready over p := by
  refine { h with wait := ?_, exec := ?_ }
  · intro todo inl e
    obtain ⟨pre, h1, h2⟩ := h.wait todo inl e
    exact ⟨pre, h1, fun hw => (h2 hw).mono hd⟩
  · intro i todo inl e
    obtain ⟨pre, h1, h2⟩ := h.exec i todo inl e
    exact ⟨pre, h1, fun hw => (h2 hw).mono hd⟩

/-- A step of call `c`. -/
theorem Rel.move {s : State} {σ : Spec} (h : Rel s σ) (c : Nat) (p : PC) (df : Nat → Bool) (tk : Nat → Bool) (rd ov : Nat → Bool) (hdf : ∀ i, s.deferred i = false → df i = false)
    (htk : ∀ i, tk i = true → df i = false) (hrd : ∀ d, d ≠ c → rd d = σ.ready d) (hov : ∀ d, d ≠ c → ov d = σ.over d)
    (hok : Ok s.done (s.which c) (s.arg c) (σ.call c) (rd c) (ov c) p) :
    Rel { s with deferred := df, pc := upd s.pc c p } { σ with taken := tk, ready := rd, over := ov } := by
  refine { done := h.done, taken := htk, doneDef := fun i hi => hdf i (h.doneDef i hi), pcs := ?_ }
  intro d
  simp only [upd_apply]
  by_cases hd : d = c
  · subst hd; simpa using hok
  · simpa [hd, hrd d hd, hov d hd] using h.pcs d

theorem follows_nil {P : Spec → Prop} {σ : Spec} (h : P σ) : Follows next P σ [] := by
  simpa [Follows] using h

theorem Rel.move' {s : State} {σ : Spec} (h : Rel s σ) (c : Nat) (p : PC) (hok : Ok s.done (s.which c) (s.arg c) (σ.call c) (σ.ready c) (σ.over c) p) :
    Rel { s with pc := upd s.pc c p } σ :=
  h.move c p s.deferred σ.taken σ.ready σ.over (fun _ h => h) h.taken (fun _ _ => rfl) (fun _ _ => rfl) hok

theorem mayBeReady_all {done : Nat → Bool} {w : Which} {fs : List (Option Nat)} (hw : w.all = true) (h : AllDone done fs) : mayBeReady done w fs = true := by
  simp only [mayBeReady, hw, if_true, List.all_eq_true]
  intro x hx
  obtain ⟨i, rfl, h2⟩ := h x hx
  exact h2

theorem mayBeReady_any {done : Nat → Bool} {w : Which} {fs : List (Option Nat)} {i : Nat} (hw : w.all = false) (hi : i ∈ fs.filterMap id) (h : done i = true) : mayBeReady done w fs = true := by
  simp only [mayBeReady, hw, Bool.false_eq_true, if_false, Bool.or_eq_true, List.any_eq_true]
  right
  obtain ⟨x, hx, rfl⟩ := List.mem_filterMap.mp hi
  exact ⟨some i, hx, h⟩

theorem sim_go {s s' : State} {es : List Event} {σ : Spec} {c : Nat} (h : Rel s σ) (hs : go s c (s.pc c) = some (s', es)) : Follows next (Rel s') σ es := by
  have hk := h.pcs c
  -- taking up a deferred input
  have htake : ∀ (i : Nat) (p : PC), s.deferred i = true → σ.call c = some (s.which c, s.arg c) → some i ∈ s.arg c → Ok s.done (s.which c) (s.arg c) (σ.call c) (σ.ready c) (σ.over c) p →
      Follows next (Rel { s with deferred := upd s.deferred i false, pc := upd s.pc c p }) σ [.took c i] := by
    intro i p hd hc hi hok
    have h1 : σ.taken i = false := by
      cases ht : σ.taken i with
      | false => rfl
      | true => rw [h.taken i ht] at hd; cases hd
    have h2 : σ.done i = false := by
      rw [h.done]
      cases ht : s.done i with
      | false => rfl
      | true => rw [h.doneDef i ht] at hd; cases hd
    simp only [Follows, next, hc]
    rw [if_pos ⟨hi, h1, h2⟩]
    refine h.move c p _ _ σ.ready σ.over ?_ ?_ (fun _ _ => rfl) (fun _ _ => rfl) hok
    · intro j hj; simp only [upd_apply]; split <;> simp [hj]
    · intro j hj
      simp only [upd_apply] at hj ⊢
      by_cases hji : j = i
      · simp [hji]
      · simp only [hji, if_false] at hj ⊢; exact h.taken j hj
  cases hp : s.pc c with
  | none => rw [hp] at hs; cases hs
  | finished => rw [hp] at hs; cases hs
  | crashed => rw [hp] at hs; cases hs
  | returning =>
    rw [hp] at hs hk
    simp only [go] at hs; cases hs
    have hc := hk.called (by simp)
    have ho := hk.notOver (by simp) (by simp) (by simp) (by simp)
    simp only [Follows, next]
    rw [if_pos ⟨hc, ho⟩]
    refine h.move c _ s.deferred σ.taken σ.ready _ (fun _ h => h) h.taken (fun _ _ => rfl) (fun d hd => by simp [upd_apply, hd]) ?_
    constructor <;> simp [hc]
  | start inl =>
    rw [hp] at hs hk
    simp only [go] at hs; cases hs
    have hc := hk.active (by simp) (by simp) (by simp)
    have ho := hk.notOver (by simp) (by simp) (by simp) (by simp)
    have hr := hk.notReady (by simp) (by simp) (by simp)
    cases inl with
    | true =>
      apply follows_nil
      refine h.move' c _ ?_
      constructor <;> simp [hc, ho, hr]
      simp [AllDone]
    | false =>
      simp only [Follows, next, Bool.false_eq_true, if_false]
      rw [if_pos ⟨by simp [hc], ho⟩]
      refine h.move c _ s.deferred σ.taken σ.ready _ (fun _ h => h) h.taken (fun _ _ => rfl) (fun d hd => by simp [upd_apply, hd]) ?_
      constructor <;> simp [hc, ho, hr]
      simp [AllDone]
  | defer todo res =>
    rw [hp] at hs hk
    have hc := hk.active (by simp) (by simp) (by simp)
    have ho := hk.notOver (by simp) (by simp) (by simp) (by simp)
    have hr := hk.notReady (by simp) (by simp) (by simp)
    have hd := hk.defer todo res rfl
    rcases todo with _ | ⟨_ | i, todo⟩
    · simp only [go] at hs; cases hs
      apply follows_nil
      refine h.move' c _ ?_
      constructor <;> simp [hc, ho, hr]
    · simp only [go] at hs; cases hs
      simp only [Follows, next, hc]
      rw [if_pos (hd none (by simp))]
      refine h.move' c _ ?_
      constructor <;> simp [hc, ho, hr]
    · have hd' : ∀ x ∈ todo, x ∈ s.arg c := fun x hx => hd x (List.mem_cons_of_mem _ hx)
      simp only [go] at hs
      split at hs
      · rename_i hdef
        cases hs
        refine htake i _ hdef hc (hd _ (by simp)) ?_
        constructor <;> simp_all
      · (repeat' split at hs) <;> cases hs <;> apply follows_nil <;> refine h.move' c _ ?_ <;> constructor <;> simp [hc, ho, hr]
        · exact hd'
        · exact hd'
  | running i todo res =>
    rw [hp] at hs hk
    have hc := hk.active (by simp) (by simp) (by simp)
    have ho := hk.notOver (by simp) (by simp) (by simp) (by simp)
    have hr := hk.notReady (by simp) (by simp) (by simp)
    have hd := (hk.running i todo res rfl).2
    simp only [go] at hs
    split at hs <;> cases hs
    apply follows_nil
    refine h.move' c _ ?_
    split
    · constructor <;> simp [hc, ho, hr]
      exact hd
    · constructor <;> simp [hc, ho, hr]
  | exec i todo inl =>
    rw [hp] at hs hk
    have hc := hk.active (by simp) (by simp) (by simp)
    have hr := hk.notReady (by simp) (by simp) (by simp)
    obtain ⟨pre, h1, h2⟩ := hk.exec i todo inl rfl
    have ho : inl = true → σ.over c = false := fun hi => hk.notOver (by simp) (by rintro j t e ⟨⟩; exact hi) (by simp) (by simp)
    simp only [go] at hs
    split at hs <;> cases hs
    rename_i hdone
    apply follows_nil
    refine h.move' c _ ?_
    constructor <;> simp [hc, hr]
    · exact ho
    · refine ⟨pre ++ [some i], by simp [h1], fun hw => ?_⟩
      intro x hx
      rcases List.mem_append.mp hx with hx | hx
      · exact h2 hw x hx
      · simp only [List.mem_singleton] at hx; exact ⟨i, hx, hdone⟩
  | wait todo inl =>
    rw [hp] at hs hk
    have hc := hk.active (by simp) (by simp) (by simp)
    have hr := hk.notReady (by simp) (by simp) (by simp)
    have ho : inl = true → σ.over c = false := fun hi => hk.notOver (by rintro t e ⟨⟩; exact hi) (by simp) (by simp) (by simp)
    obtain ⟨pre, h1, h2⟩ := hk.wait todo inl rfl
    -- marking
    have hmark : ∀ r : Res, (next σ (.ready c r) = .ok { σ with ready := upd σ.ready c true }) → Follows next (Rel (s.mark c r inl).1) σ (s.mark c r inl).2 := by
      intro r hn
      simp only [State.mark, Follows, hn]
      refine h.move c _ s.deferred σ.taken _ σ.over (fun _ h => h) h.taken (fun d hd => by simp [upd_apply, hd]) (fun _ _ => rfl) ?_
      cases inl with
      | true => constructor <;> simp [hc, ho rfl]
      | false => constructor <;> simp [hc]
    simp only [go] at hs
    by_cases hw : (s.which c).all = true
    · simp only [hw, if_true] at hs
      rcases todo with _ | ⟨_ | i, todo⟩
      · simp only [Option.some.injEq] at hs
        have := hmark (.futures (s.arg c)) (by
          simp only [next, hc]
          rw [if_pos ⟨trivial, by rw [h.done]; exact mayBeReady_all hw (by rw [h1, List.append_nil]; exact h2 hw), hr⟩])
        rw [hs] at this
        exact this
      · simp only [Option.some.injEq] at hs
        have := hmark .exception (by
          simp only [next, hc]
          rw [if_pos ⟨by rw [h1]; simp, hr⟩])
        rw [hs] at this
        exact this
      · simp only at hs
        split at hs
        · rename_i hdef
          cases hs
          refine htake i _ hdef hc (by rw [h1]; simp) ?_
          constructor <;> simp [hc, hr]
          · exact ho
          · exact ⟨pre, h1, h2⟩
        · split at hs <;> cases hs
          rename_i hdone
          apply follows_nil
          refine h.move' c _ ?_
          constructor <;> simp [hc, hr]
          · exact ho
          · refine ⟨pre ++ [some i], by simp [h1], fun hw => ?_⟩
            intro x hx
            rcases List.mem_append.mp hx with hx | hx
            · exact h2 hw x hx
            · simp only [List.mem_singleton] at hx; exact ⟨i, hx, hdone⟩
    · simp only [hw, Bool.false_eq_true, if_false] at hs
      split at hs
      · rename_i he
        obtain ⟨i, hi, hd⟩ := he
        simp only [Option.some.injEq] at hs
        have := hmark (.futures (s.arg c)) (by
          simp only [next, hc]
          rw [if_pos ⟨trivial, by rw [h.done]; exact mayBeReady_any (by simpa using hw) hi hd, hr⟩])
        rw [hs] at this
        exact this
      · cases hs

theorem sim {s s' : State} {l : Label} {es : List Event} {σ : Spec} (h : Rel s σ) (hs : step s l = some (s', es)) : Follows next (Rel s') σ es := by
  cases l with
  | go c => exact sim_go h hs
  | take i =>
    simp only [step] at hs
    split at hs <;> cases hs
    apply follows_nil
    refine { h with taken := ?_, doneDef := ?_ }
    · intro j hj; simp only [upd_apply]; split
      · rfl
      · exact h.taken j hj
    · intro j hj; simp only [upd_apply]; split
      · rfl
      · exact h.doneDef j hj
  | finish i =>
    simp only [step] at hs
    split at hs <;> cases hs
    rename_i hc
    simp only [Follows, next, h.done, hc.2]
    rw [if_neg (by simp)]
    refine { done := rfl, taken := h.taken, doneDef := ?_, pcs := ?_ }
    · intro j hj
      simp only [upd_apply] at hj
      split at hj
      · rename_i e; rw [e]; exact hc.1
      · exact h.doneDef j hj
    · intro c
      refine (h.pcs c).mono ?_
      intro j hj
      simp only [upd_apply]
      split <;> simp [hj]
  | fail c =>
    simp only [step] at hs
    split at hs <;> cases hs
    rename_i hp
    have hk := h.pcs c
    rw [hp] at hk
    have hc := hk.active (by simp) (by simp) (by simp)
    have ho := hk.notOver (by simp) (by simp) (by simp) (by simp)
    have hr := hk.notReady (by simp) (by simp) (by simp)
    simp only [Follows, next]
    rw [if_pos ⟨by simp [hc], ho, hr⟩]
    refine h.move c _ s.deferred σ.taken σ.ready _ (fun _ h => h) h.taken (fun _ _ => rfl) (fun d hd => by simp [upd_apply, hd]) ?_
    constructor <;> simp [hc]
  | call c w fs =>
    simp only [step] at hs
    split at hs
    · rename_i hp
      have hk := h.pcs c
      obtain ⟨h1, h2, h3⟩ := hk.fresh hp
      split at hs
      · rename_i hf
        cases hs
        subst hf
        simp only [Follows, next, h1, if_true, upd_apply, h2, h3]
        have hm : mayBeReady σ.done w [] = true := by cases hw : w.all <;> simp [mayBeReady, hw]
        rw [if_pos ⟨trivial, hm, trivial⟩]
        simp only
        rw [if_pos ⟨by simp [upd_apply], h3⟩]
        refine { done := h.done, taken := h.taken, doneDef := h.doneDef, pcs := ?_ }
        intro d
        simp only [upd_apply]
        by_cases hd : d = c
        · subst hd; constructor <;> simp
        · simpa [hd] using h.pcs d
      · rename_i hf
        cases hs
        simp only [Follows, next, h1, if_true]
        refine { done := h.done, taken := h.taken, doneDef := h.doneDef, pcs := ?_ }
        intro d
        simp only [upd_apply]
        by_cases hd : d = c
        · subst hd
          constructor <;> simp [h2, h3]
          intro x hx
          split at hx <;> simpa using hx
        · simpa [hd] using h.pcs d
    · cases hs

end Verif.WhenAll
