import Verif.WinMutexLife.Lemmas
/-!
# The model follows the specification
-/

set_option linter.unusedSimpArgs false
set_option linter.unusedVariables false

namespace Verif.WinMutexLife

/-- Some thread has created event `h` and not yet offered it. -/
def Made (ts : List PC) (h : Nat) : Prop := ∃ (t : Nat) (p : PC), ts[t]? = some p ∧ p.new = some h

structure Live (s : State) (σ : Spec) : Prop where
  dead : s.dead = false
  hd : Hd s
  own : σ.owner.isSome = s.word.locked
  opn : ∀ h, σ.isOpen h = true ↔ s.event = some h ∨ Made s.ts h

structure Gone (s : State) (σ : Spec) : Prop where
  dead : s.dead = true
  idle : ∀ (t : Nat) p, s.ts[t]? = some p → p = .idle
  opn : ∀ h, σ.isOpen h = false

structure R (s : State) (σ : Spec) : Prop where
  num : σ.n = s.ts.length
  gone : σ.dead = s.dead
  ph : ∀ (t : Nat) p, s.ts[t]? = some p → σ.ph t = p.phase
  st : Live s σ ∨ Gone s σ

theorem R.init (n : Nat) : R (init n) (start n) := by
  have key : ∀ (t : Nat) p, (WinMutexLife.init n).ts[t]? = some p → p = .idle := by
    intro t p h
    simp only [WinMutexLife.init, List.getElem?_replicate] at h
    split at h <;> cases h
    rfl
  refine ⟨by simp [start, WinMutexLife.init], rfl, fun t p h => by rw [key t p h]; rfl, Or.inl ⟨rfl, Hd.init n, rfl, fun h => ?_⟩⟩
  simp only [start, WinMutexLife.init, Bool.false_eq_true, false_iff, not_or]
  refine ⟨by simp, ?_⟩
  rintro ⟨t, p, ht, hp⟩
  rw [key t p ht] at hp; cases hp

theorem made_set {ts : List PC} {t : Nat} {p p' : PC} {h : Nat} (ht : ts[t]? = some p) (hp : p.new = none) : Made (ts.set t p') h ↔ p'.new = some h ∨ Made ts h := by
  have hlt := (List.getElem?_eq_some_iff.mp ht).1
  constructor
  · rintro ⟨u, q, hu, hq⟩
    rcases get_set hu with ⟨-, rfl⟩ | ⟨-, hu⟩
    · exact Or.inl hq
    · exact Or.inr ⟨u, q, hu, hq⟩
  · rintro (hn | ⟨u, q, hu, hq⟩)
    · exact ⟨t, p', by simp [hlt], hn⟩
    · have : t ≠ u := fun e => by subst e; rw [ht] at hu; cases hu; rw [hp] at hq; cases hq
      exact ⟨u, q, by rw [List.getElem?_set_ne this]; exact hu, hq⟩

/-- A thread that had created `x` goes on without it. -/
theorem made_drop {s : State} {t x : Nat} {p p' : PC} {h : Nat} (hd : Hd s) (ht : s.ts[t]? = some p) (hp : p.new = some x) (hp' : p'.new = none) :
    Made (s.ts.set t p') h ↔ h ≠ x ∧ Made s.ts h := by
  constructor
  · rintro ⟨u, q, hu, hq⟩
    rcases get_set hu with ⟨-, rfl⟩ | ⟨hne, hu⟩
    · rw [hp'] at hq; cases hq
    · exact ⟨fun e => by subst e; exact hne (hd.uniq u t q p h hu ht hq hp), u, q, hu, hq⟩
  · rintro ⟨hne, u, q, hu, hq⟩
    have : t ≠ u := fun e => by subst e; rw [ht] at hu; cases hu; rw [hp] at hq; cases hq; exact hne rfl
    exact ⟨u, q, by rw [List.getElem?_set_ne this]; exact hu, hq⟩

theorem ph_set {s : State} {σ : Spec} {t : Nat} {p' : PC} {f : Nat → Phase} (h : ∀ (t : Nat) p, s.ts[t]? = some p → σ.ph t = p.phase) (hf : f t = p'.phase) (hu : ∀ u, u ≠ t → f u = σ.ph u) :
    ∀ (u : Nat) q, (s.ts.set t p')[u]? = some q → f u = q.phase := by
  intro u q hq
  rcases get_set hq with ⟨rfl, rfl⟩ | ⟨hne, hq⟩
  · exact hf
  · rw [hu u hne]; exact h u q hq

section
variable {strict : Bool} {s s' : State} {σ : Spec} {t : Nat} {p p' : PC} {es : List Event} {Q : Spec → Prop}

theorem R.quiet (h : R s σ) (hl : Live s σ) (ht : s.ts[t]? = some p) (hts : s'.ts = s.ts.set t p') (hph : p'.phase = p.phase) (hd : s'.dead = false) (hh : Hd s')
    (hw : s'.word.locked = s.word.locked) (ho : ∀ x, (s'.event = some x ∨ Made s'.ts x) ↔ (s.event = some x ∨ Made s.ts x)) : R s' σ := by
  refine ⟨by rw [h.num, hts]; simp, by rw [h.gone, hl.dead, hd], ?_, Or.inl ⟨hd, hh, by rw [hl.own, hw], fun x => by rw [hl.opn, ho]⟩⟩
  rw [hts]
  exact ph_set (σ := σ) h.ph (by rw [h.ph t p ht, hph]) (fun u _ => rfl)

theorem made_same (ht : s.ts[t]? = some p) (hp : p.new = none) (hp' : p'.new = none) (e : Option Nat) (x : Nat) : (e = some x ∨ Made (s.ts.set t p') x) ↔ (e = some x ∨ Made s.ts x) := by
  rw [made_set ht hp, hp']; simp

theorem R.owned (h : R s σ) (hl : Live s σ) (ht : s.ts[t]? = some p) (hp : p.phase = .locking) (hn : p.new = none) (hts : s'.ts = s.ts.set t .idle) (hd : s'.dead = false) (hh : Hd s')
    (hw : s.word.locked = false) (hw' : s'.word.locked = true) (he : s'.event = s.event) : Follows (next strict) (R s') σ [.owned t true] := by
  have ho : σ.owner = none := by
    have := hl.own; rw [hw] at this; simpa using this
  simp only [Follows, next, h.ph t p ht, hp, if_true, ho]
  refine ⟨by rw [hts]; simpa using h.num, by show σ.dead = _; rw [h.gone, hl.dead, hd], ?_, Or.inl ⟨hd, hh, by rw [hw']; rfl, fun x => ?_⟩⟩
  · rw [hts]; exact ph_set (σ := σ) h.ph (by simp [upd, PC.phase]) (fun u hu => by simp [upd, hu])
  · rw [he, hts, made_same ht hn rfl]; exact hl.opn x

theorem R.refused (h : R s σ) (hl : Live s σ) (ht : s.ts[t]? = some p) (hp : p.phase = .locking) (hn : p.new = none) (hts : s'.ts = s.ts.set t .idle) (hd : s'.dead = false) (hh : Hd s')
    (hw : s'.word.locked = s.word.locked) (he : s'.event = s.event) : Follows (next strict) (R s') σ [.owned t false] := by
  simp only [Follows, next, h.ph t p ht, hp, if_true, Bool.false_eq_true, if_false]
  refine ⟨by rw [hts]; simpa using h.num, by show σ.dead = _; rw [h.gone, hl.dead, hd], ?_, Or.inl ⟨hd, hh, by rw [hw]; exact hl.own, fun x => ?_⟩⟩
  · rw [hts]; exact ph_set (σ := σ) h.ph (by simp [upd, PC.phase]) (fun u hu => by simp [upd, hu])
  · rw [he, hts, made_same ht hn rfl]; exact hl.opn x

theorem R.done (h : R s σ) (hl : Live s σ) (ht : s.ts[t]? = some p) (hp : p.phase = .leaving) (hn : p.new = none) (hts : s'.ts = s.ts.set t .idle) (hd : s'.dead = false) (hh : Hd s')
    (hw : s'.word.locked = s.word.locked) (he : s'.event = s.event) : Follows (next strict) (R s') σ [.done t] := by
  simp only [Follows, next, h.ph t p ht, hp, if_true]
  refine ⟨by rw [hts]; simpa using h.num, by show σ.dead = _; rw [h.gone, hl.dead, hd], ?_, Or.inl ⟨hd, hh, by rw [hw]; exact hl.own, fun x => ?_⟩⟩
  · rw [hts]; exact ph_set (σ := σ) h.ph (by simp [upd, PC.phase]) (fun u hu => by simp [upd, hu])
  · rw [he, hts, made_same ht hn rfl]; exact hl.opn x

theorem used {x : Nat} (hl : Live s σ) (hx : s.event = some x) (k : Follows (next strict) Q σ es) : Follows (next strict) Q σ (.used x :: es) := by
  have : σ.isOpen x = true := (hl.opn x).mpr (Or.inl hx)
  simp only [Follows, next, this, if_true]
  exact k

theorem getEvent_sim {k c : Nat → PC} (h : R s σ) (hl : Live s σ) (ht : s.ts[t]? = some p) (hn : p.new = none) (hk : ∀ x, (k x).new = none ∧ (k x).phase = p.phase)
    (hc : ∀ x, (c x).new = some x ∧ (c x).phase = p.phase) (hh : Hd (getEvent s t k c).1) : Follows (next strict) (R (getEvent s t k c).1) σ (getEvent s t k c).2 := by
  unfold WinMutexLife.getEvent at hh ⊢
  split at hh
  · rename_i x hx
    exact h.quiet (p' := k x) hl ht rfl (hk x).2 hl.dead hh rfl (fun y => made_same ht hn (hk x).1 _ y)
  · rename_i hx
    have hno : σ.isOpen s.made = false := by
      cases e : σ.isOpen s.made with
      | false => rfl
      | true =>
        rcases (hl.opn _).mp e with e | ⟨u, q, hu, hq⟩
        · rw [hx] at e; cases e
        · exact absurd (hl.hd.new u q _ hu hq).1 (Nat.lt_irrefl _)
    simp only [Follows, next, hno, Bool.false_eq_true, if_false]
    refine ⟨by simpa [State.pc] using h.num, h.gone, ?_, Or.inl ⟨hl.dead, hh, hl.own, fun y => ?_⟩⟩
    · exact ph_set (σ := σ) h.ph (by rw [h.ph t p ht, (hc _).2]) (fun u _ => rfl)
    · show upd σ.isOpen s.made true y = true ↔ s.event = some y ∨ Made (s.ts.set t (c s.made)) y
      rw [made_set ht hn, (hc _).1]
      by_cases e : y = s.made
      · subst e; simp [upd]
      · have e' : s.made ≠ y := fun g => e g.symm
        simp only [upd, if_neg e, Option.some.injEq, e', false_or]
        exact hl.opn y

theorem offerEvent_sim {k : Nat → PC} {x : Nat} (h : R s σ) (hl : Live s σ) (ht : s.ts[t]? = some p) (hn : p.new = some x) (hk : ∀ x, (k x).new = none ∧ (k x).phase = p.phase)
    (hh : Hd (offerEvent s t x k).1) : Follows (next strict) (R (offerEvent s t x k).1) σ (offerEvent s t x k).2 := by
  unfold WinMutexLife.offerEvent at hh ⊢
  have hxo : σ.isOpen x = true := (hl.opn x).mpr (Or.inr ⟨t, p, ht, hn⟩)
  split at hh
  · rename_i y hy
    simp only [Follows, next, hxo, if_true]
    refine ⟨by simpa [State.pc] using h.num, h.gone, ?_, Or.inl ⟨hl.dead, hh, hl.own, fun z => ?_⟩⟩
    · exact ph_set (σ := σ) h.ph (by rw [h.ph t p ht, (hk _).2]) (fun u _ => rfl)
    · show upd σ.isOpen x false z = true ↔ s.event = some z ∨ Made (s.ts.set t (k y)) z
      rw [made_drop hl.hd ht hn (hk y).1]
      have hne := (hl.hd.new t p x ht hn).2.1
      by_cases e : z = x
      · subst e; simp [upd, hne]
      · simp only [upd, if_neg e, ne_eq, e, not_false_eq_true, true_and]
        exact hl.opn z
  · rename_i hx
    refine h.quiet (p' := k x) hl ht rfl (hk x).2 hl.dead hh rfl (fun z => ?_)
    show (some x = some z ∨ Made (s.ts.set t (k x)) z) ↔ _
    rw [made_drop hl.hd ht hn (hk x).1, hx]
    by_cases e : z = x
    · subst e
      simp only [true_or, true_iff]
      exact Or.inr ⟨t, p, ht, hn⟩
    · have e' : x ≠ z := fun g => e g.symm
      simp [e, e']

theorem go_sim (h : R s σ) (hl : Live s σ) (ht : s.ts[t]? = some p) (hs : go s t p = some (s', es)) : Follows (next strict) (R s') σ es := by
  have hh := hl.hd.go ht hs
  cases p with
  | idle => cases hs
  | reading tm =>
    cases hs
    exact h.quiet hl ht rfl rfl hl.dead hh rfl (fun x => made_same ht rfl rfl _ x)
  | marking tm old =>
    simp only [go] at hs
    split at hs
    · rename_i e
      split at hs <;> cases hs
      · rename_i hk
        refine h.quiet (p' := .getW tm old.mark) hl ht rfl rfl hl.dead hh ?_ (fun x => made_same ht rfl rfl _ x)
        simp [WinMutex.Word.mark, hk, e]
      · rename_i hk
        exact h.owned hl ht rfl rfl rfl hl.dead hh (by rw [e]; simpa using hk) (by simp [WinMutex.Word.mark, hk]) rfl
    · cases hs
      exact h.quiet hl ht rfl rfl hl.dead hh rfl (fun x => made_same ht rfl rfl _ x)
  | getW tm old =>
    simp only [go, Option.some.injEq] at hs
    have := getEvent_sim (strict := strict) (k := .waiting tm old) (c := .madeW tm old) h hl ht rfl (fun x => ⟨rfl, rfl⟩) (fun x => ⟨rfl, rfl⟩) (by rw [hs]; exact hh)
    rw [hs] at this; exact this
  | madeW tm old x =>
    simp only [go, Option.some.injEq] at hs
    have := offerEvent_sim (strict := strict) (k := .waiting tm old) (x := x) h hl ht rfl (fun x => ⟨rfl, rfl⟩) (by rw [hs]; exact hh)
    rw [hs] at this; exact this
  | waiting tm old x =>
    have hx := hl.hd.has t _ x ht rfl
    simp only [go] at hs
    split at hs <;> cases hs
    exact used hl hx (h.quiet (p' := .clearing tm old.clearGuess x) hl ht rfl rfl hl.dead hh rfl (fun x => made_same ht rfl rfl _ x))
  | clearing tm old x =>
    simp only [go] at hs
    split at hs
    · rename_i e
      split at hs <;> cases hs
      · rename_i hk
        refine h.quiet (p' := .waiting tm old x) hl ht rfl rfl hl.dead hh ?_ (fun x => made_same ht rfl rfl _ x)
        simp [WinMutex.Word.clear, hk, e]
      · rename_i hk
        exact h.owned hl ht rfl rfl rfl hl.dead hh (by rw [e]; simpa using hk) (by simp [WinMutex.Word.clear, hk]) rfl
    · cases hs
      exact h.quiet (p' := .clearing tm s.word x) hl ht rfl rfl hl.dead hh rfl (fun x => made_same ht rfl rfl _ x)
  | unlocking =>
    simp only [go] at hs
    split at hs <;> cases hs
    · exact h.done hl ht rfl rfl rfl hl.dead hh rfl rfl
    · exact h.quiet (p' := .getS) hl ht rfl rfl hl.dead hh rfl (fun x => made_same ht rfl rfl _ x)
  | getS =>
    simp only [go, Option.some.injEq] at hs
    have := getEvent_sim (strict := strict) (k := .setting) (c := .madeS) h hl ht rfl (fun x => ⟨rfl, rfl⟩) (fun x => ⟨rfl, rfl⟩) (by rw [hs]; exact hh)
    rw [hs] at this; exact this
  | madeS x =>
    simp only [go, Option.some.injEq] at hs
    have := offerEvent_sim (strict := strict) (k := .setting) (x := x) h hl ht rfl (fun x => ⟨rfl, rfl⟩) (by rw [hs]; exact hh)
    rw [hs] at this; exact this
  | setting x =>
    have hx := hl.hd.has t _ x ht rfl
    cases hs
    exact used hl hx (h.done hl ht rfl rfl rfl hl.dead hh rfl rfl)

/-- The call is made. -/
theorem R.call (h : R s σ) (ht : s.ts[t]? = some .idle) (k : R { s with ts := s.ts.set t (.reading false) } { σ with ph := upd σ.ph t .locking } → s.dead = false → Follows (next strict) Q { σ with ph := upd σ.ph t .locking } es) :
    Follows (next strict) Q σ (.call t :: es) := by
  simp only [Follows, next]
  by_cases hd : σ.dead = true
  · simp [hd]
  · have hd' : s.dead = false := by rw [← h.gone]; simpa using hd
    simp only [if_neg hd, h.ph t _ ht, PC.phase, if_true]
    have hl : Live s σ := by
      rcases h.st with hl | hg
      · exact hl
      · have := hg.dead; rw [hd'] at this; cases this
    refine k ⟨by simpa using h.num, h.gone, ph_set (σ := σ) h.ph (by simp [upd, PC.phase]) (fun u hu => by simp [upd, hu]), Or.inl ⟨hd', ?_, hl.own, fun x => ?_⟩⟩ hd'
    · exact hl.hd.keep rfl rfl rfl rfl (by simp [PC.has]) rfl
    · show _ ↔ s.event = some x ∨ Made (s.ts.set t (.reading false)) x
      rw [made_same ht rfl rfl]; exact hl.opn x
end

theorem set_set {ts : List PC} {t : Nat} {p : PC} (ht : ts[t]? = some p) (q : PC) : (ts.set t q).set t p = ts := by
  apply List.ext_getElem?
  intro i
  by_cases e : t = i
  · subst e
    have := (List.getElem?_eq_some_iff.mp ht).1
    rw [List.getElem?_set_self (by simpa using this), ht]
  · rw [List.getElem?_set_ne e, List.getElem?_set_ne e]

theorem sim {s s' : State} {σ : Spec} {l : Label} {es : List Event} (h : R s σ) (hs : step s l = some (s', es)) : Follows (next true) (R s') σ es := by
  have hlive : s.dead = false → Live s σ := fun hd => by
    rcases h.st with hl | hg
    · exact hl
    · have := hg.dead; rw [hd] at this; cases this
  have hgone : s.dead = true → Gone s σ := fun hd => by
    rcases h.st with hl | hg
    · have := hl.dead; rw [hd] at this; cases this
    · exact hg
  cases l with
  | next t =>
    simp only [step] at hs
    split at hs
    · rename_i p ht
      cases hd : s.dead with
      | false =>
        simp only [hd, Bool.false_and, Bool.false_eq_true, if_false] at hs
        exact go_sim h (hlive hd) ht hs
      | true =>
        have := (hgone hd).idle t p ht
        subst this
        simp [hd, PC.member, go] at hs
    · cases hs
  | call t tm =>
    simp only [step] at hs
    split at hs
    · rename_i ht
      have hlt := (List.getElem?_eq_some_iff.mp ht).1
      split at hs
      · rename_i hd
        cases hs
        exact h.call ht fun _ hd' => by rw [hd'] at hd; cases hd
      · rename_i hd
        split at hs <;> cases hs
        · refine h.call ht fun h1 hd' => ?_
          have hl1 := h1.st.resolve_right (fun hg => by have := hg.dead; simp only at this; rw [hd'] at this; cases this)
          have ht1 : ({ s with ts := s.ts.set t (.reading false) } : State).ts[t]? = some (.reading false) := by simp [hlt]
          refine h1.quiet (p' := .reading tm) hl1 ht1 (by simp [State.pc]) rfl hd' ?_ rfl (fun x => ?_)
          · exact (hlive hd').hd.keep (p' := .reading tm) rfl rfl rfl rfl (by simp [PC.has]) rfl
          · simp only [State.pc]
            rw [made_same ht rfl rfl, made_same ht rfl rfl]
        · rename_i hw
          refine h.call ht fun h1 hd' => ?_
          have hl1 := h1.st.resolve_right (fun hg => by have := hg.dead; simp only at this; rw [hd'] at this; cases this)
          have ht1 : ({ s with ts := s.ts.set t (.reading false) } : State).ts[t]? = some (.reading false) := by simp [hlt]
          refine h1.owned hl1 ht1 rfl rfl ?_ hd' ?_ (by simpa using hw) rfl rfl
          · exact (set_set ht _).symm
          · exact (hlive hd').hd.same rfl rfl rfl rfl
    · cases hs
  | tryLock t =>
    simp only [step] at hs
    split at hs
    · rename_i ht
      have hlt := (List.getElem?_eq_some_iff.mp ht).1
      split at hs
      · rename_i hd
        cases hs
        exact h.call ht fun _ hd' => by rw [hd'] at hd; cases hd
      · rename_i hd
        split at hs <;> cases hs
        · refine h.call ht fun h1 hd' => ?_
          have hl1 := h1.st.resolve_right (fun hg => by have := hg.dead; simp only at this; rw [hd'] at this; cases this)
          have ht1 : ({ s with ts := s.ts.set t (.reading false) } : State).ts[t]? = some (.reading false) := by simp [hlt]
          refine h1.refused hl1 ht1 rfl rfl ?_ hd' ?_ rfl rfl
          · exact (set_set ht _).symm
          · exact (hlive hd').hd
        · rename_i hw
          refine h.call ht fun h1 hd' => ?_
          have hl1 := h1.st.resolve_right (fun hg => by have := hg.dead; simp only at this; rw [hd'] at this; cases this)
          have ht1 : ({ s with ts := s.ts.set t (.reading false) } : State).ts[t]? = some (.reading false) := by simp [hlt]
          refine h1.owned hl1 ht1 rfl rfl ?_ hd' ?_ (by simpa using hw) rfl rfl
          · exact (set_set ht _).symm
          · exact (hlive hd').hd.same rfl rfl rfl rfl
    · cases hs
  | unlock t =>
    simp only [step] at hs
    split at hs
    · rename_i ht
      have hph := h.ph t _ ht
      have key : ∀ es, (∀ (hl : Live s σ), σ.owner = some t → Follows (next true) (R s') { σ with ph := upd σ.ph t .leaving, owner := none } es) → Follows (next true) (R s') σ (.release t :: es) := by
        intro es k
        simp only [Follows, next, hph, PC.phase, if_true]
        by_cases hd : σ.dead = true
        · simp [hd]
        · simp only [if_neg hd]
          by_cases ho : σ.owner = some t
          · simp only [ho, if_true]
            exact k (hlive (by rw [← h.gone]; simpa using hd)) ho
          · simp [ho]
      split at hs
      · rename_i hd
        cases hs
        exact key _ fun hl _ => by have := hl.dead; rw [this] at hd; cases hd
      · split at hs <;> cases hs
        · refine key _ fun hl ho => ?_
          have hw : s.word.locked = true := by rw [← hl.own, ho]; rfl
          refine ⟨by simpa [State.pc] using h.num, h.gone, ph_set (σ := σ) h.ph (by simp [upd, PC.phase]) (fun u hu => by simp [upd, hu]), Or.inl ⟨hl.dead, ?_, by simp [hw], fun x => ?_⟩⟩
          · exact hl.hd.keep (p' := .unlocking) rfl rfl rfl rfl (by simp [PC.has]) rfl
          · show σ.isOpen x = true ↔ s.event = some x ∨ Made (s.ts.set t .unlocking) x
            rw [made_same ht rfl rfl]; exact hl.opn x
        · refine key _ fun hl ho => ?_
          have hw : s.word.locked = true := by rw [← hl.own, ho]; rfl
          simp only [Follows, next, upd, if_true]
          refine ⟨h.num, h.gone, fun u q hu => ?_, Or.inl ⟨hl.dead, hl.hd.same rfl rfl rfl rfl, by simp [hw], hl.opn⟩⟩
          by_cases e : u = t
          · subst e
            simp only at hu
            rw [ht] at hu; cases hu; simp [PC.phase, upd]
          · simp only [upd, if_neg e]; exact h.ph u q hu
    · cases hs
  | giveUp t =>
    simp only [step] at hs
    split at hs
    · rename_i old x ht
      cases hd : s.dead with
      | true => have := (hgone hd).idle t _ ht; cases this
      | false =>
        simp only [hd, Bool.false_eq_true, if_false] at hs
        cases hs
        exact h.refused (hlive hd) ht rfl rfl rfl hd ((hlive hd).hd.keep (p' := .idle) rfl rfl rfl rfl (by simp [PC.has]) rfl) rfl rfl
    · cases hs
  | destroy =>
    simp only [step] at hs
    cases hs
    simp only [Follows, next]
    split
    · rename_i σ' e
      split at e
      · cases e
      · rename_i hg
        cases e
        simp only [Bool.or_eq_true, List.any_eq_true, List.mem_range, not_or, not_exists, not_and] at hg
        obtain ⟨⟨hg1, hg2⟩, hg3⟩ := hg
        have hd : s.dead = false := by rw [← h.gone]; simpa using hg1
        have hl := hlive hd
        have hidle : ∀ (t : Nat) p, s.ts[t]? = some p → p = .idle := by
          intro t p ht
          have hlt := (List.getElem?_eq_some_iff.mp ht).1
          have := hg3 t (by rw [h.num]; exact hlt)
          rw [h.ph t p ht] at this
          cases p <;> simp [PC.phase, Phase.forbids] at this ⊢
        have hnm : ∀ x, ¬ Made s.ts x := by
          rintro x ⟨t, p, ht, hp⟩
          rw [hidle t p ht] at hp; cases hp
        split
        · rename_i x hx
          have hxo : σ.isOpen x = true := (hl.opn x).mpr (Or.inl hx)
          simp only [Follows, next, hxo, if_true]
          refine ⟨h.num, rfl, h.ph, Or.inr ⟨rfl, hidle, fun y => ?_⟩⟩
          simp only [upd]
          split
          · rfl
          · rename_i e
            cases ho : σ.isOpen y with
            | false => rfl
            | true =>
              rcases (hl.opn y).mp ho with e' | e'
              · rw [hx] at e'; cases e'; exact absurd rfl e
              · exact absurd e' (hnm y)
        · rename_i hx
          refine ⟨h.num, rfl, h.ph, Or.inr ⟨rfl, hidle, fun y => ?_⟩⟩
          cases ho : σ.isOpen y with
          | false => rfl
          | true =>
            rcases (hl.opn y).mp ho with e' | e'
            · rw [hx] at e'; cases e'
            · exact absurd e' (hnm y)
    · trivial
    · rename_i e
      split at e <;> cases e

end Verif.WinMutexLife
