import Verif.Deferred.Model
/-!
# The relation between the model and what the calls mean
-/

namespace Verif.Deferred
set_option linter.unusedSimpArgs false

def Fr.op : Fr → Op
  | .acq op => op
  | .twait => .timed
  | _ => .get

/-- A thread that neither runs the function nor comes from it. -/
def Fr.plain : Fr → Bool
  | .fn => false
  | .relock _ => false
  | _ => true

/-- The calls of a thread that does not run the function. -/
def P1 : List Fr → Prop
  | [] => True
  | [f] => f.plain = true
  | _ => False

/-- The calls of the thread that runs it. -/
def P2 : List Fr → Prop
  | [.fn] => True
  | [f, .fn] => f.plain = true
  | _ => False

/-- What the state looks like in a phase. -/
def Sh (s : S) : Phase → Prop
  | .notRun => s.deferred = true ∧ s.done = none ∧ s.mtx = none ∧ ∀ t, P1 (s.stk t)
  | .running r => s.deferred = false ∧ s.done = none ∧ s.mtx = (if s.ref then some r else none) ∧ P2 (s.stk r) ∧ ∀ t, t ≠ r → P1 (s.stk t)
  | .ended o => s.deferred = false ∧ s.mtx = none ∧
      ((s.done = some o ∧ ∀ t, P1 (s.stk t)) ∨ (s.done = none ∧ ∃ r, s.stk r = [.relock o] ∧ ∀ t, t ≠ r → P1 (s.stk t)))

structure R (s : S) (σ : Spec) : Prop where
  calls : ∀ t, σ.calls t = (s.stk t).map Fr.op
  shown : σ.shown = true → s.done ≠ none
  shape : Sh s σ.phase
  begun : ∀ t, Fr.twait ∈ s.stk t → s.deferred = false

theorem R.init (ref : Bool) : R (init ref) {} :=
  ⟨fun _ => rfl, by simp, by simp [Sh, Deferred.init, P1], by simp [Deferred.init]⟩

theorem P1.tail {f : Fr} {l : List Fr} (h : P1 (f :: l)) : f.plain = true ∧ l = [] := by
  cases l with
  | nil => exact ⟨h, rfl⟩
  | cons a l => exact absurd h (by simp [P1])

theorem P2.cases {l : List Fr} (h : P2 l) : l = [.fn] ∨ ∃ f : Fr, f.plain = true ∧ l = [f, .fn] := by
  unfold P2 at h
  split at h
  · exact .inl rfl
  · exact .inr ⟨_, h, rfl⟩
  · exact h.elim

theorem P2.plain {f : Fr} {l : List Fr} (h : P2 (f :: l)) (hf : f.plain = true) : l = [.fn] := by
  rcases h.cases with h | ⟨g, _, h⟩
  · cases h; cases hf
  · cases h; rfl

theorem P2.mk {f : Fr} (hf : f.plain = true) : P2 [f, .fn] := by
  cases f <;> first | (cases hf; done) | rfl

/-- The shape stays if the call on top of the calls of a thread goes on, or ends. -/
theorem Sh.put {s : S} {p : Phase} {t : Nat} {f : Fr} {l l' : List Fr} (h : Sh s p) (ht : s.stk t = f :: l) (hf : f.plain = true)
    (hl : l' = l ∨ ∃ g : Fr, g.plain = true ∧ l' = g :: l) : Sh (s.put t l') p := by
  have key1 : P1 (s.stk t) → P1 l' := by
    intro h; rw [ht] at h
    obtain ⟨-, rfl⟩ := h.tail
    rcases hl with rfl | ⟨g, hg, rfl⟩
    · trivial
    · exact hg
  have key2 : P2 (s.stk t) → P2 l' := by
    intro h; rw [ht] at h
    have := h.plain hf; subst this
    rcases hl with rfl | ⟨g, hg, rfl⟩
    · trivial
    · exact .mk hg
  cases p with
  | notRun =>
    refine ⟨h.1, h.2.1, h.2.2.1, fun u => ?_⟩
    simp only [S.put]; split
    · exact key1 (h.2.2.2 _)
    · exact h.2.2.2 u
  | running r =>
    refine ⟨h.1, h.2.1, h.2.2.1, ?_, fun u hu => ?_⟩
    · simp only [S.put]; split
      · next e => subst e; exact key2 h.2.2.2.1
      · exact h.2.2.2.1
    · simp only [S.put]; split
      · next e => subst e; exact key1 (h.2.2.2.2 _ hu)
      · exact h.2.2.2.2 u hu
  | ended o =>
    refine ⟨h.1, h.2.1, ?_⟩
    rcases h.2.2 with ⟨hd, hp⟩ | ⟨hd, r, hr, hp⟩
    · refine .inl ⟨hd, fun u => ?_⟩
      simp only [S.put]; split
      · exact key1 (hp _)
      · exact hp u
    · have hrt : r ≠ t := fun e => by subst e; rw [ht] at hr; cases hr; cases hf
      refine .inr ⟨hd, r, ?_, fun u hu => ?_⟩
      · simp only [S.put, if_neg hrt]; exact hr
      · simp only [S.put]; split
        · next e => subst e; exact key1 (hp _ hu)
        · exact hp u hu

theorem Sh.push {s : S} {p : Phase} {t : Nat} {op : Op} (h : Sh s p) (ht : s.stk t = [] ∨ s.stk t = [.fn]) : Sh (s.put t (.acq op :: s.stk t)) p := by
  have key1 : P1 (s.stk t) → P1 (.acq op :: s.stk t) := by
    intro h
    rcases ht with ht | ht
    · rw [ht]; rfl
    · rw [ht] at h; cases h
  have key2 : P2 (s.stk t) → P2 (.acq op :: s.stk t) := by
    intro h
    rcases ht with ht | ht
    · rw [ht] at h; cases h
    · rw [ht]; rfl
  cases p with
  | notRun =>
    refine ⟨h.1, h.2.1, h.2.2.1, fun u => ?_⟩
    simp only [S.put]; split
    · exact key1 (h.2.2.2 _)
    · exact h.2.2.2 u
  | running r =>
    refine ⟨h.1, h.2.1, h.2.2.1, ?_, fun u hu => ?_⟩
    · simp only [S.put]; split
      · next e => subst e; exact key2 h.2.2.2.1
      · exact h.2.2.2.1
    · simp only [S.put]; split
      · next e => subst e; exact key1 (h.2.2.2.2 _ hu)
      · exact h.2.2.2.2 u hu
  | ended o =>
    refine ⟨h.1, h.2.1, ?_⟩
    rcases h.2.2 with ⟨hd, hp⟩ | ⟨hd, r, hr, hp⟩
    · refine .inl ⟨hd, fun u => ?_⟩
      simp only [S.put]; split
      · exact key1 (hp _)
      · exact hp u
    · have hrt : r ≠ t := fun e => by subst e; rw [hr] at ht; rcases ht with h | h <;> cases h
      refine .inr ⟨hd, r, ?_, fun u hu => ?_⟩
      · simp only [S.put, if_neg hrt]; exact hr
      · simp only [S.put]; split
        · next e => subst e; exact key1 (hp _ hu)
        · exact hp u hu

/-- Who runs the function. -/
theorem Sh.fn {s : S} {p : Phase} {t : Nat} {l : List Fr} (h : Sh s p) (ht : s.stk t = .fn :: l) : p = .running t ∧ l = [] := by
  have no1 : ∀ u, s.stk u = .fn :: l → ¬ P1 (s.stk u) := fun u e h => by rw [e] at h; exact absurd h.tail.1 (by simp [Fr.plain])
  cases p with
  | notRun => exact absurd (h.2.2.2 t) (no1 t ht)
  | running r =>
    by_cases e : t = r
    · subst e
      refine ⟨rfl, ?_⟩
      rcases h.2.2.2.1.cases with e | ⟨f, hf, e⟩
      · rw [ht] at e; cases e; rfl
      · rw [ht] at e; cases e; cases hf
    · exact absurd (h.2.2.2.2 t e) (no1 t ht)
  | ended o =>
    rcases h.2.2 with ⟨_, hp⟩ | ⟨_, r, hr, hp⟩
    · exact absurd (hp t) (no1 t ht)
    · by_cases e : t = r
      · subst e; rw [ht] at hr; cases hr
      · exact absurd (hp t e) (no1 t ht)

/-- Who comes from it. -/
theorem Sh.relock {s : S} {p : Phase} {t : Nat} {o : Out} {l : List Fr} (h : Sh s p) (ht : s.stk t = .relock o :: l) :
    p = .ended o ∧ l = [] ∧ s.done = none ∧ ∀ u, u ≠ t → P1 (s.stk u) := by
  have no1 : ∀ u, s.stk u = .relock o :: l → ¬ P1 (s.stk u) := fun u e h => by rw [e] at h; exact absurd h.tail.1 (by simp [Fr.plain])
  cases p with
  | notRun => exact absurd (h.2.2.2 t) (no1 t ht)
  | running r =>
    by_cases e : t = r
    · subst e
      rcases h.2.2.2.1.cases with e | ⟨f, hf, e⟩
      · rw [ht] at e; cases e
      · rw [ht] at e; cases e; cases hf
    · exact absurd (h.2.2.2.2 t e) (no1 t ht)
  | ended o' =>
    rcases h.2.2 with ⟨_, hp⟩ | ⟨hd, r, hr, hp⟩
    · exact absurd (hp t) (no1 t ht)
    · by_cases e : t = r
      · subst e; rw [ht] at hr; cases hr; exact ⟨rfl, rfl, hd, hp⟩
      · exact absurd (hp t e) (no1 t ht)

theorem Sh.done {s : S} {p : Phase} {o : Out} (h : Sh s p) (hd : s.done = some o) : p = .ended o := by
  cases p with
  | notRun => simp [h.2.1] at hd
  | running r => simp [h.2.1] at hd
  | ended o' =>
    rcases h.2.2 with ⟨e, _⟩ | ⟨e, _⟩ <;> rw [e] at hd <;> cases hd
    rfl

theorem Sh.notRun {s : S} {p : Phase} (h : Sh s p) : s.deferred = true ↔ p = .notRun := by
  cases p with
  | notRun => simp [h.1]
  | running r => simp [h.1]
  | ended o' => simp [h.1]

theorem R.put {s : S} {σ : Spec} {t : Nat} {f : Fr} {l : List Fr} (h : R s σ) (ht : s.stk t = f :: l) (hf : f.plain = true) (b : Bool)
    (hb : b = true → s.done ≠ none) : R (s.put t l) { σ.pop t with shown := b } := by
  refine ⟨fun u => ?_, hb, h.shape.put ht hf (.inl rfl), fun u hu => ?_⟩
  simp only [Spec.pop, S.put]
  split
  · next e => subst e; simp [h.calls, ht]
  · exact h.calls u
  simp only [S.put] at hu ⊢
  split at hu
  · exact h.begun t (by rw [ht]; exact .tail _ hu)
  · exact h.begun u hu

theorem R.move {s : S} {σ : Spec} {t : Nat} {f g : Fr} {l : List Fr} (h : R s σ) (ht : s.stk t = f :: l) (hf : f.plain = true) (hg : g.plain = true) (hfg : f.op = g.op)
    (hd : s.deferred = false) : R (s.put t (g :: l)) σ := by
  refine ⟨fun u => ?_, h.shown, h.shape.put ht hf (.inr ⟨g, hg, rfl⟩), fun _ _ => hd⟩
  simp only [S.put]
  split
  · next e => subst e; simp [h.calls, ht, hfg]
  · exact h.calls u

theorem R.head {s : S} {σ : Spec} {t : Nat} {f : Fr} {l : List Fr} (h : R s σ) (ht : s.stk t = f :: l) : (σ.calls t).head? = some f.op := by
  simp [h.calls, ht]

theorem R.unshown {s : S} {σ : Spec} (h : R s σ) (hd : s.done = none) : σ.shown = false := by
  cases e : σ.shown with
  | false => rfl
  | true => exact absurd hd (h.shown e)

theorem go_sim {s s' : S} {σ : Spec} {t : Nat} {es : List E} (h : R s σ) (hs : go s t = some (s', es)) : Follows next (R s') σ es := by
  unfold go at hs
  split at hs
  · cases hs
  next hm =>
  split at hs
  · next rest ht =>
    unfold enterGet at hs
    split at hs
    · next hd =>
      cases hs
      have hp := h.shape.notRun.1 hd
      have hsh := h.shape; rw [hp] at hsh
      have hr : rest = [] := by have := hsh.2.2.2 t; rw [ht] at this; exact this.tail.2
      subst hr
      simp only [Follows, next]
      rw [if_pos ⟨hp, by simp [h.calls, ht, Fr.op]⟩]
      refine ⟨fun u => ?_, fun hx => absurd (h.unshown hsh.2.1) (by simp_all), ⟨rfl, hsh.2.1, rfl, ?_, fun u hu => ?_⟩, fun _ _ => rfl⟩
      · simp only [S.put]; split
        · next e => subst e; simp [h.calls, ht, Fr.op]
        · exact h.calls u
      · simp [S.put, P2]
      · simp only [S.put, if_neg hu]; exact hsh.2.2.2 u
    · next hnd =>
      split at hs <;> cases hs
      · next o hd =>
        simp only [Follows, next]
        rw [if_pos ⟨h.shape.done hd, h.head ht⟩]
        exact h.put ht rfl true (by simp [hd])
      · exact h.move ht rfl rfl rfl (by simpa using hnd)
  · next rest ht =>
    cases hs
    cases hd : s.done with
    | none =>
      simp only [Follows, next, Option.isSome]
      rw [if_pos ⟨h.unshown hd, h.head ht⟩]
      exact h.put ht rfl σ.shown h.shown
    | some o =>
      simp only [Follows, next, Option.isSome]
      rw [if_pos ⟨by simp [h.shape.done hd, Phase.over], h.head ht⟩]
      exact h.put ht rfl true (by simp [hd])
  · next rest ht =>
    unfold enterTimed at hs
    split at hs
    · next hd =>
      cases hs
      simp only [Follows, next]
      rw [if_pos ⟨h.shape.notRun.1 hd, h.head ht⟩]
      exact h.put ht rfl σ.shown h.shown
    · next hnd =>
      split at hs <;> cases hs
      · next hd =>
        obtain ⟨o, hd⟩ := Option.isSome_iff_exists.1 hd
        simp only [Follows, next]
        rw [if_pos ⟨by simp [h.shape.done hd, Phase.over], h.head ht⟩]
        exact h.put ht rfl true (by simp [hd])
      · exact h.move ht rfl rfl rfl (by simpa using hnd)
  · next o rest ht =>
    cases hs
    obtain ⟨hp, rfl, hd, hq⟩ := h.shape.relock ht
    have hsh := h.shape; rw [hp] at hsh
    simp only [Follows, next]
    rw [if_pos ⟨hp, h.head ht⟩]
    refine ⟨fun u => ?_, by simp, ?_, fun _ _ => hsh.1⟩
    · simp only [Spec.pop, S.put]; split
      · next e => subst e; simp [h.calls, ht]
      · exact h.calls u
    · simp only [Spec.pop, hp]
      refine ⟨hsh.1, hsh.2.1, .inl ⟨rfl, fun u => ?_⟩⟩
      simp only [S.put]; split
      · trivial
      · next e => exact hq u e
  · next rest ht =>
    cases hd : s.done with
    | none => rw [hd] at hs; cases hs
    | some o =>
      rw [hd] at hs; cases hs
      simp only [Follows, next]
      rw [if_pos ⟨h.shape.done hd, h.head ht⟩]
      exact h.put ht rfl true (by simp [hd])
  · next rest ht =>
    split at hs
    · next hd =>
      cases hs
      obtain ⟨o, hd⟩ := Option.isSome_iff_exists.1 hd
      simp only [Follows, next]
      rw [if_pos ⟨by simp [h.shape.done hd, Phase.over], h.head ht⟩]
      exact h.put ht rfl true (by simp [hd])
    · cases hs
  · cases hs

theorem sim {s s' : S} {σ : Spec} {l : L} {es : List E} (h : R s σ) (hs : step s l = some (s', es)) :
    Follows next (R s') σ es := by
  cases l with
  | call t op =>
    simp only [step] at hs
    split at hs
    · next ht =>
      cases hs
      simp only [Follows, next]
      rw [if_pos (.inl (by simp [h.calls, ht]))]
      have := h.shape.push (op := op) (.inl ht); rw [ht] at this
      refine ⟨fun u => ?_, h.shown, this, fun u hu => ?_⟩
      simp only [S.put]; split
      · simp [h.calls, ht, Fr.op]
      · exact h.calls u
      simp only [S.put] at hu ⊢
      split at hu
      · exact h.begun t (by simpa [ht] using hu)
      · exact h.begun u hu
    · next rest ht =>
      cases hs
      obtain ⟨hp, rfl⟩ := h.shape.fn ht
      simp only [Follows, next]
      rw [if_pos (.inr ⟨hp, by simp [h.calls, ht]⟩)]
      have := h.shape.push (op := op) (.inr ht); rw [ht] at this
      refine ⟨fun u => ?_, h.shown, this, fun u hu => ?_⟩
      simp only [S.put]; split
      · simp [h.calls, ht, Fr.op]
      · exact h.calls u
      simp only [S.put] at hu ⊢
      split at hu
      · exact h.begun t (by simpa [ht] using hu)
      · exact h.begun u hu
    · cases hs
  | go t => exact go_sim h hs
  | late t =>
    simp only [step] at hs
    split at hs
    · cases hs
    split at hs
    · next rest ht =>
      cases hs
      cases hd : s.done with
      | none =>
        simp only [Follows, next, Option.isSome, Bool.false_eq_true, if_false]
        have hf := h.begun t (by simp [ht])
        rw [if_pos ⟨(fun e => by rw [h.shape.notRun.2 e] at hf; cases hf), h.unshown hd, h.head ht⟩]
        exact h.put ht rfl σ.shown h.shown
      | some o =>
        simp only [Follows, next, Option.isSome, if_true]
        rw [if_pos ⟨by simp [h.shape.done hd, Phase.over], h.head ht⟩]
        exact h.put ht rfl true (by simp [hd])
    · cases hs
  | fin t o =>
    simp only [step] at hs
    split at hs
    · next rest ht =>
      obtain ⟨hp, rfl⟩ := h.shape.fn ht
      have hsh := h.shape; rw [hp] at hsh
      split at hs
      · cases hs
        simp only [Follows, next]
        rw [if_pos ⟨hp, by simp [h.calls, ht]⟩]
        dsimp only
        rw [if_pos ⟨rfl, h.head ht⟩]
        refine ⟨fun u => ?_, by simp, ⟨hsh.1, rfl, .inl ⟨rfl, fun u => ?_⟩⟩, fun _ _ => hsh.1⟩
        · simp only [Spec.pop, S.put]; split
          · next e => subst e; simp [h.calls, ht]
          · exact h.calls u
        · simp only [S.put]; split
          · trivial
          · next e => exact hsh.2.2.2.2 u e
      · next hr =>
        cases hs
        simp only [Follows, next]
        rw [if_pos ⟨hp, by simp [h.calls, ht]⟩]
        refine ⟨fun u => ?_, h.shown, ⟨hsh.1, by simp [S.put, hsh.2.2.1, hr], .inr ⟨hsh.2.1, t, by simp [S.put], fun u hu => ?_⟩⟩, fun _ _ => hsh.1⟩
        · simp only [S.put]; split
          · next e => subst e; simp [h.calls, ht, Fr.op]
          · exact h.calls u
        · simp only [S.put, if_neg hu]; exact hsh.2.2.2.2 u hu
    · cases hs

end Verif.Deferred
