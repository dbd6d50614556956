import Verif.CondLife.Model
import Verif.CondVar.Lemmas
/-!
# The models follow the specification
-/

set_option linter.unusedSimpArgs false
set_option linter.unusedVariables false

namespace Verif.CondLife

/-- What a thread of a model does, seen from the specification. -/
structure View where
  /-- `none`: woken, with the condition variable behind it -/
  ph : Option Phase
  busy : Option Nat

def Rel (v : View) (p : Phase) (b : Option Nat) : Prop :=
  b = v.busy ∧ match v.ph with
    | some q => p = q
    | none => ∃ c, p = .woken c

structure Ok (strict : Bool) (n : Nat) (v : Nat → View) (dead : Nat → Bool) (σ : Spec) : Prop where
  num : σ.n = n
  gone : σ.dead = dead
  rel : ∀ t, t < n → Rel (v t) (σ.ph t) (σ.busy t)
  safe : ∀ c, dead c = true → ∀ t, t < n → (σ.ph t).needs strict c = false ∧ σ.busy t ≠ some c

section
variable {strict : Bool} {n : Nat} {v : Nat → View} {dead : Nat → Bool} {σ : Spec} {R : Spec → Prop} {es : List Event}

theorem Ok.init : Ok strict n (fun _ => ⟨some .out, none⟩) (fun _ => false) (start n) :=
  ⟨rfl, rfl, fun _ _ => ⟨rfl, rfl⟩, fun c h => by simp at h⟩

theorem Ok.mono {v' : Nat → View} (h : Ok strict n v dead σ) (hv : ∀ t, t < n → ∀ p b, Rel (v t) p b → Rel (v' t) p b) : Ok strict n v' dead σ :=
  ⟨h.num, h.gone, fun t ht => hv t ht _ _ (h.rel t ht), h.safe⟩

theorem Ok.congr {v' : Nat → View} (h : Ok strict n v dead σ) (hv : ∀ t, t < n → v' t = v t) : Ok strict n v' dead σ :=
  h.mono fun t ht p b hr => by rw [hv t ht]; exact hr

theorem Ok.setPh {t : Nat} {p : Phase} (h : Ok strict n v dead σ) (hp : t < n → ∀ c, dead c = true → p.needs strict c = false) :
    Ok strict n (upd v t ⟨some p, (v t).busy⟩) dead { σ with ph := upd σ.ph t p } := by
  refine ⟨h.num, h.gone, fun u hu => ?_, fun c hc u hu => ?_⟩
  · simp only [upd]
    split
    · rename_i e; subst e; exact ⟨(h.rel u hu).1, rfl⟩
    · exact h.rel u hu
  · simp only [upd]
    split
    · rename_i e; subst e; exact ⟨hp hu c hc, (h.safe c hc u hu).2⟩
    · exact h.safe c hc u hu

theorem Ok.setBusy {t : Nat} {b : Option Nat} (h : Ok strict n v dead σ) (hp : ∀ c, b = some c → dead c = false) :
    Ok strict n (upd v t ⟨(v t).ph, b⟩) dead { σ with busy := upd σ.busy t b } := by
  refine ⟨h.num, h.gone, fun u hu => ?_, fun c hc u hu => ?_⟩
  · simp only [upd]
    split
    · rename_i e; subst e; exact ⟨rfl, (h.rel u hu).2⟩
    · exact h.rel u hu
  · simp only [upd]
    split
    · rename_i e; subst e
      exact ⟨(h.safe c hc u hu).1, fun e => by rw [hp c e] at hc; cases hc⟩
    · exact h.safe c hc u hu

theorem Ok.called {t c : Nat} (h : Ok strict n v dead σ) (ht : t < n) (hv : (v t).ph = some .out)
    (k : ∀ σ', Ok strict n (upd v t ⟨some (.entering c), (v t).busy⟩) dead σ' → Follows (next strict) R σ' es) : Follows (next strict) R σ (.called t c :: es) := by
  simp only [Follows, next]
  have hr := (h.rel t ht).2
  rw [hv] at hr
  simp only at hr
  cases hd : σ.dead c with
  | true => simp
  | false =>
    simp only [hr, if_true, Bool.false_eq_true, if_false]
    refine k _ (h.setPh fun _ c' hc' => ?_)
    simp only [Phase.needs, beq_eq_false_iff_ne, ne_eq]
    intro e; subst e
    rw [h.gone, hc'] at hd; cases hd

theorem Ok.released {t c : Nat} (h : Ok strict n v dead σ) (ht : t < n) (hv : (v t).ph = some (.entering c))
    (k : ∀ σ', Ok strict n (upd v t ⟨some (.waiting c), (v t).busy⟩) dead σ' → Follows (next strict) R σ' es) : Follows (next strict) R σ (.released t :: es) := by
  have hr := (h.rel t ht).2
  rw [hv] at hr
  simp only at hr
  simp only [Follows, next, hr]
  refine k _ (h.setPh fun _ c' hc' => ?_)
  have := (h.safe c' hc' t ht).1
  rw [hr] at this
  exact this

theorem Ok.woken {t c : Nat} (h : Ok strict n v dead σ) (ht : t < n) (hv : (v t).ph = some (.waiting c) ∨ (v t).ph = some (.woken c))
    (k : ∀ σ', Ok strict n (upd v t ⟨some (.woken c), (v t).busy⟩) dead σ' → Follows (next strict) R σ' es) : Follows (next strict) R σ (.woken t :: es) := by
  have hr := (h.rel t ht).2
  rcases hv with hv | hv
  · rw [hv] at hr
    simp only at hr
    simp only [Follows, next, hr]
    refine k _ (h.setPh fun _ c' hc' => ?_)
    have := (h.safe c' hc' t ht).1
    rw [hr] at this
    simp only [Phase.needs] at this ⊢
    rw [this]; simp
  · rw [hv] at hr
    simp only at hr
    simp only [Follows, next, hr]
    refine k _ (h.congr fun u hu => ?_)
    simp only [upd]
    split
    · rename_i e; subst e; rw [← hv]
    · rfl

theorem Ok.back {t : Nat} (h : Ok strict n v dead σ) (ht : t < n) (hv : (v t).ph = none ∨ ∃ c, (v t).ph = some (.entering c) ∨ (v t).ph = some (.woken c))
    (k : ∀ σ', Ok strict n (upd v t ⟨some .out, (v t).busy⟩) dead σ' → Follows (next strict) R σ' es) : Follows (next strict) R σ (.back t :: es) := by
  have hr := (h.rel t ht).2
  have hk := k _ (h.setPh (t := t) (p := .out) fun _ c' hc' => rfl)
  rcases hv with hv | ⟨c, hv | hv⟩ <;> rw [hv] at hr <;> simp only at hr
  · obtain ⟨c, hr⟩ := hr
    simp only [Follows, next, hr]; exact hk
  · simp only [Follows, next, hr]; exact hk
  · simp only [Follows, next, hr]; exact hk

theorem Ok.notify {t c : Nat} (h : Ok strict n v dead σ)
    (k : ∀ σ', Ok strict n (upd v t ⟨(v t).ph, some c⟩) dead σ' → Follows (next strict) R σ' es) : Follows (next strict) R σ (.notify t c :: es) := by
  simp only [Follows, next]
  cases hd : σ.dead c with
  | true => simp
  | false =>
    simp only [Bool.false_eq_true, if_false]
    refine k _ (h.setBusy fun c' e => ?_)
    cases e; rw [← h.gone]; exact hd

theorem Ok.notified {t : Nat} (h : Ok strict n v dead σ)
    (k : ∀ σ', Ok strict n (upd v t ⟨(v t).ph, none⟩) dead σ' → Follows (next strict) R σ' es) : Follows (next strict) R σ (.notified t :: es) := by
  simp only [Follows, next]
  exact k _ (h.setBusy fun c' e => by cases e)

theorem Ok.destroyed {c : Nat} (h : Ok strict n v dead σ)
    (k : ∀ σ', Ok strict n v (upd dead c true) σ' → Follows (next strict) R σ' es) : Follows (next strict) R σ (.destroyed c :: es) := by
  simp only [Follows, next]
  split
  · rename_i σ' e
    split at e
    · cases e
    · rename_i hg
      cases e
      simp only [Bool.or_eq_true, List.any_eq_true, List.mem_range, beq_iff_eq, not_or, not_exists, not_and] at hg
      refine k _ ⟨h.num, by rw [h.gone], h.rel, fun c' hc' u hu => ?_⟩
      simp only [upd] at hc'
      split at hc'
      · rename_i e; subst e
        have := hg.2 u (by rw [h.num]; exact hu)
        simpa using this
      · exact h.safe c' hc' u hu
  · trivial
  · rename_i e
    split at e <;> cases e

/-- Every thread of `L` is woken. -/
theorem Ok.wokenAll {L : List Nat} (h : Ok strict n v dead σ) (hL : ∀ t, t ∈ L → t < n ∧ ∃ c, (v t).ph = some (.waiting c) ∨ (v t).ph = some (.woken c))
    (k : ∀ σ', Ok strict n (fun t => if t ∈ L then ⟨none, (v t).busy⟩ else v t) dead σ' → (∀ t, t ∈ L → ∀ c, (v t).ph = some (.waiting c) ∨ (v t).ph = some (.woken c) → σ'.ph t = .woken c) →
      Follows (next strict) R σ' es) :
    Follows (next strict) R σ (L.map .woken ++ es) := by
  induction L generalizing v σ with
  | nil => exact k σ (h.congr fun t _ => by simp) (by simp)
  | cons a L ih =>
    obtain ⟨ha, c, hc⟩ := hL a (by simp)
    simp only [List.map_cons, List.cons_append]
    refine h.woken ha hc fun σ1 h1 => ?_
    refine ih h1 ?_ ?_
    · intro t ht
      obtain ⟨g1, c', g2⟩ := hL t (by simp [ht])
      refine ⟨g1, ?_⟩
      simp only [upd]
      split
      · exact ⟨c, by simp⟩
      · exact ⟨c', g2⟩
    · intro σ' h2 h3
      have key : ∀ t, t ∈ a :: L → ∀ c, (v t).ph = some (.waiting c) ∨ (v t).ph = some (.woken c) → σ'.ph t = .woken c := by
        intro t ht c' hc'
        by_cases e : t = a
        · subst e
          have hcc : c' = c := by
            rcases hc with hc | hc <;> rcases hc' with hc' | hc' <;> rw [hc] at hc' <;> cases hc' <;> rfl
          subst hcc
          by_cases e' : t ∈ L
          · exact h3 t e' c' (by simp [upd])
          · have := (h2.rel t ha).2
            simpa [e', upd] using this
        · have e' : t ∈ L := by simpa [e] using ht
          exact h3 t e' c' (by simpa [upd, e] using hc')
      refine k σ' ?_ key
      refine ⟨h2.num, h2.gone, fun t ht => ?_, h2.safe⟩
      by_cases e : t ∈ a :: L
      · simp only [e, if_true]
        obtain ⟨-, c', hc'⟩ := hL t e
        refine ⟨?_, c', key t e c' hc'⟩
        have := (h2.rel t ht).1
        rw [this]
        by_cases e2 : t = a
        · subst e2; by_cases e1 : t ∈ L <;> simp [e1, upd]
        · by_cases e1 : t ∈ L <;> simp [e1, e2, upd]
      · have e1 : t ∉ L := fun g => e (by simp [g])
        have e2 : t ≠ a := fun g => e (by simp [g])
        have := h2.rel t ht
        simpa [e, e1, e2, upd] using this

/-- Every thread of `L`, of which each waits on `c`, is woken. -/
theorem Ok.wokenOn {L : List Nat} {c : Nat} (h : Ok strict n v dead σ) (hL : ∀ t, t ∈ L → t < n ∧ (v t).ph = some (.waiting c))
    (k : ∀ σ', Ok strict n (fun t => if t ∈ L then ⟨some (.woken c), (v t).busy⟩ else v t) dead σ' → Follows (next strict) R σ' es) :
    Follows (next strict) R σ (L.map .woken ++ es) := by
  refine h.wokenAll (fun t ht => ⟨(hL t ht).1, c, Or.inl (hL t ht).2⟩) fun σ' h1 h2 => ?_
  refine k σ' ⟨h1.num, h1.gone, fun t ht => ?_, h1.safe⟩
  have hr := h1.rel t ht
  by_cases e : t ∈ L
  · simp only [if_pos e] at hr ⊢
    exact ⟨hr.1, h2 t e c (Or.inl (hL t e).2)⟩
  · simp only [if_neg e] at hr ⊢
    exact hr

/-- What a thread in this phase uses has not been destroyed. -/
theorem Ok.alive {t c : Nat} (h : Ok strict n v dead σ) (ht : t < n) (hv : (v t).ph = some (.entering c) ∨ (v t).ph = some (.waiting c) ∨ (strict = true ∧ (v t).ph = some (.woken c)) ∨ (v t).busy = some c) :
    dead c = false := by
  cases hd : dead c with
  | false => rfl
  | true =>
    have hs := h.safe c hd t ht
    have hr := h.rel t ht
    rcases hv with hv | hv | ⟨e, hv⟩ | hv
    · have := hr.2; rw [hv] at this; rw [this] at hs; simp [Phase.needs] at hs
    · have := hr.2; rw [hv] at this; rw [this] at hs; simp [Phase.needs] at hs
    · have := hr.2; rw [hv] at this; rw [this] at hs; simp [Phase.needs, e] at hs
    · rw [hr.1] at hs; exact absurd hv hs.2
end

end Verif.CondLife
