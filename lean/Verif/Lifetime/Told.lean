import Verif.Lifetime.Sim2
/-!
# What permitted histories tell
-/

set_option linter.unusedSimpArgs false
set_option linter.unusedVariables false

namespace Verif.Lifetime

/-! ## What a permitted history looks like -/

theorem clientOk (σ : Spec) (es : List Event) : ClientOk next σ es := by
  induction es generalizing σ with
  | nil => trivial
  | cons e es ih =>
    simp only [ClientOk]
    cases hn : next σ e with
    | ok σ' => exact ih σ'
    | illegal => trivial
    | undefined =>
      cases e <;> simp only [next] at hn <;> (repeat' split at hn) <;> cases hn

/-- What holds at the start and is kept by every permitted event holds after every permitted history. -/
theorem permitted {Q : List Event → Spec → Prop} (h0 : Q [] start) (hstep : ∀ h σ e σ', Q h σ → next σ e = .ok σ' → Q (h ++ [e]) σ')
    {es : List Event} {σ : Spec} (hs : specState next start es = some σ) : Q es σ := by
  have : ∀ (es h : List Event) (σ₀ : Spec), Q h σ₀ → specState next σ₀ es = some σ → Q (h ++ es) σ := by
    intro es
    induction es with
    | nil => intro h σ₀ hq hs; simp only [specState, Option.some.injEq] at hs; subst hs; simpa using hq
    | cons e es ih =>
      intro h σ₀ hq hs
      simp only [specState] at hs
      cases hn : next σ₀ e with
      | ok σ₁ =>
        simp only [hn] at hs
        have := ih (h ++ [e]) σ₁ (hstep h σ₀ e σ₁ hq hn) hs
        simpa using this
      | undefined => simp [hn] at hs
      | illegal => simp [hn] at hs
  simpa using this es [] start h0 hs

/-- What the events tell. -/
structure Told (h : List Event) (σ : Spec) : Prop where
  idle : ∀ d, d < σ.n → σ.use d = .none → (∃ u, .over u d ∈ h) ∨ .refused d ∈ h
  began : ∀ t d, .began t d ∈ h → d < σ.n ∧ σ.use d ≠ .starting ∧ (σ.use d = .running t ∨ .ended d ∈ h)
  made : ∀ o d, .made o d ∈ h → (o, d) ∈ σ.refs ∨ .dropped o ∈ h
  destroyed : ∀ t d, .destroyed t d ∈ h → d < σ.n ∧ σ.dead d = true ∧ σ.use d = .none ∧ ∀ r ∈ σ.refs, r.2 ≠ d
  lost : ∀ t d, .abandoned t d ∈ h → d < σ.n ∧ σ.use d = .lost
  stale : ∀ d, .stale d ∉ h
  bound : ∀ r ∈ σ.refs, r.2 < σ.n

/-- An event that changes the use of `d₀`. -/
theorem Told.use {h : List Event} {σ : Spec} (q : Told h σ) (d₀ : Nat) (u : Use) (e : Event) (hd : d₀ < σ.n) (hdead : σ.dead d₀ = false)
    (h1 : ∀ o d, e ≠ .made o d) (h2 : ∀ t d, e ≠ .destroyed t d) (h3 : ∀ d, e ≠ .stale d)
    (h4 : ∀ t d, e = .began t d → d = d₀ ∧ u = .running t) (h5 : ∀ t d, e = .abandoned t d → d = d₀ ∧ u = .lost)
    (h6 : u = .none → (∃ t, e = .over t d₀) ∨ e = .refused d₀) (h7 : u ≠ .starting)
    (h8 : ∀ t, .began t d₀ ∈ h → u = .running t ∨ .ended d₀ ∈ h ++ [e]) (h9 : ∀ t, .abandoned t d₀ ∈ h → u = .lost) :
    Told (h ++ [e]) { σ with use := upd σ.use d₀ u } := by
  refine ⟨?_, ?_, ?_, ?_, ?_, ?_, q.bound⟩
  · intro d hd hu
    by_cases e' : d = d₀
    · subst e'
      simp only [upd_same] at hu
      rcases h6 hu with ⟨t, h6⟩ | h6
      · exact Or.inl ⟨t, by simp [h6]⟩
      · exact Or.inr (by simp [h6])
    · simp only [upd_ne e'] at hu
      rcases q.idle d hd hu with ⟨u, h1⟩ | h1
      · exact Or.inl ⟨u, by simp [h1]⟩
      · exact Or.inr (by simp [h1])
  · intro t d hb
    simp only [List.mem_append, List.mem_singleton] at hb
    rcases hb with hb | hb
    · obtain ⟨g1, g2, g3⟩ := q.began t d hb
      by_cases e' : d = d₀
      · subst e'
        simp only [upd_same]
        exact ⟨hd, h7, h8 t hb⟩
      · simp only [upd_ne e']
        exact ⟨g1, g2, by rcases g3 with g3 | g3 <;> simp [g3]⟩
    · obtain ⟨rfl, rfl⟩ := h4 t d hb.symm
      exact ⟨hd, by simp, by simp⟩
  · intro o d hm
    simp only [List.mem_append, List.mem_singleton] at hm
    rcases hm with hm | hm
    · rcases q.made o d hm with g | g <;> simp [g]
    · exact absurd hm.symm (h1 o d)
  · intro t d hm
    simp only [List.mem_append, List.mem_singleton] at hm
    rcases hm with hm | hm
    · obtain ⟨g1, g2, g3, g4⟩ := q.destroyed t d hm
      have e' : d ≠ d₀ := fun e' => by subst e'; simp [hdead] at g2
      simp only [upd_ne e']
      exact ⟨g1, g2, g3, g4⟩
    · exact absurd hm.symm (h2 t d)
  · intro t d hm
    simp only [List.mem_append, List.mem_singleton] at hm
    rcases hm with hm | hm
    · obtain ⟨g1, g2⟩ := q.lost t d hm
      by_cases e' : d = d₀
      · subst e'; exact ⟨hd, by simpa using h9 t hm⟩
      · simp only [upd_ne e']; exact ⟨g1, g2⟩
    · obtain ⟨rfl, rfl⟩ := h5 t d hm.symm
      exact ⟨hd, by simp⟩
  · intro d hm
    simp only [List.mem_append, List.mem_singleton] at hm
    rcases hm with hm | hm
    · exact q.stale d hm
    · exact h3 d hm.symm

/-- An event about references. -/
theorem Told.refs {h : List Event} {σ : Spec} (q : Told h σ) (rs : List (Nat × Nat)) (e : Event)
    (h1 : ∀ o d, e ≠ .made o d) (h2 : ∀ t d, e ≠ .destroyed t d) (h3 : ∀ d, e ≠ .stale d) (h4 : ∀ t d, e ≠ .began t d) (h5 : ∀ t d, e ≠ .abandoned t d)
    (h6 : ∀ r ∈ σ.refs, r ∈ rs ∨ e = .dropped r.1) (h7 : ∀ r ∈ rs, r ∈ σ.refs ∨ (r.2 < σ.n ∧ σ.dead r.2 = false)) :
    Told (h ++ [e]) { σ with refs := rs } := by
  refine ⟨?_, ?_, ?_, ?_, ?_, ?_, ?_⟩
  · intro d hd hu
    rcases q.idle d hd hu with ⟨u, h1⟩ | h1
    · exact Or.inl ⟨u, by simp [h1]⟩
    · exact Or.inr (by simp [h1])
  · intro t d hb
    simp only [List.mem_append, List.mem_singleton] at hb
    rcases hb with hb | hb
    · obtain ⟨g1, g2, g3⟩ := q.began t d hb
      exact ⟨g1, g2, by rcases g3 with g3 | g3 <;> simp [g3]⟩
    · exact absurd hb.symm (h4 t d)
  · intro o d hm
    simp only [List.mem_append, List.mem_singleton] at hm
    rcases hm with hm | hm
    · rcases q.made o d hm with g | g
      · rcases h6 _ g with g | g
        · exact Or.inl g
        · exact Or.inr (by simp [g])
      · exact Or.inr (by simp [g])
    · exact absurd hm.symm (h1 o d)
  · intro t d hm
    simp only [List.mem_append, List.mem_singleton] at hm
    rcases hm with hm | hm
    · obtain ⟨g1, g2, g3, g4⟩ := q.destroyed t d hm
      refine ⟨g1, g2, g3, fun r hr e' => ?_⟩
      rcases h7 r hr with g | ⟨-, g⟩
      · exact g4 r g e'
      · subst e'; simp [g2] at g
    · exact absurd hm.symm (h2 t d)
  · intro t d hm
    simp only [List.mem_append, List.mem_singleton] at hm
    rcases hm with hm | hm
    · exact q.lost t d hm
    · exact absurd hm.symm (h5 t d)
  · intro d hm
    simp only [List.mem_append, List.mem_singleton] at hm
    rcases hm with hm | hm
    · exact q.stale d hm
    · exact h3 d hm.symm
  · intro r hr
    rcases h7 r hr with g | g
    · exact q.bound r g
    · exact g.1

theorem told {es : List Event} {σ : Spec} (hs : specState next start es = some σ) : Told es σ := by
  refine permitted (Q := Told) ?_ ?_ hs
  · constructor <;> simp [start]
  · intro h σ e σ' q hn
    cases e with
    | made o d =>
      simp only [next] at hn
      split at hn
      · cases hn
      · split at hn <;> cases hn
        rename_i hd
        subst hd
        refine ⟨?_, ?_, ?_, ?_, ?_, ?_, ?_⟩
        · intro d hd hu
          by_cases e : d = σ.n
          · subst e; simp at hu
          · simp only [upd_ne e] at hu
            rcases q.idle d (by simp only at hd; omega) hu with ⟨u, h1⟩ | h1
            · exact Or.inl ⟨u, by simp [h1]⟩
            · exact Or.inr (by simp [h1])
        · intro t d hb
          simp at hb
          obtain ⟨h1, h2, h3⟩ := q.began t d hb
          have e : d ≠ σ.n := by omega
          simp only [upd_ne e]
          exact ⟨by omega, h2, by rcases h3 with h3 | h3 <;> simp [h3]⟩
        · intro o' d hm
          simp at hm
          rcases hm with hm | ⟨rfl, rfl⟩
          · rcases q.made o' d hm with h1 | h1 <;> simp [h1]
          · simp
        · intro t d hm
          simp at hm
          obtain ⟨h1, h2, h3, h4⟩ := q.destroyed t d hm
          have e : d ≠ σ.n := by omega
          simp only [upd_ne e]
          refine ⟨by omega, h2, h3, ?_⟩
          intro r hr; simp only [List.mem_cons] at hr
          rcases hr with rfl | hr
          · exact fun h => e h.symm
          · exact h4 r hr
        · intro t d hm
          simp at hm
          obtain ⟨h1, h2⟩ := q.lost t d hm
          have e : d ≠ σ.n := by omega
          simp only [upd_ne e]
          exact ⟨by omega, h2⟩
        · intro d; simp [q.stale d]
        · intro r hr; simp only [List.mem_cons] at hr
          rcases hr with rfl | hr
          · simp
          · have := q.bound r hr; simp only; omega
    | got t₀ d =>
      simp only [next] at hn
      split at hn <;> cases hn
      rename_i hd
      subst hd
      refine ⟨?_, ?_, ?_, ?_, ?_, ?_, ?_⟩
      · intro d hd hu
        by_cases e : d = σ.n
        · subst e; simp at hu
        · simp only [upd_ne e] at hu
          rcases q.idle d (by simp only at hd; omega) hu with ⟨u, h1⟩ | h1
          · exact Or.inl ⟨u, by simp [h1]⟩
          · exact Or.inr (by simp [h1])
      · intro t d hb
        simp at hb
        obtain ⟨h1, h2, h3⟩ := q.began t d hb
        have e : d ≠ σ.n := by omega
        simp only [upd_ne e]
        exact ⟨by omega, h2, by rcases h3 with h3 | h3 <;> simp [h3]⟩
      · intro o' d hm
        simp at hm
        rcases q.made o' d hm with h1 | h1 <;> simp [h1]
      · intro t d hm
        simp at hm
        obtain ⟨h1, h2, h3, h4⟩ := q.destroyed t d hm
        have e : d ≠ σ.n := by omega
        simp only [upd_ne e]
        exact ⟨by omega, h2, h3, h4⟩
      · intro t d hm
        simp at hm
        obtain ⟨h1, h2⟩ := q.lost t d hm
        have e : d ≠ σ.n := by omega
        simp only [upd_ne e]
        exact ⟨by omega, h2⟩
      · intro d; simp [q.stale d]
      · intro r hr; have := q.bound r hr; simp only; omega
    | refused d =>
      simp only [next] at hn
      split at hn <;> cases hn
      rename_i hg
      refine q.use d _ _ hg.1 hg.2.2 (by simp) (by simp) (by simp) (by simp) (by simp) (by simp) (by simp) ?_ ?_
      · intro t hb; exact absurd hg.2.1 (q.began t d hb).2.1
      · intro t hb; have := (q.lost t d hb).2; simp [hg.2.1] at this
    | began t d =>
      simp only [next] at hn
      split at hn <;> cases hn
      rename_i hg
      refine q.use d _ _ hg.1 hg.2.2 (by simp) (by simp) (by simp) ?_ (by simp) (by simp) (by simp) ?_ ?_
      · intro t' d' he; cases he; exact ⟨rfl, rfl⟩
      · intro t hb; exact absurd hg.2.1 (q.began t d hb).2.1
      · intro t hb; have := (q.lost t d hb).2; simp [hg.2.1] at this
    | ended d =>
      simp only [next] at hn
      split at hn
      · rename_i hg
        split at hn <;> cases hn
        rename_i hu
        refine q.use d _ _ hg.1 hg.2 (by simp) (by simp) (by simp) (by simp) (by simp) (by simp) (by simp) (by simp) ?_
        intro t hb; have := (q.lost t d hb).2; simp [hu] at this
      · cases hn
    | over t d =>
      simp only [next] at hn
      split at hn <;> cases hn
      rename_i hg
      refine q.use d _ _ hg.1 hg.2.1 (by simp) (by simp) (by simp) (by simp) (by simp) ?_ (by simp) ?_ ?_
      · intro _; exact Or.inl ⟨t, rfl⟩
      · intro t' hb
        rcases (q.began t' d hb).2.2 with h1 | h1
        · rcases hg.2.2 with h2 | h2 <;> simp [h1] at h2
        · exact Or.inr (by simp [h1])
      · intro t' hb; have := (q.lost t' d hb).2; rcases hg.2.2 with h2 | h2 <;> simp [h2] at this
    | abandoned t d =>
      simp only [next] at hn
      split at hn <;> cases hn
      rename_i hg
      refine q.use d _ _ hg.1 hg.2.1 (by simp) (by simp) (by simp) (by simp) ?_ (by simp) (by simp) ?_ (by simp)
      · intro t' d' he; cases he; exact ⟨rfl, rfl⟩
      · intro t' hb
        rcases (q.began t' d hb).2.2 with h1 | h1
        · have := hg.2.2; simp [h1] at this
        · exact Or.inr (by simp [h1])
    | copied o o' =>
      simp only [next] at hn
      split at hn
      · cases hn
      · split at hn
        · rename_i r hf
          split at hn <;> cases hn
          rename_i hdd
          have hm := List.mem_of_find?_eq_some hf
          refine q.refs _ _ (by simp) (by simp) (by simp) (by simp) (by simp) (fun r hr => Or.inl (List.mem_cons_of_mem _ hr)) ?_
          intro r' hr'
          rcases List.mem_cons.mp hr' with rfl | hr'
          · exact Or.inr ⟨q.bound r hm, by simpa using hdd⟩
          · exact Or.inl hr'
        · cases hn
    | self t d o =>
      simp only [next] at hn
      split at hn
      · cases hn
      · split at hn <;> cases hn
        rename_i hg
        refine q.refs _ _ (by simp) (by simp) (by simp) (by simp) (by simp) (fun r hr => Or.inl (List.mem_cons_of_mem _ hr)) ?_
        intro r' hr'
        rcases List.mem_cons.mp hr' with rfl | hr'
        · exact Or.inr ⟨hg.1, hg.2.1⟩
        · exact Or.inl hr'
    | dropped o =>
      simp only [next] at hn
      split at hn <;> cases hn
      refine q.refs _ _ (by simp) (by simp) (by simp) (by simp) (by simp) ?_ (fun r hr => Or.inl (List.mem_filter.mp hr).1)
      intro r hr
      by_cases e : r.1 = o
      · exact Or.inr (by simp [e])
      · exact Or.inl (List.mem_filter.mpr ⟨hr, by simpa using e⟩)
    | destroyed t₀ d₀ =>
      simp only [next] at hn
      split at hn <;> cases hn
      rename_i hg
      refine ⟨?_, ?_, ?_, ?_, ?_, ?_, q.bound⟩
      · intro d hd hu
        rcases q.idle d hd hu with ⟨u, h1⟩ | h1
        · exact Or.inl ⟨u, by simp [h1]⟩
        · exact Or.inr (by simp [h1])
      · intro t d hb
        simp at hb
        obtain ⟨h1, h2, h3⟩ := q.began t d hb
        exact ⟨h1, h2, by rcases h3 with h3 | h3 <;> simp [h3]⟩
      · intro o' d hm
        simp at hm
        rcases q.made o' d hm with h1 | h1 <;> simp [h1]
      · intro t d hm
        simp only [List.mem_append, List.mem_singleton] at hm
        rcases hm with hm | hm
        · obtain ⟨h1, h2, h3, h4⟩ := q.destroyed t d hm
          exact ⟨h1, by simp only [upd]; split <;> simp_all, h3, h4⟩
        · cases hm
          exact ⟨hg.1, by simp, hg.2.2.1, by simpa using hg.2.2.2⟩
      · intro t d hm
        simp at hm
        exact q.lost t d hm
      · intro d; simp [q.stale d]
    | stale d => simp [next] at hn
    | round t d =>
      simp only [next] at hn
      split at hn <;> cases hn
      exact q.refs σ.refs _ (by simp) (by simp) (by simp) (by simp) (by simp) (fun r hr => Or.inl hr) (fun r hr => Or.inl hr)
    | gone t =>
      simp only [next] at hn
      split at hn <;> cases hn
      exact q.refs σ.refs _ (by simp) (by simp) (by simp) (by simp) (by simp) (fun r hr => Or.inl hr) (fun r hr => Or.inl hr)

/-- Data are dead only if they have been destroyed. -/
theorem died {es : List Event} {σ : Spec} (hs : specState next start es = some σ) {d : Nat} (hd : σ.dead d = true) : ∃ t, .destroyed t d ∈ es := by
  refine permitted (Q := fun h σ => ∀ d, σ.dead d = true → ∃ t, .destroyed t d ∈ h) (by simp [start]) ?_ hs d hd
  intro h σ e σ' q hn d hd
  have keep : (∃ t, Event.destroyed t d ∈ h) → ∃ t, Event.destroyed t d ∈ h ++ [e] := fun ⟨t, ht⟩ => ⟨t, by simp [ht]⟩
  cases e with
  | destroyed t d₀ =>
    simp only [next] at hn
    split at hn <;> cases hn
    by_cases e : d = d₀
    · subst e; exact ⟨t, by simp⟩
    · simp only [upd_ne e] at hd; exact keep (q d hd)
  | _ =>
    simp only [next] at hn
    (repeat' split at hn) <;> cases hn <;> exact keep (q d hd)

/-- A thread that is gone uses no data. -/
structure Dn (s : State) (t : Nat) : Prop where
  lt : t < s.nt
  cur : s.cur t = none
  xc : s.xc t = none
  ret : returned s t = true

theorem Dn.keep {s s' : State} {t : Nat} (h : Dn s t) (h1 : s.nt ≤ s'.nt) (h2 : s'.cur t = none) (h3 : s'.xc t = none) (h4 : s'.lib t = s.lib t)
    (h5 : ∀ d, s.lib t = some d → (s.dat d).stage = .over → (s'.dat d).stage = .over) : Dn s' t := by
  refine ⟨Nat.lt_of_lt_of_le h.lt h1, h2, h3, ?_⟩
  have := h.ret
  unfold returned at this ⊢
  rw [h4]
  cases hl : s.lib t with
  | none => rfl
  | some d =>
    simp only [hl, beq_iff_eq] at this ⊢
    exact h5 d hl this

theorem Dn.keepRec {s : State} {t : Nat} (h : Dn s t) (d : Nat) (x : Rec) (hx : (s.dat d).stage = .over → x.stage = .over) : Dn (setRec s d x) t := by
  refine h.keep (Nat.le_refl _) h.cur h.xc rfl ?_
  intro d' _ hd'
  by_cases e : d' = d
  · subst e; simpa [setRec] using hx hd'
  · simpa [setRec, upd_ne e] using hd'

theorem dn_step {P : Plat} {K : Nat} {s s' : State} {l : Label} {es : List Event} {σ : Spec} (h : Inv P s σ) (hdn : ∀ t, s.done t = true → Dn s t)
    (hs : step P K s l = some (s', es)) : ∀ t, s'.done t = true → Dn s' t := by
  intro t ht
  have hcl : ∀ u, client s u = true → s.done u = false := by
    intro u hu; simp [client] at hu; exact hu.1.2
  cases l with
  | make o =>
    simp only [step] at hs
    split at hs <;> cases hs
    have D := hdn t ht
    refine D.keep (Nat.le_refl _) D.cur D.xc rfl ?_
    intro d' hl hd'
    have := (h.lib _ _ hl).1
    have e : d' ≠ s.nr := by omega
    simpa [setRec, upd_ne e] using hd'
  | arm d =>
    simp only [step] at hs
    split at hs
    · (repeat' split at hs) <;> cases hs <;> first | exact hdn t ht | (rename_i hst _; exact (hdn t ht).keepRec d _ (fun e => by simp [hst] at e))
    · cases hs
  | resume d =>
    simp only [step] at hs
    split at hs
    · (repeat' split at hs) <;> cases hs <;> first | exact hdn t ht | (rename_i hst _; exact (hdn t ht).keepRec d _ (fun e => by simp [hst] at e))
    · cases hs
  | ret d =>
    simp only [step] at hs
    split at hs
    · split at hs
      · rename_i hst
        by_cases hok : (s.dat d).ok = true
        · rw [if_pos hok] at hs
          cases hs
          exact (hdn t ht).keepRec d _ (fun e => by simp [hst] at e)
        · rw [if_neg hok] at hs
          cases hs
          exact hdn t ht
      · cases hs
    · cases hs
  | spawn d ok u =>
    have hsp : ∀ st, (s.dat d).stage ≠ .over → s.done t = true → Dn (spawned s d (s.dat d) st) t := by
      intro st hne hd
      have D := hdn t hd
      have hlt := D.lt
      refine D.keep (Nat.le_succ _) D.cur D.xc ?_ ?_
      · simp [spawned, setRec, upd_ne (show t ≠ s.nt by omega)]
      · intro d' hl hd'
        by_cases e : d' = d
        · subst e; exact absurd hd' hne
        · simpa [spawned, setRec, upd_ne e] using hd'
    simp only [step] at hs
    split at hs
    · split at hs
      · rename_i hst
        (repeat' split at hs) <;> cases hs
        · exact hsp _ (by simp [hst]) ht
        · exact (hdn t ht).keepRec d _ (fun e => by simp [hst] at e)
        · exact hdn t ht
      · rename_i hst
        (repeat' split at hs) <;> cases hs
        · exact hsp _ (by simp [hst]) ht
        · exact (hdn t ht).keepRec d _ (fun e => by simp [hst] at e)
        · exact hdn t ht
      · rename_i hst
        (repeat' split at hs) <;> cases hs
        · exact hsp _ (by simp [hst]) ht
        · exact (hdn t ht).keepRec d _ (fun e => by simp [hst] at e)
        · exact hdn t ht
      · cases hs
    · cases hs
  | go d =>
    simp only [step] at hs
    split at hs
    case isFalse => cases hs
    rename_i hd
    have g := h.gl d hd
    have hk := (h.loc d hd).kind
    have hpre : pre (s.dat d).stage = true → s.done t = true → t ≠ (s.dat d).thr := by
      intro hp hdt e
      have hl : (s.dat d).lib = true := by cases hx : (s.dat d).stage <;> simp_all [pre, kind]
      have hsp : spawnedS (s.dat d).stage = true := by cases hx : (s.dat d).stage <;> simp_all [pre, spawnedS]
      have h1 := g.lib hl hsp
      have h2 := (hdn t hdt).ret
      rw [← e] at h1
      simp only [returned, h1, beq_iff_eq] at h2
      simp [h2, pre] at hp
    have hgo : ∀ s₁ es₁, go P s d (s.dat d) = some (s₁, es₁) → s₁.done t = true → Dn s₁ t := by
      intro s₁ es₁ hq hdt
      unfold go at hq
      split at hq
      · rename_i hst
        cases hq
        exact (hdn t hdt).keepRec d _ (fun e => by simp [hst] at e)
      · rename_i hst
        cases hq
        have hne := hpre (by simp [hst, pre]) hdt
        have D := (hdn t hdt).keepRec d { (s.dat d).selfReset (s.dat d).thr with stage := .body } (fun e => by simp [hst] at e)
        exact D.keep (Nat.le_refl _) (by simp only [upd_ne hne]; exact D.cur) D.xc rfl (fun _ _ a => a)
      · rename_i hst
        cases hq
        exact (hdn t hdt).keepRec d _ (fun e => by simp [hst] at e)
      · rename_i hst
        cases hq
        have D := (hdn t hdt).keepRec d { s.dat d with stage := .unset } (fun e => by simp [hst] at e)
        refine D.keep (Nat.le_refl _) ?_ D.xc rfl (fun _ _ a => a)
        simp only [upd]; split
        · rfl
        · exact D.cur
      · rename_i hst
        cases hq
        exact (hdn t hdt).keepRec d _ (fun e => by simp [hst] at e)
      · rename_i hst
        cases hq
        have D := (hdn t hdt).keepRec d { ((s.dat d).selfReset (s.dat d).thr).release (s.dat d).thr with stage := .over } (fun e => by simp [hst] at e)
        refine D.keep (Nat.le_refl _) D.cur ?_ rfl (fun _ _ a => a)
        simp only [upd]; split
        · rfl
        · exact D.xc
      · cases hq
      · rename_i hst
        cases hq
        have hne := hpre (by simp [hst, pre]) hdt
        have D := (hdn t hdt).keepRec d { s.dat d with stage := .body } (fun e => by simp [hst] at e)
        exact D.keep (Nat.le_refl _) (by simp only [upd_ne hne]; exact D.cur) D.xc rfl (fun _ _ a => a)
      · rename_i hst
        cases hq
        have D := (hdn t hdt).keepRec d { s.dat d with stage := .unset } (fun e => by simp [hst] at e)
        refine D.keep (Nat.le_refl _) ?_ D.xc rfl (fun _ _ a => a)
        simp only [upd]; split
        · rfl
        · exact D.cur
      · rename_i hst
        cases hq
        have D := (hdn t hdt).keepRec d { (s.dat d).release (s.dat d).thr with stage := .over } (fun e => by simp [hst] at e)
        refine D.keep (Nat.le_refl _) D.cur ?_ rfl (fun _ _ a => a)
        simp only
        split
        · exact D.xc
        · simp only [upd]; split
          · rfl
          · exact D.xc
      · cases hq
    split at hs
    · exact hgo _ _ hs ht
    · split at hs <;> cases hs
      exact hdn t ht
  | use u =>
    simp only [step] at hs
    split at hs
    case isFalse => cases hs
    rename_i hc
    split at hs
    · split at hs <;> cases hs <;> exact hdn t ht
    · cases hs
      have D := hdn t ht
      have hne : t ≠ u := fun e => by subst e; have := hcl _ hc; simp only [setRec] at ht; simp [ht] at this
      refine D.keep (Nat.le_refl _) (by simpa [setRec, upd_ne hne] using D.cur) D.xc rfl ?_
      intro d' hl hd'
      have := (h.lib _ _ hl).1
      have e : d' ≠ s.nr := by omega
      simpa [setRec, upd_ne e] using hd'
  | self u o =>
    simp only [step] at hs
    split at hs
    case isFalse => cases hs
    split at hs
    case h_2 => cases hs
    split at hs <;> cases hs
    · rename_i d _ _
      have D := (hdn t ht).keepRec d (s.dat d).addRef (fun e => e)
      exact D.keep (Nat.le_refl _) D.cur D.xc rfl (fun _ _ a => a)
    · exact hdn t ht
  | copy o o' =>
    simp only [step] at hs
    split at hs
    case h_2 => cases hs
    split at hs
    case isFalse => cases hs
    split at hs <;> cases hs
    · rename_i d _ _ _
      have D := (hdn t ht).keepRec d (s.dat d).addRef (fun e => e)
      exact D.keep (Nat.le_refl _) D.cur D.xc rfl (fun _ _ a => a)
    · exact hdn t ht
  | drop u o =>
    simp only [step] at hs
    split at hs
    case h_2 => cases hs
    split at hs
    case isFalse => cases hs
    split at hs <;> cases hs
    · rename_i d _ _ _
      have D := (hdn t ht).keepRec d ((s.dat d).release u) (fun e => e)
      exact D.keep (Nat.le_refl _) D.cur D.xc rfl (fun _ _ a => a)
    · exact hdn t ht
  | look o =>
    simp only [step] at hs
    (repeat' split at hs) <;> cases hs <;> exact hdn t ht
  | delete d =>
    simp only [step] at hs
    (repeat' split at hs) <;> cases hs
    · exact (hdn t ht).keepRec d _ (fun e => e)
    · exact hdn t ht
  | exit u =>
    simp only [step] at hs
    split at hs
    case isFalse => cases hs
    rename_i hg
    have hne : s.done t = true → t ≠ u := fun ht e => by subst e; have := hcl _ hg.1; simp [ht] at this
    split at hs
    case h_2 => cases hs
    rename_i d hc
    split at hs
    · rename_i hst
      (repeat' split at hs) <;> cases hs
      · have D := (hdn t ht).keepRec d { (s.dat d).addRef with stage := .xclean } (fun e => by simp [hst] at e)
        exact D.keep (Nat.le_refl _) (by simp only [upd_ne (hne ht)]; exact D.cur) (by simp only [upd_ne (hne ht)]; exact D.xc) rfl (fun _ _ a => a)
      · have D := (hdn t ht).keepRec d { s.dat d with stage := .abandoned } (fun e => by simp [hst] at e)
        exact D.keep (Nat.le_refl _) (by simp only [upd_ne (hne ht)]; exact D.cur) D.xc rfl (fun _ _ a => a)
      · exact hdn t ht
    · cases hs
    · rename_i hst
      (repeat' split at hs) <;> cases hs
      · have D := (hdn t ht).keepRec d { s.dat d with stage := .clean } (fun e => by simp [hst] at e)
        exact D.keep (Nat.le_refl _) D.cur (by simp only [upd_ne (hne ht)]; exact D.xc) rfl (fun _ _ a => a)
      · exact hdn t ht
    · cases hs
  | finish u =>
    simp only [step] at hs
    split at hs <;> cases hs
    rename_i hg
    by_cases e : t = u
    · subst e
      have : t < s.nt := by have := hg.1; simp [client] at this; exact this.1.1
      exact ⟨this, hg.2.2.2, hg.2.2.1, hg.2.1⟩
    · simp only [upd_ne e] at ht
      exact ⟨(hdn t ht).lt, (hdn t ht).cur, (hdn t ht).xc, (hdn t ht).ret⟩

theorem unused_by {P : Plat} {s : State} {σ : Spec} {t : Nat} (h : Inv P s σ) (hr : returned s t = true) (hx : s.xc t = none) (hc : s.cur t = none) :
    ∀ d, d < σ.n → (σ.use d).by t = false := by
  intro d hd
  rw [h.n] at hd
  have L := h.loc d hd
  have g := h.gl d hd
  rw [L.use]
  cases hb : (useOf (s.dat d)).by t
  · rfl
  exfalso
  have hth : (s.dat d).thr = t := by
    cases hst : (s.dat d).stage <;> cases hl : (s.dat d).lib <;> simp [useOf, hst, hl, Use.by] at hb <;> exact hb
  have h1 : inCur (s.dat d).stage = false := by
    cases e : inCur (s.dat d).stage
    · rfl
    · have := g.cur e; rw [hth, hc] at this; cases this
  cases hl : (s.dat d).lib
  · have h2 : inXc (s.dat d).stage = false := by
      cases e : inXc (s.dat d).stage
      · rfl
      · have := g.xc hl e; rw [hth, hx] at this; cases this
    cases hst : (s.dat d).stage <;> simp [useOf, hst, hl, Use.by] at hb <;> simp [hst, inCur, inXc] at h1 h2
  · have hk := L.kind
    cases hst : (s.dat d).stage <;> simp [useOf, hst, hl, Use.by] at hb <;> simp [hst, inCur] at h1 <;> simp [kind, hst, hl] at hk
    have := g.lib hl (by simp [hst, spawnedS])
    rw [hth] at this
    simp [returned, this, hst] at hr

/-- What a step says about the end of threads. -/
theorem step_ends {P : Plat} {K : Nat} {s s' : State} {l : Label} {es : List Event} (hs : step P K s l = some (s', es)) :
    es.length ≤ 1 ∧ (∀ t, s.done t = true → s'.done t = true) ∧ (∀ t, .gone t ∈ es → s'.done t = true) ∧
    (∀ t d, .abandoned t d ∈ es → P = .posix ∧ K ≤ s.rounds t) ∧
    ((s'.rounds = s.rounds) ∨ ∃ t d, es = [.round t d] ∧ s'.rounds = upd s.rounds t (s.rounds t + 1)) := by
  cases l with
  | go d =>
    simp only [step] at hs
    split at hs
    case isFalse => cases hs
    have hgo : ∀ s₁ es₁, go P s d (s.dat d) = some (s₁, es₁) → es₁.length ≤ 1 ∧ s₁.done = s.done ∧ (∀ t, .gone t ∉ es₁) ∧ (∀ t d, .abandoned t d ∉ es₁) ∧ s₁.rounds = s.rounds := by
      intro s₁ es₁ hq
      unfold go at hq
      split at hq <;> cases hq <;> simp [setRec]
    split at hs
    · obtain ⟨h1, h2, h3, h4, h5⟩ := hgo _ _ hs
      exact ⟨h1, fun t ht => by rw [h2]; exact ht, fun t ht => absurd ht (h3 t), fun t d ht => absurd ht (h4 t d), Or.inl h5⟩
    · split at hs <;> cases hs
      simp
  | exit u =>
    simp only [step] at hs
    split at hs
    case isFalse => cases hs
    split at hs
    case h_2 => cases hs
    split at hs
    · split at hs
      · split at hs
        · cases hs
          refine ⟨by simp, fun t ht => ht, by simp, by simp, Or.inr ⟨_, _, rfl, rfl⟩⟩
        · rename_i hk
          cases hs
          refine ⟨by simp, fun t ht => ht, by simp, ?_, Or.inl rfl⟩
          intro t d hm
          simp only [List.mem_singleton] at hm
          cases hm
          exact ⟨rfl, by omega⟩
      · cases hs; simp
    · cases hs
    · split at hs <;> cases hs <;> simp [setRec]
    · cases hs
  | finish u =>
    simp only [step] at hs
    split at hs <;> cases hs
    refine ⟨by simp, ?_, ?_, by simp, Or.inl rfl⟩
    · intro t ht
      simp only [upd]; split
      · rfl
      · exact ht
    · intro t ht
      simp only [List.mem_singleton] at ht
      cases ht
      simp
  | spawn d ok t =>
    simp only [step] at hs
    (repeat' split at hs) <;> cases hs <;> simp [setRec, spawned]
  | ret d =>
    simp only [step] at hs
    split at hs
    · split at hs
      · split at hs <;> cases hs <;> simp [setRec]
      · cases hs
    · cases hs
  | _ =>
    simp only [step] at hs
    (repeat' split at hs) <;> cases hs <;> simp [setRec]

theorem accepts_append {σ₀ σ : Spec} {es es' : List Event} (hs : specState next σ₀ es = some σ) (h : Accepts next σ es') : Accepts next σ₀ (es ++ es') := by
  induction es generalizing σ₀ with
  | nil => simp only [specState, Option.some.injEq] at hs; subst hs; exact h
  | cons e es ih =>
    simp only [specState] at hs
    simp only [List.cons_append, Accepts]
    cases hn : next σ₀ e with
    | ok σ₁ => simp only [hn] at hs; exact ih hs
    | undefined => trivial
    | illegal => simp [hn] at hs

end Verif.Lifetime
