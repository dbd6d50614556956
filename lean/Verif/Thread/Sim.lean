import Verif.Thread.Lemmas
/-!
# Simulation for threads
-/

set_option linter.unusedSimpArgs false

namespace Verif.Thread

/-- The call of the specification a program point belongs to. -/
def Matches (p : PC) (k : Call) : Prop :=
  match p with
  | .idle => k = .idle
  | .checked o b => k = .join o b
  | .enter o _ b => k = .join o b
  | .wDone o _ b _ => k = .join o b
  | .wJoined o _ _ => ∃ b, k = .join o b
  | .nat o _ => ∃ b, k = .join o b
  | .setJ o _ => ∃ b, k = .join o b
  | .fin o _ => ∃ b, k = .join o b
  | .det t => k = .detach (some t)
  | .detA t d s => k = .asg (some t) d s
  | .asg d s => ∃ t, k = .asg t d s

def PC.uses (o : Nat) : PC → Bool
  | .checked o' _ => o' == o
  | .enter o' _ _ => o' == o
  | .wDone o' _ _ _ => o' == o
  | .wJoined o' _ _ => o' == o
  | .nat o' _ => o' == o
  | .setJ o' _ => o' == o
  | .fin o' _ => o' == o
  | .detA _ d s => d == o || s == o
  | .asg d s => d == o || s == o
  | _ => false

/-- The object and the thread of a join past its copy of the pointer. -/
def PC.joins : PC → Option (Nat × Nat)
  | .enter o t _ => some (o, t)
  | .wDone o t _ _ => some (o, t)
  | .wJoined o t _ => some (o, t)
  | .nat o t => some (o, t)
  | .setJ o t => some (o, t)
  | .fin o t => some (o, t)
  | _ => none

/-- … and past the start of the join proper. -/
def PC.late : PC → Option (Nat × Nat)
  | .nat o t => some (o, t)
  | .setJ o t => some (o, t)
  | .fin o t => some (o, t)
  | _ => none

def PC.detT : PC → Option Nat
  | .det t => some t
  | .detA t _ _ => some t
  | _ => none

theorem wake_uses (t o : Nat) (p : PC) : (p.wake t).uses o = p.uses o := by cases p <;> rfl
theorem wake_joins (t : Nat) (p : PC) : (p.wake t).joins = p.joins := by cases p <;> rfl
theorem wake_late (t : Nat) (p : PC) : (p.wake t).late = p.late := by cases p <;> rfl
theorem wake_detT (t : Nat) (p : PC) : (p.wake t).detT = p.detT := by cases p <;> rfl
theorem wake_matches (t : Nat) (p : PC) (k : Call) : Matches (p.wake t) k ↔ Matches p k := by cases p <;> rfl

theorem matches_uses {p : PC} {k : Call} (o : Nat) (h : Matches p k) : k.uses o = p.uses o := by
  cases p <;> simp only [Matches] at h <;> first | (subst h; rfl) | (obtain ⟨b, rfl⟩ := h; rfl)

theorem late_joins {p : PC} {x : Nat × Nat} (h : p.late = some x) : p.joins = some x := by cases p <;> simp_all [PC.late, PC.joins]
theorem joins_uses {p : PC} {o t : Nat} (h : p.joins = some (o, t)) : p.uses o = true := by cases p <;> simp_all [PC.uses, PC.joins]

/-- When clients do not use an object concurrently. -/
structure Excl (objs : Nat → Option Nat) (pc : Nat → PC) (js ok : Nat → Bool) : Prop where
  inj : ∀ o o' t, objs o = some t → objs o' = some t → o = o'
  holds : ∀ c o t, (pc c).joins = some (o, t) → objs o = some t
  excl : ∀ c c' o, (pc c).uses o = true → (pc c').uses o = true → c = c'
  ok : ∀ t, ok t = true → ∀ o, objs o ≠ some t
  started : ∀ o t, objs o = some t → js t = true → ∃ c, (pc c).late = some (o, t)
  det : ∀ c t, (pc c).detT = some t → js t = false ∧ ∀ o, objs o ≠ some t
  detU : ∀ c c' t, (pc c).detT = some t → (pc c').detT = some t → c = c'

/-- The program point of one thread changes. -/
theorem Excl.move {objs : Nat → Option Nat} {pc : Nat → PC} {js ok : Nat → Bool} {c : Nat} {p : PC} (h : Excl objs pc js ok)
    (h1 : ∀ o t, p.joins = some (o, t) → objs o = some t)
    (h2 : ∀ o, p.uses o = true → ∀ c', c' ≠ c → (pc c').uses o = false)
    (h3 : ∀ o t, (pc c).late = some (o, t) → objs o = some t → p.late = some (o, t))
    (h4 : ∀ t, p.detT = some t → js t = false ∧ (∀ o, objs o ≠ some t) ∧ ∀ c', c' ≠ c → (pc c').detT ≠ some t) :
    Excl objs (upd pc c p) js ok := by
  obtain ⟨a1, a2, a3, a4, a5, a6, a7⟩ := h
  refine ⟨a1, ?_, ?_, a4, ?_, ?_, ?_⟩
  · intro c' o t; simp only [upd_apply]; split
    · exact h1 o t
    · exact a2 c' o t
  · intro c₁ c₂ o; simp only [upd_apply]
    intro e1 e2
    by_cases x1 : c₁ = c <;> by_cases x2 : c₂ = c <;> simp only [x1, x2, if_true, if_false] at e1 e2
    · rw [x1, x2]
    · rw [h2 o e1 c₂ x2] at e2; cases e2
    · rw [h2 o e2 c₁ x1] at e1; cases e1
    · exact a3 c₁ c₂ o e1 e2
  · intro o t e1 e2
    obtain ⟨c', hc'⟩ := a5 o t e1 e2
    by_cases x : c' = c
    · subst x; exact ⟨c', by simp only [upd_apply, if_true]; exact h3 o t hc' e1⟩
    · exact ⟨c', by simp only [upd_apply, x, if_false]; exact hc'⟩
  · intro c' t; simp only [upd_apply]; split
    · intro e; exact ⟨(h4 t e).1, (h4 t e).2.1⟩
    · exact a6 c' t
  · intro c₁ c₂ t; simp only [upd_apply]
    intro e1 e2
    by_cases x1 : c₁ = c <;> by_cases x2 : c₂ = c <;> simp only [x1, x2, if_true, if_false] at e1 e2
    · rw [x1, x2]
    · exact absurd e2 ((h4 t e1).2.2 c₂ x2)
    · exact absurd e1 ((h4 t e2).2.2 c₁ x1)
    · exact a7 c₁ c₂ t e1 e2

/-- Within a call the uses of objects and the join do not change. -/
theorem Excl.within {objs : Nat → Option Nat} {pc : Nat → PC} {js ok : Nat → Bool} {c : Nat} {p : PC} (h : Excl objs pc js ok)
    (h1 : p.joins = (pc c).joins ∨ p.joins = none) (h2 : ∀ o, p.uses o = true → (pc c).uses o = true) (h3 : (pc c).late = none ∨ p.late = (pc c).late)
    (h4 : p.detT = none) : Excl objs (upd pc c p) js ok := by
  apply h.move
  · intro o t e
    rcases h1 with h1 | h1 <;> rw [h1] at e
    · exact h.holds c o t e
    · cases e
  · intro o e c' hc'
    cases hu : (pc c').uses o with
    | false => rfl
    | true => exact absurd (h.excl c' c o hu (h2 o e)) hc'
  · intro o t e _
    rcases h3 with h3 | h3
    · rw [h3] at e; cases e
    · rw [h3]; exact e
  · intro t e; rw [h4] at e; cases e

structure R (strict : Bool) (s : State) (σ : Sys) : Prop where
  inv : Inv s
  n : σ.n = s.n
  slots : σ.slots = s.objs
  fin : ∀ i, (σ.thr i).fin = decide (2 ≤ (s.thr i).phase.rank)
  rel : ∀ i, (σ.thr i).rel = (s.thr i).native
  call : ∀ i, Matches (s.thr i).pc (σ.thr i).call
  excl : strict = true → Excl s.objs (fun i => (s.thr i).pc) (fun i => (s.thr i).joinStarted) (fun i => (σ.thr i).ok)
  asg : strict = true → ∀ i d src t, (s.thr i).pc = .asg d src → (σ.thr i).call = .asg t d src → ∀ u ∈ t, (s.thr u).native = true

theorem R_init (strict : Bool) : R strict {} {} := by
  refine ⟨Inv_init, rfl, rfl, ?_, ?_, ?_, ?_, ?_⟩
  · intro i; simp only; split <;> simp [Phase.rank]
  · intro i; simp only; split <;> rfl
  · intro i; simp only; split <;> rfl
  · intro _
    have e : ∀ i, ((if i = 0 then ({ phase := .running } : Thr) else {}).pc) = .idle := by intro i; split <;> rfl
    constructor <;> intros <;> simp_all [PC.joins, PC.uses, PC.detT]
  · intro _ i d src t h
    have e : ((if i = 0 then ({ phase := .running } : Thr) else {}).pc) = .idle := by split <;> rfl
    rw [e] at h; cases h

theorem follows_one {strict : Bool} {cfg : Cfg} {P : Sys → Prop} {σ σ' : Sys} {e : Event} (h : next strict cfg σ e = .ok σ') (hp : P σ') :
    Follows (next strict cfg) P σ [e] := by simp [Follows, h, hp]

theorem not_busy {strict : Bool} {s : State} {σ : Sys} (hR : R strict s σ) {o : Nat} (h : σ.busy o = false) (c : Nat) : (s.thr c).pc.uses o = false := by
  rw [← matches_uses o (hR.call c)]
  by_cases hc : c < σ.n
  · simp only [Sys.busy, List.any_eq_false, List.mem_range] at h
    simpa using h c hc
  · have := hR.inv.fresh c (by rw [← hR.n]; omega)
    rw [matches_uses o (hR.call c), this]; rfl

/-- Only the program point of one thread changes, and the call of the specification accordingly. -/
theorem R.move {strict : Bool} {s : State} {σ : Sys} {c : Nat} {p : PC} {k : Call} (hR : R strict s σ) (hi : Inv (s.setPc c p)) (hm : Matches p k)
    (he : strict = true → Excl s.objs (upd (fun i => (s.thr i).pc) c p) (fun i => (s.thr i).joinStarted) (fun i => (σ.thr i).ok))
    (ha : strict = true → ∀ d src t, p = .asg d src → k = .asg t d src → ∀ u ∈ t, (s.thr u).native = true) : R strict (s.setPc c p) (σ.setCall c k) := by
  obtain ⟨b1, b2, b3, b4, b5, b6, b7, b8⟩ := hR
  refine ⟨hi, b2, b3, ?_, ?_, ?_, ?_, ?_⟩
  · intro i; have := b4 i; simp only [Sys.setCall, upd_apply, setPc_thr]; split <;> simp_all
  · intro i; have := b5 i; simp only [Sys.setCall, upd_apply, setPc_thr]; split <;> simp_all
  · intro i; have := b6 i; simp only [Sys.setCall, upd_apply, setPc_thr]; split <;> simp_all
  · intro hs
    have e1 : (fun i => ((s.setPc c p).thr i).pc) = upd (fun i => (s.thr i).pc) c p := by
      funext i; simp only [setPc_thr, upd_apply]; split <;> rfl
    have e2 : (fun i => ((s.setPc c p).thr i).joinStarted) = fun i => (s.thr i).joinStarted := by
      funext i; simp only [setPc_thr]; split <;> simp_all
    have e3 : (fun i => ((σ.setCall c k).thr i).ok) = fun i => (σ.thr i).ok := by
      funext i; simp only [Sys.setCall, upd_apply]; split <;> simp_all
    rw [e1, e2, e3]; exact he hs
  · intro hs i d src t h1 h2 u hu
    have e : ((s.setPc c p).thr u).native = (s.thr u).native := by simp only [setPc_thr]; split <;> simp_all
    rw [e]
    simp only [Sys.setCall, upd_apply, setPc_thr] at h1 h2
    by_cases hic : i = c
    · simp only [hic, if_true] at h1 h2; exact ha hs d src t h1 h2 u hu
    · simp only [hic, if_false] at h1 h2; exact b8 hs i d src t h1 h2 u hu

/-- …or does not change the call. -/
theorem R.stay {strict : Bool} {s : State} {σ : Sys} {c : Nat} {p : PC} (hR : R strict s σ) (hi : Inv (s.setPc c p)) (hm : Matches p (σ.thr c).call)
    (he : strict = true → Excl s.objs (upd (fun i => (s.thr i).pc) c p) (fun i => (s.thr i).joinStarted) (fun i => (σ.thr i).ok))
    (ha : strict = true → ∀ d src t, p = .asg d src → (σ.thr c).call = .asg t d src → ∀ u ∈ t, (s.thr u).native = true) : R strict (s.setPc c p) σ := by
  have := hR.move (k := (σ.thr c).call) hi hm he ha
  have e : σ.setCall c (σ.thr c).call = σ := by
    cases σ; simp only [Sys.setCall, Sys.mk.injEq, true_and, and_true]
    funext i; simp only [upd_apply]; split
    · rename_i h; subst h; rfl
    · rfl
  rwa [e] at this

theorem R.afterDone {strict : Bool} {s : State} {σ : Sys} {c o t : Nat} (hR : R strict s σ) (hj : (s.thr c).pc.joins = some (o, t)) (hl : (s.thr c).pc.late = none)
    (hi : Inv (afterDone s c o t)) (hm : ∃ b, (σ.thr c).call = .join o b) : R strict (afterDone s c o t) σ := by
  revert hi
  simp only [Thread.afterDone]
  split
  · split
    · intro hi
      refine hR.stay hi hm (fun hs => ?_) (by simp)
      -- with exclusive use nobody else can have started to join
      refine ((hR.excl hs).move ?_ ?_ ?_ ?_)
      · intro o' t' e; simp only [PC.joins, Option.some.injEq, Prod.mk.injEq] at e; obtain ⟨rfl, rfl⟩ := e; exact (hR.excl hs).holds c _ _ hj
      · intro o' e c' hc'
        simp only [PC.uses, beq_iff_eq] at e; subst e
        cases hu : (s.thr c').pc.uses o with
        | false => rfl
        | true => exact absurd ((hR.excl hs).excl c' c o hu (joins_uses hj)) hc'
      · intro o' t' e; rw [hl] at e; cases e
      · intro t' e; cases e
    · intro hi
      refine hR.stay hi hm (fun hs => ?_) (by simp)
      exact (hR.excl hs).within (.inl hj.symm) (by intro o' e; simp only [PC.uses, beq_iff_eq] at e; subst e; exact joins_uses hj) (.inl hl) rfl
  · rename_i hs0
    intro hi
    have hj' := hj
    obtain ⟨b1, b2, b3, b4, b5, b6, b7, b8⟩ := hR
    refine ⟨hi, b2, b3, ?_, ?_, ?_, ?_, ?_⟩
    · intro i; have := b4 i; simp only [upd_apply, setPc_thr]; split <;> (try split) <;> simp_all
    · intro i; have := b5 i; simp only [upd_apply, setPc_thr]; split <;> (try split) <;> simp_all
    · intro i; have := b6 i; simp only [upd_apply, setPc_thr]; split
      · rename_i e; subst e; exact hm
      · split <;> simp_all
    · intro hs
      have hx := b7 hs
      have e1 : (fun i => (({ s with thr := upd s.thr t { s.thr t with joinStarted := true } }.setPc c (.nat o t)).thr i).pc) = upd (fun i => (s.thr i).pc) c (.nat o t) := by
        funext i; simp only [setPc_thr, upd_apply]; split <;> (try split) <;> simp_all
      have e2 : (fun i => (({ s with thr := upd s.thr t { s.thr t with joinStarted := true } }.setPc c (.nat o t)).thr i).joinStarted) = upd (fun i => (s.thr i).joinStarted) t true := by
        funext i; simp only [setPc_thr, upd_apply]; split <;> (try split) <;> simp_all
      rw [e1, e2]
      have hot := hx.holds c o t hj
      obtain ⟨a1, a2, a3, a4, a5, a6, a7⟩ := hx.within (p := .nat o t) (.inl hj.symm) (by intro o' e; simp only [PC.uses, beq_iff_eq] at e; subst e; exact joins_uses hj) (.inl hl) rfl
      refine ⟨a1, a2, a3, a4, ?_, ?_, a7⟩
      · intro o' t' h1 h2
        by_cases e : t' = t
        · subst e
          have : o' = o := a1 _ _ _ h1 hot
          subst this
          exact ⟨c, by simp [upd_apply, PC.late]⟩
        · simp only [upd_apply, e, if_false] at h2
          exact a5 o' t' h1 h2
      · intro c' t' h
        have := a6 c' t' h
        refine ⟨?_, this.2⟩
        simp only [upd_apply]; split
        · rename_i e; subst e; exact absurd hot (this.2 o)
        · exact this.1
    · intro hs i d src t' h1 h2 u hu
      have e : (({ s with thr := upd s.thr t { s.thr t with joinStarted := true } }.setPc c (.nat o t)).thr u).native = (s.thr u).native := by
        simp only [setPc_thr, upd_apply]; split <;> (try split) <;> simp_all
      rw [e]
      refine b8 hs i d src t' ?_ h2 u hu
      simp only [setPc_thr, upd_apply] at h1
      split at h1
      · cases h1
      · split at h1 <;> simp_all

theorem R.eval {strict : Bool} {s : State} {σ : Sys} {c o t : Nat} {timed : Bool} (hR : R strict s σ) (hj : (s.thr c).pc.joins = some (o, t)) (hl : (s.thr c).pc.late = none)
    (hi : Inv (eval s c o t timed)) (hm : (σ.thr c).call = .join o timed) : R strict (eval s c o t timed) σ := by
  revert hi
  simp only [Thread.eval]
  split
  · intro hi; exact hR.afterDone hj hl hi ⟨_, hm⟩
  · intro hi
    exact hR.stay hi hm (fun hs => (hR.excl hs).within (.inl hj.symm) (by intro o' e; simp only [PC.uses, beq_iff_eq] at e; subst e; exact joins_uses hj) (.inl hl) rfl) (by simp)

theorem R.waitJoined {strict : Bool} {s : State} {σ : Sys} {c o t : Nat} {w : Bool} (hR : R strict s σ) (hp : (s.thr c).pc = .wJoined o t w) :
    R strict (if (s.thr t).joined then s.setPc c (.fin o t) else s.setPc c (.wJoined o t false)) σ := by
  have hi := waitJoined_inv hR.inv hp
  have hm := hR.call c
  rw [hp] at hm
  revert hi
  split <;> intro hi <;> refine hR.stay hi hm (fun hs => ?_) (by simp) <;>
    exact (hR.excl hs).within (.inl (by simp [hp, PC.joins])) (by simp [hp, PC.uses]) (.inl (by simp [hp, PC.late])) rfl

/-- The objects nobody uses are exchanged or emptied. -/
theorem Excl.objects {objs objs' : Nat → Option Nat} {pc : Nat → PC} {js ok : Nat → Bool} (h : Excl objs pc js ok)
    (h1 : ∀ o o' t, objs' o = some t → objs' o' = some t → o = o')
    (h2 : ∀ c o, (pc c).uses o = true → objs' o = objs o)
    (h3 : ∀ o t, objs' o = some t → ∃ o', objs o' = some t ∧ (o' = o ∨ ∀ c, (pc c).uses o' = false)) : Excl objs' pc js ok := by
  obtain ⟨a1, a2, a3, a4, a5, a6, a7⟩ := h
  refine ⟨h1, ?_, a3, ?_, ?_, ?_, a7⟩
  · intro c o t e; rw [h2 c o (joins_uses e)]; exact a2 c o t e
  · intro t e o e2
    obtain ⟨o', h4, -⟩ := h3 o t e2
    exact a4 t e o' h4
  · intro o t e e2
    obtain ⟨o', h4, h5⟩ := h3 o t e
    obtain ⟨c, hc⟩ := a5 o' t h4 e2
    rcases h5 with rfl | h5
    · exact ⟨c, hc⟩
    · have := joins_uses (late_joins hc); rw [h5 c] at this; cases this
  · intro c t e
    refine ⟨(a6 c t e).1, ?_⟩
    intro o e2
    obtain ⟨o', h4, -⟩ := h3 o t e2
    exact (a6 c t e).2 o' h4

theorem Excl.wake {objs : Nat → Option Nat} {pc : Nat → PC} {js ok : Nat → Bool} (t : Nat) (h : Excl objs pc js ok) : Excl objs (fun i => (pc i).wake t) js ok := by
  obtain ⟨a1, a2, a3, a4, a5, a6, a7⟩ := h
  exact ⟨a1, by simpa only [wake_joins] using a2, by simpa only [wake_uses] using a3, a4, by simpa only [wake_late] using a5, by simpa only [wake_detT] using a6,
    by simpa only [wake_detT] using a7⟩

theorem Excl.setJs {objs : Nat → Option Nat} {pc : Nat → PC} {js ok : Nat → Bool} {t : Nat} (h : Excl objs pc js ok) (h1 : ∀ o, objs o ≠ some t)
    (h2 : ∀ c, (pc c).detT ≠ some t) : Excl objs pc (upd js t true) ok := by
  obtain ⟨a1, a2, a3, a4, a5, a6, a7⟩ := h
  refine ⟨a1, a2, a3, a4, ?_, ?_, a7⟩
  · intro o u e e2
    simp only [upd_apply] at e2
    split at e2
    · rename_i x; subst x; exact absurd e (h1 o)
    · exact a5 o u e e2
  · intro c u e
    have := a6 c u e
    simp only [upd_apply]
    refine ⟨?_, this.2⟩
    split
    · rename_i x; subst x; exact absurd e (h2 c)
    · exact this.1

/-- A join succeeds. -/
theorem Excl.finish {objs : Nat → Option Nat} {pc : Nat → PC} {js ok : Nat → Bool} {c o t : Nat} (h : Excl objs pc js ok) (hp : (pc c).joins = some (o, t)) :
    Excl (upd objs o none) (upd pc c .idle) js (upd ok t true) := by
  obtain ⟨a1, a2, a3, a4, a5, a6, a7⟩ := h
  have hot := a2 c o t hp
  have hu := joins_uses hp
  have hne : ∀ c' o', c' ≠ c → (pc c').uses o' = true → o' ≠ o := by
    rintro c' o' hc hc' rfl; exact hc (a3 c' c o' hc' hu)
  refine ⟨?_, ?_, ?_, ?_, ?_, ?_, ?_⟩
  · intro o₁ o₂ u; simp only [upd_apply]; intro e1 e2
    split at e1
    · cases e1
    · split at e2
      · cases e2
      · exact a1 _ _ _ e1 e2
  · intro c' o' u; simp only [upd_apply]
    split
    · simp [PC.joins]
    · rename_i hc
      intro e
      rw [if_neg (hne c' o' hc (joins_uses e))]
      exact a2 c' o' u e
  · intro c₁ c₂ o'; simp only [upd_apply]
    split
    · simp [PC.uses]
    · split
      · simp [PC.uses]
      · exact a3 c₁ c₂ o'
  · intro u; simp only [upd_apply]
    split
    · rename_i e; subst e
      intro _ o'
      split
      · simp
      · rename_i ho; intro e; exact ho (a1 _ _ _ e hot)
    · intro e o'
      split
      · simp
      · exact a4 u e o'
  · intro o' u; simp only [upd_apply]
    intro e1 e2
    split at e1
    · cases e1
    · rename_i ho
      obtain ⟨c', hc'⟩ := a5 o' u e1 e2
      refine ⟨c', ?_⟩
      split
      · rename_i hcc; subst hcc
        have := late_joins hc'; rw [hp] at this; cases this; exact absurd rfl ho
      · exact hc'
  · intro c' u; simp only [upd_apply]
    split
    · simp [PC.detT]
    · intro e
      refine ⟨(a6 c' u e).1, ?_⟩
      intro o'
      split
      · simp
      · exact (a6 c' u e).2 o'
  · intro c₁ c₂ u; simp only [upd_apply]
    split
    · simp [PC.detT]
    · split
      · simp [PC.detT]
      · exact a7 c₁ c₂ u

/-- A thread is started. -/
theorem Excl.start {objs : Nat → Option Nat} {pc : Nat → PC} {js ok : Nat → Bool} {o n : Nat} (h : Excl objs pc js ok) (hn : ∀ o', objs o' ≠ some n)
    (hu : ∀ c, (pc c).uses o = false) (hd : ∀ c, (pc c).detT ≠ some n) : Excl (upd objs o (some n)) pc (upd js n false) (upd ok n false) := by
  obtain ⟨a1, a2, a3, a4, a5, a6, a7⟩ := h
  refine ⟨?_, ?_, a3, ?_, ?_, ?_, a7⟩
  · intro o₁ o₂ u; simp only [upd_apply]; intro e1 e2
    by_cases x1 : o₁ = o <;> by_cases x2 : o₂ = o <;> simp only [x1, x2, if_true, if_false] at e1 e2
    · rw [x1, x2]
    · cases e1; exact absurd e2 (hn _)
    · cases e2; exact absurd e1 (hn _)
    · exact a1 _ _ _ e1 e2
  · intro c o' u e
    have := joins_uses e
    have ho : o' ≠ o := by rintro rfl; rw [hu c] at this; cases this
    simp only [upd_apply, if_neg ho]; exact a2 c o' u e
  · intro u; simp only [upd_apply]
    split
    · simp
    · rename_i hun
      intro e o'
      split
      · intro e2; cases e2; exact hun rfl
      · exact a4 u e o'
  · intro o' u; simp only [upd_apply]
    intro e1 e2
    split at e2
    · cases e2
    · rename_i hun
      split at e1
      · cases e1; exact absurd rfl hun
      · exact a5 o' u e1 e2
  · intro c u e
    have := a6 c u e
    have hun : u ≠ n := by rintro rfl; exact hd c e
    simp only [upd_apply, if_neg hun]
    refine ⟨this.1, ?_⟩
    intro o'
    split
    · intro e2; cases e2; exact hun rfl
    · exact this.2 o'

theorem R.objects {strict : Bool} {s : State} {σ : Sys} {f : Nat → Option Nat} (hR : R strict s σ) (hi : Inv { s with objs := f })
    (he : strict = true → Excl f (fun i => (s.thr i).pc) (fun i => (s.thr i).joinStarted) (fun i => (σ.thr i).ok)) :
    R strict { s with objs := f } { σ with slots := f } :=
  ⟨hi, hR.n, rfl, hR.fin, hR.rel, hR.call, he, hR.asg⟩

theorem strict_busy {strict b : Bool} (h : ¬ (strict && b) = true) (hs : strict = true) : b = false := by
  subst hs; simpa using h

theorem R.notSlot {strict : Bool} {s : State} {σ : Sys} (hR : R strict s σ) (o : Nat) : s.objs o ≠ some s.n := by
  intro h; exact Nat.lt_irrefl _ (hR.inv.objs o _ h)

/-- Emptying an object nobody uses, and taking its thread along. -/
theorem take_excl {strict : Bool} {s : State} {σ : Sys} {c o t : Nat} {p : PC} (hR : R strict s σ) (hs : strict = true) (hb : σ.busy o = false) (ho : s.objs o = some t)
    (hi : (s.thr c).pc = .idle) (hj : p.joins = none) (hd : p.detT = some t) (hu : ∀ o', p.uses o' = true → ∀ c', (s.thr c').pc.uses o' = false) :
    Excl (upd s.objs o none) (upd (fun i => (s.thr i).pc) c p) (fun i => (s.thr i).joinStarted) (fun i => (σ.thr i).ok) := by
  have hx := hR.excl hs
  have hn := not_busy hR hb
  have h1 : Excl (upd s.objs o none) (fun i => (s.thr i).pc) (fun i => (s.thr i).joinStarted) (fun i => (σ.thr i).ok) := by
    refine hx.objects ?_ ?_ ?_
    · intro o₁ o₂ u; simp only [upd_apply]; intro e1 e2
      split at e1
      · cases e1
      · split at e2
        · cases e2
        · exact hx.inj _ _ _ e1 e2
    · intro c' o' e
      have : o' ≠ o := by rintro rfl; rw [hn c'] at e; cases e
      simp [upd_apply, this]
    · intro o' u; simp only [upd_apply]
      split
      · simp
      · exact fun e => ⟨o', e, .inl rfl⟩
  refine h1.move ?_ ?_ ?_ ?_
  · intro _ _ e; rw [hj] at e; cases e
  · intro o' e c' _; exact hu o' e c'
  · intro _ _ e; rw [hi] at e; cases e
  · intro u e
    rw [hd] at e; cases e
    refine ⟨?_, ?_, ?_⟩
    · cases hjs : (s.thr t).joinStarted with
      | false => rfl
      | true =>
        obtain ⟨c', hc'⟩ := hx.started o t ho hjs
        have := joins_uses (late_joins hc')
        rw [hn c'] at this; cases this
    · intro o'; simp only [upd_apply]; split
      · simp
      · rename_i h; intro e; exact h (hx.inj _ _ _ e ho)
    · intro c' _ e; exact (hx.det c' t e).2 o ho

/-- Moving a thread from one unused object to another. -/
theorem move_excl {strict : Bool} {s : State} {σ : Sys} {d src : Nat} (hR : R strict s σ) (hst : strict = true) (hd : σ.busy d = false) (hs : σ.busy src = false) :
    Excl (upd (upd s.objs d (s.objs src)) src none) (fun i => (s.thr i).pc) (fun i => (s.thr i).joinStarted) (fun i => (σ.thr i).ok) := by
  have h1 := not_busy hR hd
  have h2 := not_busy hR hs
  have hx := hR.excl hst
  refine hx.objects ?_ ?_ ?_
  · intro o₁ o₂ u e1 e2
    have := hx.inj
    grind
  · intro c' o' e
    have : o' ≠ d := by rintro rfl; rw [h1 c'] at e; cases e
    have : o' ≠ src := by rintro rfl; rw [h2 c'] at e; cases e
    grind
  · intro o' u e
    simp only [upd_apply] at e
    split at e
    · cases e
    · split at e
      · exact ⟨src, e, .inr h2⟩
      · exact ⟨o', e, .inl rfl⟩

theorem detach_follows {strict : Bool} {cfg : Cfg} {s s' : State} {σ : Sys} {c o : Nat} {es : List Event} (hR : R strict s σ)
    (_hp : (s.thr c).phase = .running) (hi : (s.thr c).pc = .idle) (hinv : Inv s') (hcall : (σ.thr c).call = .idle)
    (hs : call cfg s c (.detach o) = some (s', es)) : Follows (next strict cfg) (R strict s') σ es := by
  simp only [call] at hs
  cases ho : s.objs o with
  | none =>
    rw [ho] at hs
    simp only [Option.some.injEq, Prod.mk.injEq] at hs; obtain ⟨rfl, rfl⟩ := hs
    simp only [Follows, next]
    split
    · rename_i x; split at x
      · cases x
      · cases x
        rw [hR.slots, ho]
        simp only [Sys.setCall, upd_apply, if_true]
        rw [if_pos (by simp)]
        simp only
        have e : ({ n := σ.n, slots := upd s.objs o none, thr := upd (upd σ.thr c { σ.thr c with call := .detach none }) c { σ.thr c with call := .idle } } : Sys) = σ := by
          cases σ
          simp only [Sys.mk.injEq, true_and, and_true]
          refine ⟨?_, ?_⟩
          · have := hR.slots; simp only at this; rw [this]
            funext j; simp only [upd_apply]; split
            · rename_i e; rw [e, ho]
            · rfl
          · funext j; simp only [upd_apply]; split
            · rename_i e; subst e; simp only at hcall; rw [← hcall]
            · rfl
        rw [e]; exact hR
    · trivial
    · rename_i x; split at x <;> cases x
  | some t =>
    rw [ho] at hs
    simp only [Option.some.injEq, Prod.mk.injEq] at hs; obtain ⟨rfl, rfl⟩ := hs
    simp only [Follows, next]
    split
    · rename_i x; split at x
      · cases x
      · rename_i hb
        cases x
        have hkeep := hR
        obtain ⟨b1, b2, b3, b4, b5, b6, b7, b8⟩ := hR
        rw [b3, ho]
        refine ⟨hinv, b2, rfl, ?_, ?_, ?_, ?_, ?_⟩
        · intro i; have := b4 i; simp only [Sys.setCall, upd_apply, setPc_thr]; split <;> simp_all
        · intro i; have := b5 i; simp only [Sys.setCall, upd_apply, setPc_thr]; split <;> simp_all
        · intro i; have := b6 i; simp only [Sys.setCall, upd_apply, setPc_thr]; split <;> simp_all [Matches]
        · intro hst
          have := take_excl (p := .det t) hkeep hst (strict_busy hb hst) ho hi rfl rfl (by simp [PC.uses])
          have e1 : (fun i => (({ s with objs := upd s.objs o none }.setPc c (.det t)).thr i).pc) = upd (fun i => (s.thr i).pc) c (.det t) := by
            funext i; simp only [setPc_thr, upd_apply]; split <;> rfl
          have e2 : (fun i => (({ s with objs := upd s.objs o none }.setPc c (.det t)).thr i).joinStarted) = fun i => (s.thr i).joinStarted := by
            funext i; simp only [setPc_thr]; split <;> simp_all
          have e3 : (fun i => (upd σ.thr c { σ.thr c with call := Call.detach (some t) } i).ok) = fun i => (σ.thr i).ok := by
            funext i; simp only [upd_apply]; split <;> simp_all
          simp only [Sys.setCall]
          rw [e1, e2, e3]
          exact this
        · intro hst i d src t' h1 h2 u hu
          simp only [Sys.setCall, setPc_thr, upd_apply] at h1 h2 ⊢
          split at h1
          · cases h1
          · rename_i hic
            simp only [hic, if_false] at h2
            have := b8 hst i d src t' h1 h2 u hu
            split <;> simp_all
    · trivial
    · rename_i x; split at x <;> cases x

theorem call_follows {strict : Bool} {cfg : Cfg} {s s' : State} {σ : Sys} {c : Nat} {op : Op} {es : List Event} (hR : R strict s σ)
    (hp : (s.thr c).phase = .running) (hi : (s.thr c).pc = .idle) (hs : call cfg s c op = some (s', es)) : Follows (next strict cfg) (R strict s') σ es := by
  have hinv := call_inv hR.inv hp hi hs
  have hcall : (σ.thr c).call = .idle := by have := hR.call c; rw [hi] at this; exact this
  cases op with
  | start o k =>
    simp only [call] at hs
    split at hs
    · cases hs
    · rename_i ho
      simp only [ne_eq, Decidable.not_not] at ho
      cases k <;> simp only [Option.some.injEq, Prod.mk.injEq] at hs <;> obtain ⟨rfl, rfl⟩ := hs
      · simp only [Follows, next]; split
        · rename_i x; split at x <;> simp_all
        · trivial
        · rename_i x; split at x <;> simp_all
      · simp only [Follows, next]
        split
        · rename_i σ' x
          split at x
          · cases x
          · rename_i hb
            rw [if_pos ⟨hR.n.symm, by rw [hR.slots]; exact ho⟩] at x
            cases x
            obtain ⟨b1, b2, b3, b4, b5, b6, b7, b8⟩ := hR
            refine ⟨hinv, by simp [b2], by simp [b3, b2], ?_, ?_, ?_, ?_, ?_⟩
            · intro i; have := b4 i; simp only [upd_apply, b2]; split <;> simp_all [Phase.rank]
            · intro i; have := b5 i; simp only [upd_apply, b2]; split <;> simp_all
            · intro i; have := b6 i; simp only [upd_apply, b2]; split <;> simp_all [Matches]
            · intro hst
              have hx := b7 hst
              have hn := not_busy ⟨b1, b2, b3, b4, b5, b6, b7, b8⟩ (strict_busy hb hst)
              have hfr := b1.fresh s.n (Nat.le_refl _)
              have e1 : (fun i => (upd s.thr s.n { phase := Phase.running } i).pc) = fun i => (s.thr i).pc := by
                funext i; simp only [upd_apply]; split
                · rename_i e; rw [e, hfr]
                · rfl
              have e2 : (fun i => (upd s.thr s.n { phase := Phase.running } i).joinStarted) = upd (fun i => (s.thr i).joinStarted) s.n false := by
                funext i; simp only [upd_apply]; split <;> rfl
              have e3 : (fun i => (upd σ.thr s.n {} i).ok) = upd (fun i => (σ.thr i).ok) s.n false := by
                funext i; simp only [upd_apply]; split <;> rfl
              simp only
              rw [e1, e2, e3]
              refine hx.start (fun o' h => Nat.lt_irrefl _ (b1.objs o' _ h)) hn ?_
              intro c' h
              have := b1.tgt c' s.n (by revert h; cases (s.thr c').pc <;> simp [PC.detT, PC.tgt])
              omega
            · intro hst i d src t h1 h2 u hu
              have := b8 hst i d src t
              simp only [upd_apply, b2] at h1 h2 ⊢
              split at h1
              · cases h1
              · rename_i hin
                simp only [hin, if_false] at h2
                have := this h1 h2 u hu
                split
                · rename_i e; rw [e, b1.fresh s.n (Nat.le_refl _)] at this; cases this
                · exact this
        · trivial
        · rename_i x
          split at x
          · cases x
          · rw [if_pos ⟨hR.n.symm, by rw [hR.slots]; exact ho⟩] at x; cases x
      · refine follows_one (by simp only [next]; rw [if_pos hR.n.symm]) ?_
        obtain ⟨b1, b2, b3, b4, b5, b6, b7, b8⟩ := hR
        refine ⟨hinv, by simp [b2], b3, ?_, ?_, ?_, ?_, ?_⟩
        · intro i; have := b4 i; simp only [upd_apply, b2]; split <;> simp_all [Phase.rank]
        · intro i; have := b5 i; simp only [upd_apply, b2]; split <;> simp_all
        · intro i; have := b6 i; simp only [upd_apply, b2]; split <;> simp_all [Matches]
        · intro hst
          have hx := b7 hst
          have hfr := b1.fresh s.n (Nat.le_refl _)
          have e1 : (fun i => (upd s.thr s.n { phase := Phase.running, native := true, joinStarted := true, joined := true } i).pc) = fun i => (s.thr i).pc := by
            funext i; simp only [upd_apply]; split
            · rename_i e; rw [e, hfr]
            · rfl
          have e2 : (fun i => (upd s.thr s.n { phase := Phase.running, native := true, joinStarted := true, joined := true } i).joinStarted) = upd (fun i => (s.thr i).joinStarted) s.n true := by
            funext i; simp only [upd_apply]; split <;> rfl
          simp only
          rw [e1, e2]
          have hx' := hx.setJs (t := s.n) (fun o' h => Nat.lt_irrefl _ (b1.objs o' _ h)) (by
            intro c' h
            have := b1.tgt c' s.n (by revert h; cases (s.thr c').pc <;> simp [PC.detT, PC.tgt])
            omega)
          obtain ⟨a1, a2, a3, a4, a5, a6, a7⟩ := hx'
          refine ⟨a1, a2, a3, ?_, a5, a6, a7⟩
          intro t; simp only [upd_apply, b2]; split
          · simp
          · exact a4 t
        · intro hst i d src t h1 h2 u hu
          have := b8 hst i d src t
          simp only [upd_apply, b2] at h1 h2 ⊢
          split at h1
          · cases h1
          · rename_i hin
            simp only [hin, if_false] at h2
            have := this h1 h2 u hu
            split
            · rfl
            · exact this
  | join o timed =>
    simp only [call] at hs
    split at hs <;> simp only [Option.some.injEq, Prod.mk.injEq] at hs <;> obtain ⟨rfl, rfl⟩ := hs
    · rename_i ho
      simp only [Follows, next]
      rw [hR.slots, if_pos ho]
      split
      · rename_i x; split at x
        · cases x
        · cases x; exact hR
      · trivial
      · rename_i x; split at x
        · cases x
        · cases x
    · rename_i ho
      simp only [Follows, next]
      split
      · rename_i x
        split at x
        · cases x
        · rename_i hb
          rw [if_neg (by rw [hR.slots]; exact ho)] at x
          cases x
          refine hR.move hinv rfl (fun hst => ?_) (by simp)
          have hn := not_busy hR (strict_busy hb hst)
          exact (hR.excl hst).move (by simp [PC.joins]) (by intro o' e c' _; simp only [PC.uses, beq_iff_eq] at e; subst e; exact hn c')
            (by intro o' t e; rw [hi] at e; cases e) (by simp [PC.detT])
      · trivial
      · rename_i x
        split at x
        · cases x
        · rw [if_neg (by rw [hR.slots]; exact ho)] at x; cases x
  | detach o => exact detach_follows hR hp hi hinv hcall hs
  | destroy o =>
    simp only [call] at hs
    cases ho : s.objs o with
    | none =>
      rw [ho] at hs
      refine detach_follows (o := o) (cfg := cfg) hR hp hi hinv hcall ?_
      simp only [call, ho]; exact hs
    | some t =>
      rw [ho] at hs
      simp only at hs
      split at hs
      · rename_i hd
        simp only [Option.some.injEq, Prod.mk.injEq] at hs; obtain ⟨rfl, rfl⟩ := hs
        refine follows_one (σ' := σ) (by simp only [next]; rw [if_pos ⟨by simp [hd], by rw [hR.slots, ho]; rfl⟩]) ?_
        exact ⟨hinv, hR.n, hR.slots, hR.fin, hR.rel, hR.call, hR.excl, hR.asg⟩
      · refine detach_follows (o := o) (cfg := cfg) hR hp hi hinv hcall ?_
        simp only [call, ho]; exact hs
  | moveCtor d src =>
    simp only [call] at hs
    split at hs <;> simp only [Option.some.injEq, Prod.mk.injEq, reduceCtorEq] at hs
    rename_i hc
    simp only [ne_eq, not_or, Decidable.not_not] at hc
    obtain ⟨rfl, rfl⟩ := hs
    simp only [Follows, next]
    split
    · rename_i x; split at x
      · cases x
      · rename_i hb
        cases x
        rw [hR.slots]
        refine hR.objects hinv (fun hst => ?_)
        have hb := strict_busy hb hst
        simp only [Bool.or_eq_false_iff] at hb
        exact move_excl hR hst hb.1 hb.2
    · trivial
    · rename_i x; split at x <;> cases x
  | moveAsg d src =>
    simp only [call] at hs
    cases ho : s.objs d with
    | none =>
      rw [ho] at hs
      simp only [Option.some.injEq, Prod.mk.injEq] at hs; obtain ⟨rfl, rfl⟩ := hs
      simp only [Follows, next]
      split
      · rename_i x; split at x
        · cases x
        · rename_i hb
          cases x
          have e : upd σ.slots d none = σ.slots := by
            funext j; simp only [upd_apply]; split
            · rename_i e; rw [e, hR.slots, ho]
            · rfl
          rw [e, hR.slots, ho]
          have e' : ({ σ with slots := s.objs } : Sys) = σ := by rw [← hR.slots]
          rw [e']
          refine hR.move hinv ⟨_, rfl⟩ (fun hst => ?_) ?_
          · have hb := strict_busy hb hst
            simp only [Bool.or_eq_false_iff] at hb
            have h1 := not_busy hR hb.1
            have h2 := not_busy hR hb.2
            refine (hR.excl hst).move (by simp [PC.joins]) ?_ (by intro o' t e; rw [hi] at e; cases e) (by simp [PC.detT])
            intro o' e c' _; simp only [PC.uses, Bool.or_eq_true, beq_iff_eq] at e
            rcases e with rfl | rfl
            · exact h1 c'
            · exact h2 c'
          · intro _ d' s' t _ e; cases e; simp
      · trivial
      · rename_i x; split at x <;> cases x
    | some t =>
      rw [ho] at hs
      simp only at hs
      split at hs
      · rename_i hd
        simp only [Option.some.injEq, Prod.mk.injEq] at hs; obtain ⟨rfl, rfl⟩ := hs
        refine follows_one (σ' := σ) (by simp only [next]; rw [if_pos ⟨by simp [hd], by rw [hR.slots, ho]; rfl⟩]) ?_
        exact ⟨hinv, hR.n, hR.slots, hR.fin, hR.rel, hR.call, hR.excl, hR.asg⟩
      · simp only [Option.some.injEq, Prod.mk.injEq] at hs; obtain ⟨rfl, rfl⟩ := hs
        simp only [Follows, next]
        split
        · rename_i x; split at x
          · cases x
          · rename_i hb
            cases x
            have hkeep := hR
            obtain ⟨b1, b2, b3, b4, b5, b6, b7, b8⟩ := hR
            rw [b3, ho]
            refine ⟨hinv, b2, rfl, ?_, ?_, ?_, ?_, ?_⟩
            · intro i; have := b4 i; simp only [Sys.setCall, upd_apply, setPc_thr]; split <;> simp_all
            · intro i; have := b5 i; simp only [Sys.setCall, upd_apply, setPc_thr]; split <;> simp_all
            · intro i; have := b6 i; simp only [Sys.setCall, upd_apply, setPc_thr]; split <;> simp_all [Matches]
            · intro hst
              have hb := strict_busy hb hst
              simp only [Bool.or_eq_false_iff] at hb
              have hn2 := not_busy hkeep hb.2
              have hn1 := not_busy hkeep hb.1
              have := take_excl (p := .detA t d src) hkeep hst hb.1 ho hi rfl rfl (by
                intro o' e c'; simp only [PC.uses, Bool.or_eq_true, beq_iff_eq] at e
                rcases e with rfl | rfl
                · exact hn1 c'
                · exact hn2 c')
              have e1 : (fun i => (({ s with objs := upd s.objs d none }.setPc c (.detA t d src)).thr i).pc) = upd (fun i => (s.thr i).pc) c (.detA t d src) := by
                funext i; simp only [setPc_thr, upd_apply]; split <;> rfl
              have e2 : (fun i => (({ s with objs := upd s.objs d none }.setPc c (.detA t d src)).thr i).joinStarted) = fun i => (s.thr i).joinStarted := by
                funext i; simp only [setPc_thr]; split <;> simp_all
              have e3 : (fun i => (upd σ.thr c { σ.thr c with call := Call.asg (some t) d src } i).ok) = fun i => (σ.thr i).ok := by
                funext i; simp only [upd_apply]; split <;> simp_all
              simp only [Sys.setCall]
              rw [e1, e2, e3]
              exact this
            · intro hst i d' src' t' h1 h2 u hu
              simp only [Sys.setCall, setPc_thr, upd_apply] at h1 h2 ⊢
              split at h1
              · cases h1
              · rename_i hic
                simp only [hic, if_false] at h2
                have := b8 hst i d' src' t' h1 h2 u hu
                split <;> simp_all
        · trivial
        · rename_i x; split at x <;> cases x
  | swap a b =>
    simp only [call, Option.some.injEq, Prod.mk.injEq] at hs
    obtain ⟨rfl, rfl⟩ := hs
    simp only [Follows, next]
    split
    · rename_i x; split at x
      · cases x
      · rename_i hb
        cases x
        rw [hR.slots]
        refine hR.objects hinv (fun hst => ?_)
        have hb := strict_busy hb hst
        simp only [Bool.or_eq_false_iff] at hb
        have h1 := not_busy hR hb.1
        have h2 := not_busy hR hb.2
        have hx := hR.excl hst
        refine hx.objects ?_ ?_ ?_
        · intro o₁ o₂ u e1 e2
          have := hx.inj
          grind
        · intro c' o' e
          have : o' ≠ a := by rintro rfl; rw [h1 c'] at e; cases e
          have : o' ≠ b := by rintro rfl; rw [h2 c'] at e; cases e
          grind
        · intro o' u e
          simp only [upd_apply] at e
          split at e
          · exact ⟨a, e, .inr h1⟩
          · split at e
            · exact ⟨b, e, .inr h2⟩
            · exact ⟨o', e, .inl rfl⟩
    · trivial
    · rename_i x; split at x <;> cases x
  | joinable o =>
    simp only [call, Option.some.injEq, Prod.mk.injEq] at hs
    obtain ⟨rfl, rfl⟩ := hs
    simp only [Follows, next]
    rw [hR.slots]
    split
    · rename_i x; split at x
      · cases x
      · rw [if_pos rfl] at x; cases x; exact hR
    · trivial
    · rename_i x; split at x
      · cases x
      · rw [if_pos rfl] at x; cases x

theorem go_follows {strict : Bool} {cfg : Cfg} {s s' : State} {σ : Sys} {c : Nat} {es : List Event} (hR : R strict s σ)
    (hinv : Inv s') (hs : go s c = some (s', es)) : Follows (next strict cfg) (R strict s') σ es := by
  have hcall := hR.call c
  have hok := hR.inv.ok c
  cases hp : (s.thr c).pc with
  | idle => simp [go, hp] at hs
  | checked o timed =>
    rw [hp] at hcall hok
    simp only [go, hp] at hs
    have hx := fun hst => hR.excl hst
    cases ho : s.objs o with
    | none =>
      rw [ho] at hs
      simp only [Option.some.injEq, Prod.mk.injEq] at hs; obtain ⟨rfl, rfl⟩ := hs
      refine follows_one (σ' := σ.setCall c .idle) (by simp only [next]; rw [if_pos ⟨⟨_, hcall⟩, by rw [hR.slots, ho]⟩]) ?_
      exact hR.move hinv rfl (fun hst => (hx hst).within (.inr rfl) (by simp [PC.uses]) (.inl (by simp [hp, PC.late])) rfl) (by simp)
    | some t =>
      rw [ho] at hs
      simp only [Option.some.injEq, Prod.mk.injEq] at hs; obtain ⟨rfl, rfl⟩ := hs
      refine hR.stay hinv hcall (fun hst => ?_) (by simp)
      refine (hx hst).move ?_ ?_ (by simp [hp, PC.late]) (by simp [PC.detT])
      · intro o' t' e; simp only [PC.joins, Option.some.injEq, Prod.mk.injEq] at e; obtain ⟨rfl, rfl⟩ := e; exact ho
      · intro o' e c' hne
        simp only [PC.uses, beq_iff_eq] at e; subst e
        cases hu : (s.thr c').pc.uses o with
        | false => rfl
        | true => exact absurd ((hx hst).excl c' c o hu (by simp [hp, PC.uses])) hne
  | enter o t timed =>
    rw [hp] at hcall
    simp only [go, hp, Option.some.injEq, Prod.mk.injEq] at hs; obtain ⟨rfl, rfl⟩ := hs
    exact hR.eval (by simp [hp, PC.joins]) (by simp [hp, PC.late]) hinv hcall
  | wDone o t timed w =>
    rw [hp] at hcall
    simp only [go, hp] at hs
    split at hs <;> simp only [Option.some.injEq, Prod.mk.injEq, reduceCtorEq] at hs
    obtain ⟨rfl, rfl⟩ := hs
    exact hR.eval (by simp [hp, PC.joins]) (by simp [hp, PC.late]) hinv hcall
  | wJoined o t w =>
    simp only [go, hp] at hs
    split at hs <;> simp only [Option.some.injEq, Prod.mk.injEq, reduceCtorEq] at hs
    obtain ⟨rfl, rfl⟩ := hs
    exact hR.waitJoined hp
  | nat o t =>
    rw [hp] at hcall hok
    simp only [go, hp] at hs
    split at hs <;> simp only [Option.some.injEq, Prod.mk.injEq, reduceCtorEq] at hs
    rename_i hph
    obtain ⟨rfl, rfl⟩ := hs
    simp only [PcOk] at hok
    obtain ⟨b1, b2, b3, b4, b5, b6, b7, b8⟩ := hR
    refine follows_one (σ' := { σ with thr := upd σ.thr t { σ.thr t with rel := true } }) (by
      simp only [next]; rw [if_pos ⟨by rw [b5]; exact hok.2.2.2, by rw [b4, hph]; rfl⟩]) ?_
    refine ⟨hinv, b2, b3, ?_, ?_, ?_, ?_, ?_⟩
    · intro i; have := b4 i; grind
    · intro i; have := b5 i; grind
    · intro i; have := b6 i; simp only [setPc_thr, upd_apply]
      by_cases hic : i = c
      · subst hic; simp only [if_true]; split
        · rename_i e; subst e; exact hcall
        · exact hcall
      · simp only [hic, if_false]; split <;> simp_all
    · intro hst
      have := (b7 hst).within (c := c) (p := .setJ o t) (.inl (by simp [hp, PC.joins])) (by simp [hp, PC.uses]) (.inr (by simp [hp, PC.late])) rfl
      exact cast (by congr 1 <;> funext i <;> simp only [setPc_thr, upd_apply] <;> grind) this
    · intro hst i d src t' h1 h2 u hu
      have := b8 hst i d src t'
      grind
  | setJ o t =>
    rw [hp] at hcall hok
    simp only [go, hp, Option.some.injEq, Prod.mk.injEq] at hs; obtain ⟨rfl, rfl⟩ := hs
    obtain ⟨b1, b2, b3, b4, b5, b6, b7, b8⟩ := hR
    refine ⟨hinv, b2, b3, ?_, ?_, ?_, ?_, ?_⟩
    · intro i; have := b4 i; grind
    · intro i; have := b5 i; grind
    · intro i; have := b6 i; simp only [setPc_thr, notify_thr, upd_apply]
      by_cases hic : i = c
      · subst hic; simp only [if_true]; exact hcall
      · simp only [hic, if_false]; rw [wake_matches]; split <;> simp_all
    · intro hst
      have := ((b7 hst).wake t).within (c := c) (p := .fin o t) (.inl (by simp [PC.wake, hp, PC.joins])) (by simp [PC.wake, hp, PC.uses])
        (.inr (by simp [PC.wake, hp, PC.late])) rfl
      exact cast (by congr 1 <;> funext i <;> simp only [setPc_thr, notify_thr, upd_apply] <;> grind) this
    · intro hst i d src t' h1 h2 u hu
      have := b8 hst i d src t'
      have hw : (s.thr i).pc.wake t = .asg d src → (s.thr i).pc = .asg d src := by cases (s.thr i).pc <;> simp [PC.wake]
      grind
  | fin o t =>
    rw [hp] at hcall hok
    simp only [go, hp, Option.some.injEq, Prod.mk.injEq] at hs; obtain ⟨rfl, rfl⟩ := hs
    simp only [PcOk] at hok
    have hj : (s.thr c).pc.joins = some (o, t) := by simp [hp, PC.joins]
    have hfin : (σ.thr t).fin = true := by
      rw [hR.fin]; have := hok.2; revert this; simp only [Thr.isDone]; cases (s.thr t).phase <;> simp [Phase.rank]
    have hstr : strict = true → σ.slots o = some t ∧ (σ.thr t).ok = false := by
      intro hst
      have := (hR.excl hst).holds c o t hj
      refine ⟨by rw [hR.slots, this], ?_⟩
      cases hk : (σ.thr t).ok with
      | false => rfl
      | true => exact absurd this ((hR.excl hst).ok t hk o)
    refine follows_one (by
      simp only [next]
      rw [if_pos ⟨hcall, hfin, by rw [hR.rel]; exact hR.inv.jd t hok.1, hstr⟩]) ?_
    obtain ⟨b1, b2, b3, b4, b5, b6, b7, b8⟩ := hR
    have e0 : (if s.objs o = some t then { s with objs := upd s.objs o none } else s) = { s with objs := if s.objs o = some t then upd s.objs o none else s.objs } := by
      split <;> rfl
    refine ⟨hinv, ?_, ?_, ?_, ?_, ?_, ?_, ?_⟩
    · rw [e0]; exact b2
    · rw [e0]; simp only [Sys.setCall, setPc_objs, b3]
    · rw [e0]; intro i; have := b4 i; simp only [setPc_thr, Sys.setCall, upd_apply]; by_cases hic : i = c <;> by_cases hit : i = t <;> by_cases htc : t = c <;> simp_all
    · rw [e0]; intro i; have := b5 i; simp only [setPc_thr, Sys.setCall, upd_apply]; by_cases hic : i = c <;> by_cases hit : i = t <;> by_cases htc : t = c <;> simp_all
    · rw [e0]; intro i; have := b6 i; simp only [setPc_thr, Sys.setCall, upd_apply]
      by_cases hic : i = c
      · subst hic; simp only [if_true]; split <;> simp_all [Matches]
      · simp only [hic, if_false]; split <;> simp_all
    · intro hst
      rw [e0]
      have h1 := (b7 hst).holds c o t hj
      have := (b7 hst).finish hj
      simp only [h1, if_true]
      exact cast (by congr 1 <;> funext i <;> simp only [setPc_thr, Sys.setCall, upd_apply] <;> grind) this
    · rw [e0]; intro hst i d src t' h1 h2 u hu
      have := b8 hst i d src t'
      simp only [setPc_thr, Sys.setCall, upd_apply] at h1 h2 ⊢
      by_cases hic : i = c
      · simp [hic] at h1
      · simp only [hic, if_false] at h1
        have h3 : (σ.thr i).call = .asg t' d src := by
          by_cases hit : i = t
          · subst hit; simpa [hic] using h2
          · simpa [hit, hic] using h2
        have := this h1 h3 u hu
        split <;> simp_all
  | det t =>
    rw [hp] at hcall hok
    simp only [go, hp, Option.some.injEq, Prod.mk.injEq] at hs
    simp only [Matches] at hcall
    by_cases hjs : (s.thr t).joinStarted = true
    · have hd : detachBody s c t = (s, []) := by simp [detachBody, hjs]
      rw [hd] at hs
      obtain ⟨rfl, rfl⟩ := hs
      have hns : ¬ strict = true := fun hst => by
        have := ((hR.excl hst).det c t (by simp [hp, PC.detT])).1; simp only [hjs] at this; cases this
      refine follows_one (σ' := σ.setCall c .idle) (by simp only [next, hcall]; rw [if_pos (fun h => absurd h hns)]) ?_
      exact hR.move hinv rfl (fun hst => absurd hst hns) (by simp)
    · have hjs' : (s.thr t).joinStarted = false := by simpa using hjs
      have hd : detachBody s c t = ({ s with thr := upd s.thr t { s.thr t with native := true, joinStarted := true, joined := true } }, [.natDetach c t]) := by simp [detachBody, hjs']
      rw [hd] at hs
      obtain ⟨rfl, rfl⟩ := hs
      simp only [List.cons_append, List.nil_append, Follows, next]
      rw [if_pos ⟨by rw [hR.n]; exact hR.inv.tgt c t (by simp [hp, PC.tgt]), by rw [hR.rel]; exact (hR.inv.ns t hjs').1⟩]
      simp only
      have hcall' : (upd σ.thr t { σ.thr t with rel := true } c).call = .detach (some t) := by
        simp only [upd_apply]; split
        · rename_i e; rw [e] at hcall; exact hcall
        · exact hcall
      rw [hcall']
      simp only
      rw [if_pos (by intro _ u hu; simp only [Option.mem_def, Option.some.injEq] at hu; subst hu; simp [upd_apply])]
      simp only
      obtain ⟨b1, b2, b3, b4, b5, b6, b7, b8⟩ := hR
      refine ⟨hinv, b2, b3, ?_, ?_, ?_, ?_, ?_⟩
      · intro i; have := b4 i; simp only [Sys.setCall]; grind
      · intro i; have := b5 i; simp only [Sys.setCall]; grind
      · intro i; have := b6 i; simp only [setPc_thr, Sys.setCall, upd_apply]
        by_cases hic : i = c
        · subst hic; simp [Matches]
        · simp only [hic, if_false]; split <;> simp_all
      · intro hst
        have hx := b7 hst
        have hdt := hx.det c t (by simp [hp, PC.detT])
        have := (hx.within (c := c) (p := .idle) (.inr rfl) (by simp [PC.uses]) (.inl (by simp [hp, PC.late])) rfl).setJs (t := t) hdt.2 (by
          intro c' e; simp only [upd_apply] at e; split at e
          · cases e
          · rename_i hne; exact hne (hx.detU c' c t e (by simp [hp, PC.detT])))
        exact cast (by congr 1 <;> funext i <;> simp only [setPc_thr, Sys.setCall, upd_apply] <;> grind) this
      · intro hst i d src t' h1 h2 u hu
        have := b8 hst i d src t'
        simp only [Sys.setCall] at h2
        grind
  | detA t d src =>
    rw [hp] at hcall hok
    simp only [go, hp, Option.some.injEq, Prod.mk.injEq] at hs
    simp only [Matches] at hcall
    by_cases hjs : (s.thr t).joinStarted = true
    · have hd : detachBody s c t = (s, []) := by simp [detachBody, hjs]
      rw [hd] at hs
      obtain ⟨rfl, rfl⟩ := hs
      have hns : ¬ strict = true := fun hst => by
        have := ((hR.excl hst).det c t (by simp [hp, PC.detT])).1; simp only [hjs] at this; cases this
      exact hR.stay hinv ⟨_, hcall⟩ (fun hst => absurd hst hns) (fun hst => absurd hst hns)
    · have hjs' : (s.thr t).joinStarted = false := by simpa using hjs
      have hd : detachBody s c t = ({ s with thr := upd s.thr t { s.thr t with native := true, joinStarted := true, joined := true } }, [.natDetach c t]) := by simp [detachBody, hjs']
      rw [hd] at hs
      obtain ⟨rfl, rfl⟩ := hs
      refine follows_one (σ' := { σ with thr := upd σ.thr t { σ.thr t with rel := true } }) (by
        simp only [next]; rw [if_pos ⟨by rw [hR.n]; exact hR.inv.tgt c t (by simp [hp, PC.tgt]), by rw [hR.rel]; exact (hR.inv.ns t hjs').1⟩]) ?_
      obtain ⟨b1, b2, b3, b4, b5, b6, b7, b8⟩ := hR
      refine ⟨hinv, b2, b3, ?_, ?_, ?_, ?_, ?_⟩
      · intro i; have := b4 i; grind
      · intro i; have := b5 i; grind
      · intro i; have := b6 i; simp only [setPc_thr, upd_apply]
        by_cases hic : i = c
        · subst hic; simp only [if_true]; split
          · rename_i e; subst e; exact ⟨_, hcall⟩
          · exact ⟨_, hcall⟩
        · simp only [hic, if_false]; split <;> simp_all
      · intro hst
        have hx := b7 hst
        have hdt := hx.det c t (by simp [hp, PC.detT])
        have := (hx.within (c := c) (p := .asg d src) (.inr rfl) (by simp [hp, PC.uses]) (.inl (by simp [hp, PC.late])) rfl).setJs (t := t) hdt.2 (by
          intro c' e; simp only [upd_apply] at e; split at e
          · cases e
          · rename_i hne; exact hne (hx.detU c' c t e (by simp [hp, PC.detT])))
        exact cast (by congr 1 <;> funext i <;> simp only [setPc_thr, upd_apply] <;> grind) this
      · intro hst i d' src' t' h1 h2 u hu
        have := b8 hst i d' src' t'
        grind
  | asg d src =>
    rw [hp] at hcall hok
    simp only [go, hp, Option.some.injEq, Prod.mk.injEq] at hs; obtain ⟨rfl, rfl⟩ := hs
    obtain ⟨t, hcall⟩ := hcall
    refine follows_one (σ' := { σ with slots := upd (upd σ.slots d (σ.slots src)) src none }.setCall c .idle) (by
      simp only [next, hcall]
      rw [if_pos ⟨trivial, trivial, fun hst u hu => by rw [hR.rel]; exact hR.asg hst c d src t hp hcall u hu⟩]) ?_
    obtain ⟨b1, b2, b3, b4, b5, b6, b7, b8⟩ := hR
    refine ⟨hinv, b2, by simp [Sys.setCall, b3, setPc_objs], ?_, ?_, ?_, ?_, ?_⟩
    · intro i; have := b4 i; simp only [Sys.setCall]; grind
    · intro i; have := b5 i; simp only [Sys.setCall]; grind
    · intro i; have := b6 i; simp only [setPc_thr, Sys.setCall, upd_apply]
      by_cases hic : i = c
      · subst hic; simp [Matches]
      · simp only [hic, if_false]; simp_all
    · intro hst
      have hx := b7 hst
      have hxm := hx.within (c := c) (p := .idle) (.inr rfl) (by simp [PC.uses]) (.inl (by simp [hp, PC.late])) rfl
      have hu : ∀ o', PC.uses o' (.asg d src) = true → ∀ c', ((upd (fun i => (s.thr i).pc) c .idle) c').uses o' = false := by
        intro o' e c'; simp only [upd_apply]
        split
        · rfl
        · rename_i hne
          cases hu : (s.thr c').pc.uses o' with
          | false => rfl
          | true => exact absurd (hx.excl c' c o' hu (by simp only [hp]; exact e)) hne
      have h1 := hu d (by simp [PC.uses])
      have h2 := hu src (by simp [PC.uses])
      have := hxm.objects (objs' := upd (upd s.objs d (s.objs src)) src none) (by
        intro o₁ o₂ u e1 e2
        have := hxm.inj
        grind) (by
        intro c' o' e
        have : o' ≠ d := by rintro rfl; rw [h1 c'] at e; cases e
        have : o' ≠ src := by rintro rfl; rw [h2 c'] at e; cases e
        grind) (by
        intro o' u e
        simp only [upd_apply] at e
        split at e
        · cases e
        · split at e
          · exact ⟨src, e, .inr h2⟩
          · exact ⟨o', e, .inl rfl⟩)
      exact cast (by congr 1 <;> funext i <;> simp only [setPc_thr, Sys.setCall, upd_apply] <;> grind) this
    · intro hst i d' src' t' h1 h2 u hu
      have := b8 hst i d' src' t'
      simp only [Sys.setCall] at h2
      grind

theorem R.phase {strict : Bool} {s : State} {σ : Sys} {c : Nat} {p : Phase} (hR : R strict s σ) (hi : Inv { s with thr := upd s.thr c { s.thr c with phase := p } })
    (hr : decide (2 ≤ p.rank) = decide (2 ≤ (s.thr c).phase.rank)) : R strict { s with thr := upd s.thr c { s.thr c with phase := p } } σ := by
  obtain ⟨b1, b2, b3, b4, b5, b6, b7, b8⟩ := hR
  refine ⟨hi, b2, b3, ?_, ?_, ?_, ?_, ?_⟩
  · intro i; have := b4 i; simp only [upd_apply]; split <;> simp_all
  · intro i; have := b5 i; grind
  · intro i; have := b6 i; simp only [upd_apply]; split <;> simp_all
  · intro hst
    exact cast (by congr 1 <;> funext i <;> simp only [upd_apply] <;> grind) (b7 hst)
  · intro hst i d src t h1 h2 u hu
    have := b8 hst i d src t
    grind

theorem R.notify {strict : Bool} {s : State} {σ : Sys} {t : Nat} (hR : R strict s σ) (hi : Inv (s.notify t)) : R strict (s.notify t) σ := by
  obtain ⟨b1, b2, b3, b4, b5, b6, b7, b8⟩ := hR
  refine ⟨hi, b2, b3, b4, b5, ?_, fun hst => (b7 hst).wake t, ?_⟩
  · intro i; have := b6 i; simp only [notify_thr]; rw [wake_matches]; exact this
  · intro hst i d src t' h1 h2 u hu
    have hw : (s.thr i).pc.wake t = .asg d src → (s.thr i).pc = .asg d src := by cases (s.thr i).pc <;> simp [PC.wake]
    exact b8 hst i d src t' (hw h1) h2 u hu

theorem step_follows {strict : Bool} {cfg : Cfg} {s s' : State} {σ : Sys} {l : Label} {es : List Event} (hR : R strict s σ)
    (hs : step cfg s l = some (s', es)) : Follows (next strict cfg) (R strict s') σ es := by
  have hinv := step_inv hR.inv hs
  simp only [step] at hs
  split at hs
  · cases hs
  · cases l with
    | call c op =>
      simp only at hs
      split at hs
      · rename_i h; exact call_follows hR h.1 h.2 hs
      · cases hs
    | go c => exact go_follows hR hinv hs
    | spurious c =>
      simp only at hs
      have hcall := hR.call c
      split at hs
      · rename_i o t timed w hp
        rw [hp] at hcall
        simp only [Option.some.injEq, Prod.mk.injEq] at hs; obtain ⟨rfl, rfl⟩ := hs
        exact hR.eval (by simp [hp, PC.joins]) (by simp [hp, PC.late]) hinv hcall
      · rename_i o t w hp
        simp only [Option.some.injEq, Prod.mk.injEq] at hs; obtain ⟨rfl, rfl⟩ := hs
        exact hR.waitJoined hp
      · cases hs
    | timeout c =>
      simp only at hs
      have hcall := hR.call c
      split at hs
      · rename_i o t w hp
        rw [hp] at hcall
        split at hs <;> simp only [Option.some.injEq, Prod.mk.injEq] at hs <;> obtain ⟨rfl, rfl⟩ := hs
        · exact hR.afterDone (by simp [hp, PC.joins]) (by simp [hp, PC.late]) hinv ⟨_, hcall⟩
        · refine follows_one (σ' := σ.setCall c .idle) (by simp only [next]; exact if_pos hcall) ?_
          exact hR.move hinv rfl (fun hst => (hR.excl hst).within (.inr rfl) (by simp [PC.uses]) (.inl (by simp [hp, PC.late])) rfl) (by simp)
      · cases hs
    | interrupt c =>
      simp only at hs
      have hcall := hR.call c
      split at hs
      · rename_i o t timed w hp
        rw [hp] at hcall
        simp only [Option.some.injEq, Prod.mk.injEq] at hs; obtain ⟨rfl, rfl⟩ := hs
        refine follows_one (σ' := σ.setCall c .idle) (by simp only [next]; rw [if_pos ⟨_, hcall⟩]) ?_
        exact hR.move hinv rfl (fun hst => (hR.excl hst).within (.inr rfl) (by simp [PC.uses]) (.inl (by simp [hp, PC.late])) rfl) (by simp)
      · rename_i o t w hp
        rw [hp] at hcall
        simp only [Option.some.injEq, Prod.mk.injEq] at hs; obtain ⟨rfl, rfl⟩ := hs
        refine follows_one (σ' := σ.setCall c .idle) (by simp only [next]; exact if_pos hcall) ?_
        exact hR.move hinv rfl (fun hst => (hR.excl hst).within (.inr rfl) (by simp [PC.uses]) (.inl (by simp [hp, PC.late])) rfl) (by simp)
      · cases hs
    | ret c =>
      simp only at hs
      split at hs <;> simp only [Option.some.injEq, Prod.mk.injEq, reduceCtorEq] at hs
      rename_i h
      obtain ⟨rfl, rfl⟩ := hs
      obtain ⟨b1, b2, b3, b4, b5, b6, b7, b8⟩ := hR
      refine follows_one (σ' := { σ with thr := upd σ.thr c { σ.thr c with fin := true } }) (by
        simp only [next]; rw [if_pos ⟨by rw [b2]; exact b1.lt h.1, by rw [b4, h.1]; rfl⟩]) ?_
      refine ⟨hinv, b2, b3, ?_, ?_, ?_, ?_, ?_⟩
      · intro i; have := b4 i; simp only [upd_apply]; split <;> simp_all [Phase.rank]
      · intro i; have := b5 i; grind
      · intro i; have := b6 i; simp only [upd_apply]; split <;> simp_all
      · intro hst
        exact cast (by congr 1 <;> funext i <;> simp only [upd_apply] <;> grind) (b7 hst)
      · intro hst i d src t h1 h2 u hu
        have := b8 hst i d src t
        grind
    | setDone c =>
      simp only at hs
      split at hs <;> simp only [Option.some.injEq, Prod.mk.injEq, reduceCtorEq] at hs
      rename_i h
      obtain ⟨rfl, rfl⟩ := hs
      obtain ⟨b1, b2, b3, b4, b5, b6, b7, b8⟩ := hR
      refine ⟨hinv, b2, b3, ?_, ?_, ?_, ?_, ?_⟩
      · intro i; have := b4 i; simp only [notify_thr, upd_apply]; split <;> simp_all [Phase.rank]
      · intro i; have := b5 i; grind
      · intro i; have := b6 i; simp only [notify_thr, upd_apply]; rw [wake_matches]; split <;> simp_all
      · intro hst
        exact cast (by congr 1 <;> funext i <;> simp only [notify_thr, upd_apply] <;> grind) ((b7 hst).wake c)
      · intro hst i d src t h1 h2 u hu
        have := b8 hst i d src t
        have hw : (s.thr i).pc.wake c = .asg d src → (s.thr i).pc = .asg d src := by cases (s.thr i).pc <;> simp [PC.wake]
        grind
    | exit c =>
      simp only at hs
      split at hs <;> simp only [Option.some.injEq, Prod.mk.injEq, reduceCtorEq] at hs
      rename_i h
      obtain ⟨rfl, rfl⟩ := hs
      exact hR.phase hinv (by rw [h]; rfl)

end Verif.Thread
