import Verif.StateLife.Told
/-!
# States in which nothing more happens by itself, and what is kept for ever
-/

set_option linter.unusedSimpArgs false
set_option linter.unusedVariables false
set_option linter.unusedSectionVars false

namespace Verif.StateLife

/-- `c` waits for `i`, which is not ready. -/
structure Waits (s : State) (i c : Nat) : Prop where
  lt : c < s.n
  alive : (s.node c).alive = true
  kind : ∃ pol, (s.node c).kind = .cont i pol
  ph : (s.node c).ph = .idle ∨ (s.node c).ph = .awaiting
  par : (s.node i).ph ≠ .over

/-- Nothing happens unless the client does something. -/
def Quiet (s : State) : Prop := ∀ l : Label, l.internal = true → step s l = none

theorem begin_none (s : State) (c : Nat) (x : Node) : begin s c x none ≠ none := by simp [begin]

section
variable {s : State} {σ : Spec} (h : Inv s σ) (hq : Quiet s)
include h hq

theorem quiet_vec {c : Nat} (hc : c < s.n) : (s.node c).vec = false := by
  cases hv : (s.node c).vec with
  | false => rfl
  | true =>
    have := hq (.launch c none) rfl
    simp only [step, hc, hv, true_and, if_true] at this
    (repeat' split at this) <;> simp_all [begin]

theorem quiet_queued {c : Nat} (hc : c < s.n) : (s.node c).ph ≠ .queued := by
  intro hv
  have := hq (.run c none) rfl
  simp only [step, hc, hv, true_and, if_true] at this
  (repeat' split at this) <;> simp_all [begin]

theorem quiet_running {c : Nat} (hc : c < s.n) : (s.node c).ph ≠ .running := by
  intro hv
  have := hq (.ret c) rfl
  simp only [step, hc, hv, true_and, if_true] at this
  (repeat' split at this) <;> simp_all [begin]

theorem quiet_frames {i : Nat} (hi : i < s.n) : (s.node i).frames = 0 := by
  rcases Nat.eq_zero_or_pos (s.node i).frames with h0 | h0
  · exact h0
  · have := hq (.leaveCont i) rfl
    have hd : ∀ c, c < s.n → (s.node c).delays i = false := by
      intro c hc
      have h1 := quiet_vec h hq hc
      have h2 := quiet_running h hq hc
      simp [Node.delays, h1, h2]
    simp only [step, hi, h0, true_and] at this
    rw [if_pos (Or.inr hd)] at this
    (repeat' split at this) <;> simp_all

theorem quiet_awaiting {c : Nat} (hc : c < s.n) (ha : (s.node c).ph = .awaiting) : ∃ p pol, (s.node c).kind = .cont p pol ∧ (s.node p).ph ≠ .over := by
  have := hq (.proceed c none) rfl
  simp only [step, hc, ha, true_and, if_true] at this
  (repeat' split at this) <;> simp_all [begin]

theorem waits_cause : ∀ (i : Nat) {c : Nat}, (∀ j, j < s.n → (s.node j).own = false) → Waits s i c →
    ∃ i c, Waits s i c ∧ (s.node i).alive = true ∧ i < s.n ∧ ((s.node i).kind.lazy = true ∧ (s.node i).ph = .idle ∨ (s.node i).ph = .lost) := by
  intro i
  induction i using Nat.strongRecOn with
  | ind i ih =>
    intro c hown w
    obtain ⟨pol, hk⟩ := w.kind
    have hic := h.good.kind c i pol w.lt hk
    have hi : i < s.n := Nat.lt_trans hic w.lt
    have hp := h.good.keep c i pol w.lt w.alive hk (by rcases w.ph with e | e <;> simp [e]) (by rcases w.ph with e | e <;> simp [e])
    have hia := (h.good.par c i w.lt hp).2.1
    cases e : (s.node i).ph with
    | idle =>
      cases k : (s.node i).kind with
      | promise =>
        rcases h.good.prom i hi k with g | g
        · rw [hown i hi] at g; simp at g
        · simp [e] at g
      | async => exact absurd e (h.good.async i hi k)
      | deferred => exact ⟨i, c, w, hia, hi, Or.inl ⟨by rw [k]; rfl, e⟩⟩
      | cont p pol' =>
        by_cases hd : pol' = .deferred
        · exact ⟨i, c, w, hia, hi, Or.inl ⟨by rw [k, hd]; rfl, e⟩⟩
        · rcases h.good.idle i p pol' hi hia k hd e with g | g
          · rw [quiet_vec h hq hi] at g; cases g
          · have hpi := h.good.kind i p pol' hi k
            obtain ⟨-, -, -, -, g5, g6, -⟩ := h.good.cont p i (Nat.lt_trans hpi hi) g
            exact ih p hpi hown ⟨hi, hia, ⟨pol', k⟩, g6, g5⟩
    | queued => exact absurd e (quiet_queued h hq hi)
    | running => exact absurd e (quiet_running h hq hi)
    | awaiting =>
      obtain ⟨p, pol', k, hno⟩ := quiet_awaiting h hq hi e
      exact ih p (h.good.kind i p pol' hi k) hown ⟨hi, hia, ⟨pol', k⟩, Or.inr e, hno⟩
    | over => exact absurd e w.par
    | lost => exact ⟨i, c, w, hia, hi, Or.inr e⟩

theorem quiet_dead (hr : s.refs = []) (hown : ∀ j, j < s.n → (s.node j).own = false) (hw : ¬ ∃ i c, Waits s i c) :
    ∀ (k i : Nat), i < s.n → s.n - i ≤ k → (s.node i).alive = false := by
  intro k
  induction k with
  | zero => intro i hi hk; omega
  | succ k ih =>
    intro i hi hk
    cases ha : (s.node i).alive with
    | false => rfl
    | true =>
      exfalso
      have haw : (s.node i).ph ≠ .awaiting := by
        intro e
        obtain ⟨p, pol', k, hno⟩ := quiet_awaiting h hq hi e
        exact hw ⟨p, i, hi, ha, ⟨pol', k⟩, Or.inr e, hno⟩
      have hb : (s.node i).busy = false := by
        simp [Node.busy, hown i hi, quiet_vec h hq hi, quiet_frames h hq hi, quiet_queued h hq hi, quiet_running h hq hi, haw]
      have := hq (.free i) rfl
      simp only [step] at this
      split at this
      · cases this
      · rename_i hg
        apply hg
        refine ⟨hi, ha, hb, by simp [hr], fun j hj => ?_⟩
        cases e : (s.node j).holds i with
        | false => rfl
        | true =>
          exfalso
          simp only [Node.holds, Bool.and_eq_true, Bool.or_eq_true, beq_iff_eq, List.contains_eq_mem, decide_eq_true_eq] at e
          rcases e.2 with g | g
          · have := (h.good.par j i hj g).1
            have := ih j hj (by omega)
            rw [e.1] at this; cases this
          · obtain ⟨-, -, -, g4, g5, g6, -⟩ := h.good.cont j i hj g
            obtain ⟨-, -, pol, g7⟩ := h.good.par i j hi g4
            exact hw ⟨j, i, hi, ha, ⟨pol, g7⟩, g6, g5⟩
end

end Verif.StateLife
