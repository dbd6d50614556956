import Verif.SyncQueue.Spec
/-! # Simulation and wake-up invariants of the closable queues -/

set_option linter.unusedSectionVars false

namespace Verif.SyncQueue
variable {V : Type} [DecidableEq V]

theorem perm_eraseIdx {a : List V} {i : Nat} {v : V} (h : a[i]? = some v) : (v :: a.eraseIdx i).Perm a := by
  induction a generalizing i with
  | nil => cases h
  | cons x xs ih =>
    cases i with
    | zero => simp at h; subst h; exact List.Perm.refl _
    | succ i =>
      simp only [List.getElem?_cons_succ] at h
      exact (List.Perm.swap x v _).trans ((ih h).cons x)

/-- How the code's container relates to the abstract contents. -/
structure Refines (front : List V → Nat → Bool) (d : Discipline V) (Q : List V → List V → Prop) : Prop where
  nil : Q [] []
  push : ∀ a b v, Q a b → Q (a ++ [v]) (b ++ [v])
  length : ∀ a b, Q a b → a.length = b.length
  pop : ∀ a b i v, Q a b → front a i = true → a[i]? = some v → ∃ b', d.remove b v = some b' ∧ Q (a.eraseIdx i) b'
  contents : ∀ a b, Q a b → d.contents a b = true

theorem fifo_refines : Refines (V := V) fifo Discipline.fifo Eq where
  nil := rfl
  push := by rintro a _ v rfl; rfl
  length := by rintro a _ rfl; rfl
  pop := by
    rintro a _ i v rfl hf hi
    simp only [fifo, beq_iff_eq] at hf
    subst hf
    cases a with
    | nil => cases hi
    | cons x xs =>
      simp only [List.getElem?_cons_zero, Option.some.injEq] at hi
      exact ⟨xs, by simp [Discipline.fifo, hi], rfl⟩
  contents := by rintro a _ rfl; simp [Discipline.fifo]

theorem priority_refines (less : V → V → Bool) : Refines (greatest less) (Discipline.priority less) List.Perm where
  nil := List.Perm.refl _
  push a b v h := h.append_right [v]
  length _ _ h := h.length_eq
  pop := by
    intro a b i v h hf hi
    simp only [greatest, hi, List.all_eq_true, Bool.not_eq_true'] at hf
    have hv : v ∈ a := List.mem_of_getElem? hi
    refine ⟨b.erase v, ?_, ?_⟩
    · simp only [Discipline.priority]
      rw [if_pos]
      exact ⟨h.mem_iff.mp hv, fun w hw => hf w (h.mem_iff.mpr hw)⟩
    · have h1 : (v :: a.eraseIdx i).Perm a := perm_eraseIdx hi
      have h2 : (v :: b.erase v).Perm b := (List.perm_cons_erase (h.mem_iff.mp hv)).symm
      exact (h1.trans (h.trans h2.symm)).cons_inv
  contents a b h := by simpa [Discipline.priority, List.isPerm_iff] using h

/-- Nobody sleeps while the queue has an element. -/
def WakeInv (s : State V) : Prop := s.data ≠ [] → cnt PC.isAsleep s.ts = 0

theorem cnt_wake (ts : List PC) : cnt PC.isAsleep (ts.map PC.wake) = 0 := by
  rw [cnt_map, cnt_eq_zero]
  intro t p hp
  cases p <;> rfl

/-- Leaving or continuing a call other than by going to sleep adds no sleeper. -/
theorem cnt_asleep_set {ts : List PC} {t : Nat} {p q : PC} (h : ts[t]? = some p) (hq : q.isAsleep = false)
    (h0 : cnt PC.isAsleep ts = 0) : cnt PC.isAsleep (ts.set t q) = 0 := by
  have := cnt_set PC.isAsleep q h
  simp only [hq, b2n_false] at this
  omega

theorem pop_ts {front : List V → Nat → Bool} {s s' : State V} {t i : Nat} {es : List (Event V)}
    (hs : pop front s t i = some (s', es)) :
    s'.ts = s.ts.set t .idle ∧ s'.closed = s.closed ∧ s.data ≠ [] ∧ ∃ v, es = [.pulled t v] := by
  simp only [pop] at hs
  split at hs <;> try cases hs
  split at hs <;> cases hs
  next v hv => refine ⟨rfl, rfl, ?_, v, rfl⟩; intro h; simp [h] at hv

theorem step_wake {front : List V → Nat → Bool} {s s' : State V} {l : Label V} {es : List (Event V)} (hI : WakeInv s)
    (hs : step front s l = some (s', es)) : WakeInv s' := by
  simp only [WakeInv] at *
  cases l <;> simp only [step, waitThenPull] at hs <;> (repeat' split at hs) <;> try cases hs
  all_goals first
    | exact hI
    | (intro _; exact cnt_wake _)
    | (intro h; exact cnt_asleep_set ‹_› rfl (hI h))
    | (intro h; simp_all; done)
    | (obtain ⟨h1, h2, h3, -⟩ := pop_ts hs
       intro _; rw [h1]; exact cnt_asleep_set ‹_› rfl (hI h3))

/-- Once a `close()` has returned, the queue is closed and nobody sleeps. -/
def ClosedInv (s : State V) (es : List (Event V)) : Prop :=
  (∃ t, Event.closeReturned t ∈ es) → s.closed = true ∧ cnt PC.isAsleep s.ts = 0

/-- A thread inside the second half of `close()` has already set the flag. -/
def ClosingInv (s : State V) : Prop := ∀ t : Nat, s.ts[t]? = some .closing → s.closed = true

theorem wake_closing {ts : List PC} {t : Nat} (h : (ts.map PC.wake)[t]? = some .closing) : ts[t]? = some .closing := by
  rw [List.getElem?_map] at h
  cases hp : ts[t]? with
  | none => simp [hp] at h
  | some p => cases p <;> simp_all [PC.wake]

theorem step_closing {front : List V → Nat → Bool} {s s' : State V} {l : Label V} {es : List (Event V)} (hI : ClosingInv s)
    (hs : step front s l = some (s', es)) : ClosingInv s' := by
  have key : ∀ {t : Nat} {p q : PC}, s.ts[t]? = some p → q ≠ .closing →
      ∀ u : Nat, (s.ts.set t q)[u]? = some .closing → s.closed = true := by
    intro t p q hp hq u hu
    rw [getElem?_set_eq hp] at hu
    split at hu
    · cases hu; exact absurd rfl hq
    · exact hI u hu
  simp only [ClosingInv] at *
  cases l <;> simp only [step, waitThenPull] at hs <;> (repeat' split at hs) <;> try cases hs
  all_goals first
    | exact hI
    | exact key ‹_› (by simp)
    | (intro u hu; exact hI u (wake_closing hu))
    | (intro u hu; exact key ‹_› (by simp) u (wake_closing hu))
    | (intro u hu; rfl)
    | (obtain ⟨h1, h2, h3, -⟩ := pop_ts hs
       intro u hu; rw [h1] at hu; rw [h2]; exact key ‹_› (by simp) u hu)

theorem step_closed {front : List V → Nat → Bool} {s s' : State V} {l : Label V} {h es : List (Event V)}
    (hc : ClosingInv s) (hI : ClosedInv s h) (hs : step front s l = some (s', es)) : ClosedInv s' (h ++ es) := by
  simp only [ClosedInv] at *
  rintro ⟨t, ht⟩
  simp only [List.mem_append] at ht
  rcases ht with ht | ht
  · obtain ⟨h1, h2⟩ := hI ⟨t, ht⟩
    clear hI ht
    cases l <;> simp only [step, waitThenPull] at hs <;> (repeat' split at hs) <;> try cases hs
    all_goals first
      | exact ⟨h1, h2⟩
      | exact ⟨h1, cnt_wake _⟩
      | exact ⟨h1, cnt_asleep_set ‹_› rfl h2⟩
      | exact ⟨rfl, cnt_asleep_set ‹_› rfl h2⟩
      | (exfalso; simp_all; done)
      | (obtain ⟨g1, g2, -, -⟩ := pop_ts hs
         rw [g1, g2]; exact ⟨h1, cnt_asleep_set ‹_› rfl h2⟩)
  · clear hI
    cases l <;> simp only [step, waitThenPull] at hs <;> (repeat' split at hs) <;> try cases hs
    all_goals first
      | (simp at ht; done)
      | exact ⟨hc _ ‹_›, cnt_wake _⟩
      | (obtain ⟨-, -, -, v, rfl⟩ := pop_ts hs; simp at ht; done)

def R (Q : List V → List V → Prop) (s : State V) (q : Queue V) : Prop := Q s.data q.items ∧ s.closed = q.closed

theorem pop_sim {front : List V → Nat → Bool} {d : Discipline V} {Q : List V → List V → Prop} (hQ : Refines front d Q)
    {s s' : State V} {t i : Nat} {es : List (Event V)} {q : Queue V} (hR : R Q s q) (hs : pop front s t i = some (s', es)) :
    Follows (specNext d) (R Q s') q es := by
  simp only [pop] at hs
  split at hs <;> try cases hs
  split at hs <;> cases hs
  obtain ⟨b', h1, h2⟩ := hQ.pop _ _ _ _ hR.1 ‹_› ‹_›
  simp only [Follows, specNext, h1]
  exact ⟨h2, hR.2⟩

theorem isEmpty_iff {Q : List V → List V → Prop} {front : List V → Nat → Bool} {d : Discipline V} (hQ : Refines front d Q)
    {s : State V} {q : Queue V} (hR : R Q s q) : s.data.isEmpty = q.items.isEmpty := by
  have := hQ.length _ _ hR.1
  cases h1 : s.data <;> cases h2 : q.items <;> simp_all

theorem step_sim {front : List V → Nat → Bool} {d : Discipline V} {Q : List V → List V → Prop} (hQ : Refines front d Q)
    {s s' : State V} {l : Label V} {es : List (Event V)} {q : Queue V} (hcl : ClosingInv s) (hR : R Q s q)
    (hs : step front s l = some (s', es)) : Follows (specNext d) (R Q s') q es := by
  have he := isEmpty_iff hQ hR
  have hl := hQ.length _ _ hR.1
  have hc := hR.2
  have he' : q.items = [] ↔ q.items.isEmpty = true := List.isEmpty_iff.symm
  cases l <;> simp only [step, waitThenPull] at hs <;> (repeat' split at hs) <;> try cases hs
  all_goals first
    | exact pop_sim hQ hR hs
    | (rename_i hcl
       have hcl' : q.closed = false := by rw [← hc]; simpa using hcl
       simp only [Follows, specNext, hcl']
       exact ⟨hQ.push _ _ _ hR.1, hc.trans hcl'⟩)
    | (simp only [Follows, specNext, hQ.contents _ _ hR.1]
       exact ⟨hQ.nil, hc⟩)
    | (have hcc : q.closed = true := hc ▸ hcl _ ‹_›
       simp only [Follows, specNext, hcc, if_true]
       exact ⟨hR.1, hc⟩)
    | (have hQ1 := hR.1; clear hQ hR
       simp only [Follows, specNext, R, he', ← he, ← hl, ← hc]
       clear he he' hl
       simp_all; done)

/-- The simulation relation. -/
def Sim (Q : List V → List V → Prop) (s : State V) (q : Queue V) : Prop := R Q s q ∧ ClosingInv s

theorem init_sim {front : List V → Nat → Bool} {d : Discipline V} {Q : List V → List V → Prop} (hQ : Refines front d Q)
    (n : Nat) : Sim Q (init V n) (Queue.new V) :=
  ⟨⟨hQ.nil, rfl⟩, fun u hu => by simp [init, List.getElem?_replicate] at hu⟩

theorem sim {front : List V → Nat → Bool} {d : Discipline V} {Q : List V → List V → Prop} (hQ : Refines front d Q)
    (s : State V) (l : Label V) (s' : State V) (es : List (Event V)) (q : Queue V) (h : Sim Q s q)
    (hs : step front s l = some (s', es)) : Follows (specNext d) (Sim Q s') q es :=
  (step_sim hQ h.2 h.1 hs).and (step_closing h.2 hs)

end Verif.SyncQueue
