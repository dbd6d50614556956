import Verif.BoundedQueue.Ring
/-! # Simulation and wake-up invariants of the bounded queue -/

set_option linter.unusedSectionVars false
set_option linter.unusedSimpArgs false

namespace Verif.BoundedQueue
variable {V : Type} [DecidableEq V]

/-- A thread in the second half of `close()` has set the flag. -/
def ClosingInv (s : State V) : Prop :=
  ∀ t : Nat, s.ts[t]? = some .closing1 ∨ s.ts[t]? = some .closing2 → s.closed = true

def R (cap : Nat) (s : State V) (q : Queue V) : Prop := Ring s cap q.items ∧ s.closed = q.closed

theorem pushAt_sim {p : Promises} {cap : Nat} {s s' : State V} {t : Nat} {v : V} {e : Event V} {es : List (Event V)} {q : Queue V}
    (hR : R cap s q) (hc : s.closed = false) (hf : s.isFull = false)
    (he : e = .pushed t v .success ∨ e = .waitPushed t v .success) (hs : pushAt s t v e = some (s', es)) :
    Follows (specNext p cap) (R cap s') q es := by
  obtain ⟨hr, hcl⟩ := hR
  rw [hr.full_iff] at hf
  have hlt : q.items.length < cap := by have := hr.room; simp at hf; omega
  have hq : q.closed = false := hcl ▸ hc
  have key := hr.push v hlt
  simp only [pushAt] at hs
  split at hs <;> simp only [Option.some.injEq, Prod.mk.injEq] at hs <;> obtain ⟨rfl, rfl⟩ := hs <;>
    rcases he with rfl | rfl <;> simp only [Follows, specNext, hq, hlt, and_self, if_true] <;>
    exact ⟨key.congr rfl rfl rfl rfl, hcl.trans hq⟩

theorem pullFront_sim {p : Promises} {cap : Nat} {s s' : State V} {t : Nat} {es : List (Event V)} {q : Queue V}
    (hR : R cap s q) (hne : s.isEmpty = false) (hs : pullFront s t = some (s', es)) :
    Follows (specNext p cap) (R cap s') q es := by
  obtain ⟨hr, hcl⟩ := hR
  obtain ⟨items, c⟩ := q
  cases items with
  | nil => rw [hr.empty_iff] at hne; simp at hne
  | cons v rest =>
    have hfr := hr.front
    have key := hr.pull
    simp only [pullFront, hfr] at hs
    split at hs <;> simp only [Option.some.injEq, Prod.mk.injEq] at hs <;> obtain ⟨rfl, rfl⟩ := hs <;>
      simp only [Follows, specNext, if_true] <;> exact ⟨key.congr rfl rfl rfl rfl, hcl⟩

theorem roundPush_sim {cap : Nat} {s s' : State V} {t : Nat} {k : Kind} {v : V} {es : List (Event V)} {q : Queue V}
    (hR : R cap s q) (hs : roundPush s t k v = some (s', es)) : Follows (specNext .kept cap) (R cap s') q es := by
  have hcl := hR.2
  simp only [roundPush] at hs
  split at hs
  · next hc =>
    simp only [Option.some.injEq, Prod.mk.injEq] at hs
    obtain ⟨rfl, rfl⟩ := hs
    have hq : q.closed = true := hcl ▸ hc
    cases k <;> simp only [pushEvent, Follows, specNext, hq, Promises.kept, and_self, if_true] <;>
      exact ⟨hR.1.congr rfl rfl rfl rfl, hcl⟩
  · next hc =>
    split at hs
    · simp only [Option.some.injEq, Prod.mk.injEq] at hs
      obtain ⟨rfl, rfl⟩ := hs
      exact ⟨hR.1.congr rfl rfl rfl rfl, hcl⟩
    · next hf =>
      exact pushAt_sim hR (by simpa using hc) (by simpa using hf) (by cases k <;> simp [pushEvent]) hs

theorem roundPull_sim {p : Promises} {cap : Nat} {s s' : State V} {t : Nat} {k : Kind} {es : List (Event V)} {q : Queue V}
    (hR : R cap s q) (hs : roundPull s t k = some (s', es)) : Follows (specNext p cap) (R cap s') q es := by
  have hcl := hR.2
  have he := hR.1.empty_iff
  simp only [roundPull] at hs
  split at hs
  · next h => exact pullFront_sim hR (by simpa using h) hs
  · next h =>
    have hq0 : q.items = [] := by rw [← List.isEmpty_iff, ← he]; simpa using h
    split at hs
    · next hc =>
      simp only [Option.some.injEq, Prod.mk.injEq] at hs
      obtain ⟨rfl, rfl⟩ := hs
      have hq : q.closed = true := hcl ▸ hc
      cases k <;> simp only [Follows, specNext, hq, hq0, and_self, if_true] <;>
        exact ⟨hR.1.congr rfl rfl rfl rfl, hcl⟩
    · simp only [Option.some.injEq, Prod.mk.injEq] at hs
      obtain ⟨rfl, rfl⟩ := hs
      exact ⟨hR.1.congr rfl rfl rfl rfl, hcl⟩

theorem step_sim {cap : Nat} {s s' : State V} {l : Label V} {es : List (Event V)} {q : Queue V} (hI : ClosingInv s)
    (hR : R cap s q) (hs : step s l = some (s', es)) : Follows (specNext .kept cap) (R cap s') q es := by
  have hcl := hR.2
  have he := hR.1.empty_iff
  have hf := hR.1.full_iff
  have he' : q.items = [] ↔ q.items.isEmpty = true := List.isEmpty_iff.symm
  cases l with
  | push t k v =>
    simp only [step] at hs
    split at hs
    · cases k
      · exact roundPush_sim hR hs
      · simp only at hs
        split at hs
        · next hc =>
          simp only [Option.some.injEq, Prod.mk.injEq] at hs
          obtain ⟨rfl, rfl⟩ := hs
          simp only [Follows, specNext, ← hcl, hc, if_true]
          exact hR
        · exact roundPush_sim hR hs
    · cases hs
  | tryPush t v =>
    simp only [step] at hs
    (repeat' split at hs)
    · next hc =>
      simp only [Option.some.injEq, Prod.mk.injEq] at hs
      obtain ⟨rfl, rfl⟩ := hs
      simp only [Follows, specNext, ← hcl, hc, if_true]
      exact hR
    · next hc hfull =>
      simp only [Option.some.injEq, Prod.mk.injEq] at hs
      obtain ⟨rfl, rfl⟩ := hs
      have h1 : q.items.length = cap := by rw [hf] at hfull; simpa using hfull
      have h2 : q.closed = false := by rw [← hcl]; simpa using hc
      simp only [Follows, specNext, h1, h2, and_self, if_true]
      exact hR
    · next hc hfull => exact pushAt_sim hR (by simpa using hc) (by simpa using hfull) (Or.inl rfl) hs
    · cases hs
  | pull t k =>
    simp only [step] at hs
    split at hs
    · exact roundPull_sim hR hs
    · cases hs
  | tryPull t =>
    simp only [step] at hs
    (repeat' split at hs)
    · next hem hc =>
      simp only [Option.some.injEq, Prod.mk.injEq] at hs
      obtain ⟨rfl, rfl⟩ := hs
      simp only [Follows, specNext, he', ← he, hem, ← hcl, hc, and_self, if_true]
      exact hR
    · next hem hc =>
      simp only [Option.some.injEq, Prod.mk.injEq] at hs
      obtain ⟨rfl, rfl⟩ := hs
      simp only [Follows, specNext, he', ← he, hem, ← hcl, Bool.eq_false_iff.mpr hc, and_self, if_true]
      exact hR
    · next hem => exact pullFront_sim hR (by simpa using hem) hs
    · cases hs
  | resume t =>
    simp only [step] at hs
    split at hs
    · exact roundPull_sim hR hs
    · exact roundPush_sim hR hs
    · cases hs
  | size t =>
    simp only [step] at hs
    split at hs <;> cases hs
    simp only [Follows, specNext, Promises.kept, true_and, hR.1.size, if_true]
    exact hR
  | capacity t =>
    simp only [step] at hs
    split at hs <;> cases hs
    simp only [Follows, specNext, hR.1.cap_eq, Nat.add_sub_cancel, if_true]
    exact hR
  | empty t =>
    simp only [step] at hs
    split at hs <;> cases hs
    simp only [Follows, specNext, he, if_true]
    exact hR
  | full t =>
    simp only [step] at hs
    split at hs <;> cases hs
    simp only [Follows, specNext, hf, if_true]
    exact hR
  | isClosed t =>
    simp only [step] at hs
    split at hs <;> cases hs
    simp only [Follows, specNext, hcl, if_true]
    exact hR
  | closeNotify t =>
    simp only [step] at hs
    split at hs <;> try cases hs
    · exact ⟨hR.1.congr rfl rfl rfl rfl, hcl⟩
    · next ht =>
      have hq : q.closed = true := hcl ▸ hI t (Or.inr ht)
      simp only [Follows, specNext, hq, if_true]
      exact ⟨hR.1.congr rfl rfl rfl rfl, hcl⟩
  | _ =>
    simp only [step] at hs
    (repeat' split at hs) <;> cases hs <;> simp only [Follows, specNext] <;>
      exact ⟨hR.1.congr rfl rfl rfl rfl, by first | exact hcl | rfl⟩

/-! ## `close()` -/

theorem pushAt_shape {s s' : State V} {t : Nat} {v : V} {e : Event V} {es : List (Event V)}
    (hs : pushAt s t v e = some (s', es)) :
    s'.closed = s.closed ∧ es = [e] ∧ s'.waitingFull = s.waitingFull ∧
      ((s.waitingEmpty = s'.waitingEmpty + 1 ∧ s'.ts = s.ts.set t .notifyE) ∨
       (s.waitingEmpty = 0 ∧ s'.waitingEmpty = 0 ∧ s'.ts = s.ts.set t .idle)) := by
  simp only [pushAt] at hs
  split at hs <;> simp only [Option.some.injEq, Prod.mk.injEq] at hs <;> obtain ⟨rfl, rfl⟩ := hs
  · simp; omega
  · simp; omega

theorem pullFront_shape {s s' : State V} {t : Nat} {es : List (Event V)} (hs : pullFront s t = some (s', es)) :
    s'.closed = s.closed ∧ (∃ e, es = [e] ∧ ∀ u, e ≠ .closeReturned u) ∧ s'.waitingEmpty = s.waitingEmpty ∧
      ((s.waitingFull = s'.waitingFull + 1 ∧ s'.ts = s.ts.set t .notifyF) ∨
       (s.waitingFull = 0 ∧ s'.waitingFull = 0 ∧ s'.ts = s.ts.set t .idle)) := by
  simp only [pullFront] at hs
  split at hs <;> simp only [Option.some.injEq, Prod.mk.injEq] at hs <;> obtain ⟨rfl, rfl⟩ := hs
  · refine ⟨rfl, ⟨_, rfl, ?_⟩, rfl, Or.inl ⟨by simp; omega, rfl⟩⟩
    intro u; split <;> simp
  · refine ⟨rfl, ⟨_, rfl, ?_⟩, rfl, Or.inr ⟨by omega, by simp; omega, rfl⟩⟩
    intro u; split <;> simp

/-! ## Wake-ups -/

def PC.isWokenE : PC V → Bool
  | .wokenE _ => true
  | _ => false
def PC.isWokenF : PC V → Bool
  | .wokenF _ _ => true
  | _ => false
def PC.isNotifyE : PC V → Bool
  | .notifyE => true
  | _ => false
def PC.isNotifyF : PC V → Bool
  | .notifyF => true
  | _ => false

def aE (ts : List (PC V)) : Nat := cnt PC.isAsleepE ts
def aF (ts : List (PC V)) : Nat := cnt PC.isAsleepF ts
def wE (ts : List (PC V)) : Nat := cnt PC.isWokenE ts
def wF (ts : List (PC V)) : Nat := cnt PC.isWokenF ts
def nE (ts : List (PC V)) : Nat := cnt PC.isNotifyE ts
def nF (ts : List (PC V)) : Nat := cnt PC.isNotifyF ts

/-- The waiter counters never miss a sleeper, and while the queue is open enough consumers (producers) are awake or about to be woken for
the `n` elements (for the room left). -/
structure W (s : State V) (cap n : Nat) : Prop where
  cntE : aE s.ts ≤ s.waitingEmpty + nE s.ts
  cntF : aF s.ts ≤ s.waitingFull + nF s.ts
  elems : s.closed = false → min n (aE s.ts + wE s.ts) ≤ wE s.ts + nE s.ts
  room : s.closed = false → min (cap - n) (aF s.ts + wF s.ts) ≤ wF s.ts + nF s.ts

theorem counts_set {ts : List (PC V)} {t : Nat} {p : PC V} (q : PC V) (h : ts[t]? = some p) :
    aE (ts.set t q) + b2n p.isAsleepE = aE ts + b2n q.isAsleepE ∧
    aF (ts.set t q) + b2n p.isAsleepF = aF ts + b2n q.isAsleepF ∧
    wE (ts.set t q) + b2n p.isWokenE = wE ts + b2n q.isWokenE ∧
    wF (ts.set t q) + b2n p.isWokenF = wF ts + b2n q.isWokenF ∧
    nE (ts.set t q) + b2n p.isNotifyE = nE ts + b2n q.isNotifyE ∧
    nF (ts.set t q) + b2n p.isNotifyF = nF ts + b2n q.isNotifyF :=
  ⟨cnt_set _ q h, cnt_set _ q h, cnt_set _ q h, cnt_set _ q h, cnt_set _ q h, cnt_set _ q h⟩

theorem pushAt_W {cap n : Nat} {s s' : State V} {t : Nat} {p : PC V} {v : V} {e : Event V} {es : List (Event V)}
    (hW : W s cap n) (ht : s.ts[t]? = some p) (hp : p = .idle ∨ ∃ k w, p = .wokenF k w) (hn : n < cap)
    (hs : pushAt s t v e = some (s', es)) : W s' cap (n + 1) := by
  obtain ⟨h1, -, h3, h4⟩ := pushAt_shape hs
  obtain ⟨w1, w2, w3, w4⟩ := hW
  rcases h4 with ⟨g1, g2⟩ | ⟨g1, g2, g3⟩
  · have c := counts_set .notifyE ht
    rcases hp with rfl | ⟨k, w, rfl⟩ <;>
      simp [PC.isAsleepE, PC.isAsleepF, PC.isWokenE, PC.isWokenF, PC.isNotifyE, PC.isNotifyF] at c <;>
      constructor <;> (try rw [h1]) <;> rw [g2] <;> (try intro hc; have := w3 hc; have := w4 hc) <;> omega
  · have c := counts_set .idle ht
    rcases hp with rfl | ⟨k, w, rfl⟩ <;>
      simp [PC.isAsleepE, PC.isAsleepF, PC.isWokenE, PC.isWokenF, PC.isNotifyE, PC.isNotifyF] at c <;>
      constructor <;> (try rw [h1]) <;> rw [g3] <;> (try intro hc; have := w3 hc; have := w4 hc) <;> omega

theorem pullFront_W {cap n : Nat} {s s' : State V} {t : Nat} {p : PC V} {es : List (Event V)}
    (hW : W s cap (n + 1)) (ht : s.ts[t]? = some p) (hp : p = .idle ∨ ∃ k, p = .wokenE k) (hn : n < cap)
    (hs : pullFront s t = some (s', es)) : W s' cap n := by
  obtain ⟨h1, -, h3, h4⟩ := pullFront_shape hs
  obtain ⟨w1, w2, w3, w4⟩ := hW
  rcases h4 with ⟨g1, g2⟩ | ⟨g1, g2, g3⟩
  · have c := counts_set .notifyF ht
    rcases hp with rfl | ⟨k, rfl⟩ <;>
      simp [PC.isAsleepE, PC.isAsleepF, PC.isWokenE, PC.isWokenF, PC.isNotifyE, PC.isNotifyF] at c <;>
      constructor <;> (try rw [h1]) <;> rw [g2] <;> (try intro hc; have := w3 hc; have := w4 hc) <;> omega
  · have c := counts_set .idle ht
    rcases hp with rfl | ⟨k, rfl⟩ <;>
      simp [PC.isAsleepE, PC.isAsleepF, PC.isWokenE, PC.isWokenF, PC.isNotifyE, PC.isNotifyF] at c <;>
      constructor <;> (try rw [h1]) <;> rw [g3] <;> (try intro hc; have := w3 hc; have := w4 hc) <;> omega

/-- Ring and wake-ups together. -/
def Inv (cap : Nat) (s : State V) : Prop := ∃ items, Ring s cap items ∧ W s cap items.length

theorem roundPush_inv {cap : Nat} {s s' : State V} {t : Nat} {p : PC V} {k : Kind} {v : V} {es : List (Event V)}
    (hI : Inv cap s) (ht : s.ts[t]? = some p) (hp : p = .idle ∨ ∃ k w, p = .wokenF k w)
    (hs : roundPush s t k v = some (s', es)) : Inv cap s' := by
  obtain ⟨items, hr, hW⟩ := hI
  have hf := hr.full_iff
  simp only [roundPush] at hs
  split at hs
  · next hc =>
    simp only [Option.some.injEq, Prod.mk.injEq] at hs
    obtain ⟨rfl, rfl⟩ := hs
    refine ⟨items, hr.congr rfl rfl rfl rfl, ?_⟩
    obtain ⟨w1, w2, w3, w4⟩ := hW
    have c := counts_set .idle ht
    rcases hp with rfl | ⟨k, w, rfl⟩ <;>
      simp [PC.isAsleepE, PC.isAsleepF, PC.isWokenE, PC.isWokenF, PC.isNotifyE, PC.isNotifyF] at c <;>
      constructor <;> simp only [hc] <;> first | omega | simp
  · split at hs
    · next hfull =>
      simp only [Option.some.injEq, Prod.mk.injEq] at hs
      obtain ⟨rfl, rfl⟩ := hs
      have hlen : items.length = cap := by rw [hf] at hfull; simpa using hfull
      refine ⟨items, hr.congr rfl rfl rfl rfl, ?_⟩
      obtain ⟨w1, w2, w3, w4⟩ := hW
      have c := counts_set (.asleepF k v) ht
      rcases hp with rfl | ⟨k, w, rfl⟩ <;>
        simp [PC.isAsleepE, PC.isAsleepF, PC.isWokenE, PC.isWokenF, PC.isNotifyE, PC.isNotifyF] at c <;>
        constructor <;> simp only <;> (try intro hc; have := w3 hc; have := w4 hc) <;> omega
    · next hfull =>
      have hlen : items.length < cap := by have := hr.room; rw [hf] at hfull; simp at hfull; omega
      refine ⟨items ++ [v], ?_, ?_⟩
      · have key := hr.push v hlen
        simp only [pushAt] at hs
        split at hs <;> simp only [Option.some.injEq, Prod.mk.injEq] at hs <;> obtain ⟨rfl, rfl⟩ := hs <;>
          exact key.congr rfl rfl rfl rfl
      · simpa using pushAt_W hW ht hp hlen hs

theorem tryPush_inv {cap : Nat} {s s' : State V} {t : Nat} {v : V} {e : Event V} {es : List (Event V)}
    (hI : Inv cap s) (ht : s.ts[t]? = some .idle) (hfull : s.isFull = false)
    (hs : pushAt s t v e = some (s', es)) : Inv cap s' := by
  obtain ⟨items, hr, hW⟩ := hI
  have hf := hr.full_iff
  have hlen : items.length < cap := by have := hr.room; rw [hf] at hfull; simp at hfull; omega
  refine ⟨items ++ [v], ?_, ?_⟩
  · have key := hr.push v hlen
    simp only [pushAt] at hs
    split at hs <;> simp only [Option.some.injEq, Prod.mk.injEq] at hs <;> obtain ⟨rfl, rfl⟩ := hs <;>
      exact key.congr rfl rfl rfl rfl
  · simpa using pushAt_W hW ht (Or.inl rfl) hlen hs

theorem pullFront_inv {cap : Nat} {s s' : State V} {t : Nat} {p : PC V} {es : List (Event V)}
    (hI : Inv cap s) (ht : s.ts[t]? = some p) (hp : p = .idle ∨ ∃ k, p = .wokenE k) (hne : s.isEmpty = false)
    (hs : pullFront s t = some (s', es)) : Inv cap s' := by
  obtain ⟨items, hr, hW⟩ := hI
  cases items with
  | nil => rw [hr.empty_iff] at hne; simp at hne
  | cons v rest =>
    have hlen : rest.length < cap := by have := hr.room; simp at this; omega
    refine ⟨rest, ?_, pullFront_W (by simpa using hW) ht hp hlen hs⟩
    have key := hr.pull
    simp only [pullFront] at hs
    split at hs <;> simp only [Option.some.injEq, Prod.mk.injEq] at hs <;> obtain ⟨rfl, rfl⟩ := hs <;>
      exact key.congr rfl rfl rfl rfl

theorem roundPull_inv {cap : Nat} {s s' : State V} {t : Nat} {p : PC V} {k : Kind} {es : List (Event V)}
    (hI : Inv cap s) (ht : s.ts[t]? = some p) (hp : p = .idle ∨ ∃ k, p = .wokenE k)
    (hs : roundPull s t k = some (s', es)) : Inv cap s' := by
  simp only [roundPull] at hs
  split at hs
  · next h => exact pullFront_inv hI ht hp (by simpa using h) hs
  · next h =>
    obtain ⟨items, hr, hW⟩ := hI
    have hlen : items.length = 0 := by
      have := hr.empty_iff
      simp only [Bool.not_eq_true', Bool.not_eq_false] at h
      rw [h] at this
      simpa using this.symm
    split at hs <;> simp only [Option.some.injEq, Prod.mk.injEq] at hs <;> obtain ⟨rfl, rfl⟩ := hs
    · next hc =>
      refine ⟨items, hr.congr rfl rfl rfl rfl, ?_⟩
      obtain ⟨w1, w2, w3, w4⟩ := hW
      have c := counts_set .idle ht
      rcases hp with rfl | ⟨k, rfl⟩ <;>
        simp [PC.isAsleepE, PC.isAsleepF, PC.isWokenE, PC.isWokenF, PC.isNotifyE, PC.isNotifyF] at c <;>
        constructor <;> simp only [hc] <;> first | omega | simp
    · refine ⟨items, hr.congr rfl rfl rfl rfl, ?_⟩
      obtain ⟨w1, w2, w3, w4⟩ := hW
      have c := counts_set (.asleepE k) ht
      rcases hp with rfl | ⟨k, rfl⟩ <;>
        simp [PC.isAsleepE, PC.isAsleepF, PC.isWokenE, PC.isWokenF, PC.isNotifyE, PC.isNotifyF] at c <;>
        constructor <;> simp only <;> (try intro hc; have := w3 hc; have := w4 hc) <;> omega

theorem counts_wakeE (ts : List (PC V)) :
    aE (ts.map PC.wakeE) = 0 ∧ aF (ts.map PC.wakeE) = aF ts ∧ nE (ts.map PC.wakeE) = nE ts ∧ nF (ts.map PC.wakeE) = nF ts := by
  simp only [aE, aF, nE, nF, cnt_map]
  refine ⟨?_, cnt_congr _ fun a => by cases a <;> rfl, cnt_congr _ fun a => by cases a <;> rfl,
    cnt_congr _ fun a => by cases a <;> rfl⟩
  rw [cnt_eq_zero]; intro t p hp; cases p <;> rfl

theorem counts_wakeF (ts : List (PC V)) :
    aF (ts.map PC.wakeF) = 0 ∧ aE (ts.map PC.wakeF) = aE ts ∧ nE (ts.map PC.wakeF) = nE ts ∧ nF (ts.map PC.wakeF) = nF ts := by
  simp only [aE, aF, nE, nF, cnt_map]
  refine ⟨?_, cnt_congr _ fun a => by cases a <;> rfl, cnt_congr _ fun a => by cases a <;> rfl,
    cnt_congr _ fun a => by cases a <;> rfl⟩
  rw [cnt_eq_zero]; intro t p hp; cases p <;> rfl

theorem none_asleep {f : PC V → Bool} {ts : List (PC V)} (h : ¬ ts.any f = true) : cnt f ts = 0 := by
  rw [cnt_eq_zero]
  intro t p hp
  cases hf : f p with
  | false => rfl
  | true => exact absurd (List.any_eq_true.mpr ⟨p, List.mem_of_getElem? hp, hf⟩) h

theorem step_inv {cap : Nat} {s s' : State V} {l : Label V} {es : List (Event V)} (hcl : ClosingInv s)
    (hl : l.isInterruptLate = false) (hI : Inv cap s) (hs : step s l = some (s', es)) : Inv cap s' := by
  cases l with
  | push t k v =>
    simp only [step] at hs
    split at hs
    · next ht =>
      cases k
      · exact roundPush_inv hI ht (Or.inl rfl) hs
      · simp only at hs
        split at hs
        · cases hs; exact hI
        · exact roundPush_inv hI ht (Or.inl rfl) hs
    · cases hs
  | tryPush t v =>
    simp only [step] at hs
    (repeat' split at hs)
    · cases hs; exact hI
    · cases hs; exact hI
    · next ht _ hf => exact tryPush_inv hI ht (by simpa using hf) hs
    · cases hs
  | pull t k =>
    simp only [step] at hs
    split at hs
    · next ht => exact roundPull_inv hI ht (Or.inl rfl) hs
    · cases hs
  | tryPull t =>
    simp only [step] at hs
    (repeat' split at hs)
    · cases hs; exact hI
    · cases hs; exact hI
    · next ht hem => exact pullFront_inv hI ht (Or.inl rfl) (by simpa using hem) hs
    · cases hs
  | resume t =>
    simp only [step] at hs
    split at hs
    · next k ht => exact roundPull_inv hI ht (Or.inr ⟨k, rfl⟩) hs
    · next k v ht => exact roundPush_inv hI ht (Or.inr ⟨k, v, rfl⟩) hs
    · cases hs
  | interruptLate t => cases hl
  | notify t target =>
    obtain ⟨items, hr, w1, w2, w3, w4⟩ := hI
    simp only [step] at hs
    (repeat' split at hs) <;> cases hs
    · next ht _ hany =>
      have h0 : aE s.ts = 0 := none_asleep hany
      have c := counts_set .idle ht
      simp [PC.isAsleepE, PC.isAsleepF, PC.isWokenE, PC.isWokenF, PC.isNotifyE, PC.isNotifyF] at c
      refine ⟨items, hr.congr rfl rfl rfl rfl, ?_⟩
      constructor <;> simp only <;> (try intro hc; have := w3 hc; have := w4 hc) <;> omega
    · next ht _ u _ k hu =>
      have hne : t ≠ u := by rintro rfl; rw [ht] at hu; cases hu
      have c := counts_set .idle ht
      have hu' : (s.ts.set t .idle)[u]? = some (.asleepE k) := by rw [getElem?_set_eq ht]; simp [hne, hu]
      have c' := counts_set (.wokenE k) hu'
      simp [PC.isAsleepE, PC.isAsleepF, PC.isWokenE, PC.isWokenF, PC.isNotifyE, PC.isNotifyF] at c c'
      refine ⟨items, hr.congr rfl rfl rfl rfl, ?_⟩
      constructor <;> simp only <;> (try intro hc; have := w3 hc; have := w4 hc) <;> omega
    · next ht _ hany =>
      have h0 : aF s.ts = 0 := none_asleep hany
      have c := counts_set .idle ht
      simp [PC.isAsleepE, PC.isAsleepF, PC.isWokenE, PC.isWokenF, PC.isNotifyE, PC.isNotifyF] at c
      refine ⟨items, hr.congr rfl rfl rfl rfl, ?_⟩
      constructor <;> simp only <;> (try intro hc; have := w3 hc; have := w4 hc) <;> omega
    · next ht _ u _ k v hu =>
      have hne : t ≠ u := by rintro rfl; rw [ht] at hu; cases hu
      have c := counts_set .idle ht
      have hu' : (s.ts.set t .idle)[u]? = some (.asleepF k v) := by rw [getElem?_set_eq ht]; simp [hne, hu]
      have c' := counts_set (.wokenF k v) hu'
      simp [PC.isAsleepE, PC.isAsleepF, PC.isWokenE, PC.isWokenF, PC.isNotifyE, PC.isNotifyF] at c c'
      refine ⟨items, hr.congr rfl rfl rfl rfl, ?_⟩
      constructor <;> simp only <;> (try intro hc; have := w3 hc; have := w4 hc) <;> omega
  | spurious t =>
    obtain ⟨items, hr, w1, w2, w3, w4⟩ := hI
    simp only [step] at hs
    (repeat' split at hs) <;> cases hs
    · next k ht =>
      have c := counts_set (.wokenE k) ht
      simp [PC.isAsleepE, PC.isAsleepF, PC.isWokenE, PC.isWokenF, PC.isNotifyE, PC.isNotifyF] at c
      refine ⟨items, hr.congr rfl rfl rfl rfl, ?_⟩
      constructor <;> simp only <;> (try intro hc; have := w3 hc; have := w4 hc) <;> omega
    · next k v ht =>
      have c := counts_set (.wokenF k v) ht
      simp [PC.isAsleepE, PC.isAsleepF, PC.isWokenE, PC.isWokenF, PC.isNotifyE, PC.isNotifyF] at c
      refine ⟨items, hr.congr rfl rfl rfl rfl, ?_⟩
      constructor <;> simp only <;> (try intro hc; have := w3 hc; have := w4 hc) <;> omega
  | interrupt t =>
    obtain ⟨items, hr, w1, w2, w3, w4⟩ := hI
    simp only [step] at hs
    (repeat' split at hs) <;> cases hs
    all_goals
      rename_i ht
      have c := counts_set .idle ht
      simp [PC.isAsleepE, PC.isAsleepF, PC.isWokenE, PC.isWokenF, PC.isNotifyE, PC.isNotifyF] at c
      refine ⟨items, hr.congr rfl rfl rfl rfl, ?_⟩
      constructor <;> simp only <;> (try intro hc; have := w3 hc; have := w4 hc) <;> omega
  | close t =>
    obtain ⟨items, hr, w1, w2, w3, w4⟩ := hI
    simp only [step] at hs
    (repeat' split at hs) <;> cases hs
    rename_i ht
    have c := counts_set .closing1 ht
    simp [PC.isAsleepE, PC.isAsleepF, PC.isWokenE, PC.isWokenF, PC.isNotifyE, PC.isNotifyF] at c
    refine ⟨items, hr.congr rfl rfl rfl rfl, ?_⟩
    constructor <;> simp only <;> first | omega | simp
  | closeNotify t =>
    obtain ⟨items, hr, w1, w2, w3, w4⟩ := hI
    simp only [step] at hs
    (repeat' split at hs) <;> cases hs
    · next ht =>
      have c := counts_set .closing2 ht
      have c' := counts_wakeE (s.ts.set t .closing2)
      have hc := hcl t (Or.inl ht)
      simp [PC.isAsleepE, PC.isAsleepF, PC.isWokenE, PC.isWokenF, PC.isNotifyE, PC.isNotifyF] at c
      refine ⟨items, hr.congr rfl rfl rfl rfl, ?_⟩
      constructor <;> simp only [hc] <;> first | omega | simp
    · next ht =>
      have c := counts_set .idle ht
      have c' := counts_wakeF (s.ts.set t .idle)
      have hc := hcl t (Or.inr ht)
      simp [PC.isAsleepE, PC.isAsleepF, PC.isWokenE, PC.isWokenF, PC.isNotifyE, PC.isNotifyF] at c
      refine ⟨items, hr.congr rfl rfl rfl rfl, ?_⟩
      constructor <;> simp only [hc] <;> first | omega | simp
  | _ =>
    simp only [step] at hs
    (repeat' split at hs) <;> cases hs <;> exact hI

/-! ## Closing -/

def PC.isClosing1 : PC V → Bool
  | .closing1 => true
  | _ => false
def PC.isClosing2 : PC V → Bool
  | .closing2 => true
  | _ => false

/-- A thread past the first notification of `close()` has left no consumer asleep; after a `close()` has returned nobody sleeps. -/
def ClosedInv (s : State V) (es : List (Event V)) : Prop :=
  (0 < cnt PC.isClosing1 s.ts → s.closed = true) ∧
  (0 < cnt PC.isClosing2 s.ts → s.closed = true ∧ aE s.ts = 0) ∧
  ((∃ t, Event.closeReturned t ∈ es) → s.closed = true ∧ aE s.ts = 0 ∧ aF s.ts = 0)

/-- What a step that does not belong to `close()` can do to the threads: one thread moves, and it does not fall asleep on a closed queue. -/
theorem closedInv_set {s s' : State V} {es es' : List (Event V)} {t : Nat} {p q : PC V} (h : ClosedInv s es)
    (ht : s.ts[t]? = some p) (hts : s'.ts = s.ts.set t q) (hc : s'.closed = s.closed)
    (hq1 : q.isClosing1 = false) (hq2 : q.isClosing2 = false)
    (hq : s.closed = true → q.isAsleepE = false ∧ q.isAsleepF = false)
    (hes : ∀ u, Event.closeReturned u ∉ es') : ClosedInv s' (es ++ es') := by
  obtain ⟨h1, h2, h3⟩ := h
  have c := counts_set q ht
  have d1 := cnt_set PC.isClosing1 q ht
  have d2 := cnt_set PC.isClosing2 q ht
  simp only [hq1, hq2, b2n_false] at d1 d2
  refine ⟨?_, ?_, ?_⟩
  · rw [hts, hc]; intro hh; exact h1 (by omega)
  · rw [hts, hc]; intro hh
    obtain ⟨g1, g2⟩ := h2 (by omega)
    have := hq g1
    simp only [this.1, this.2, b2n_false] at c
    exact ⟨g1, by omega⟩
  · rintro ⟨u, hu⟩
    simp only [List.mem_append] at hu
    rcases hu with hu | hu
    · obtain ⟨g1, g2, g3⟩ := h3 ⟨u, hu⟩
      have := hq g1
      simp only [this.1, this.2, b2n_false] at c
      rw [hts, hc]
      exact ⟨g1, by omega, by omega⟩
    · exact absurd hu (hes u)

theorem pushAt_closed {s s' : State V} {h es : List (Event V)} {t : Nat} {p : PC V} {v : V} {e : Event V} (hI : ClosedInv s h)
    (ht : s.ts[t]? = some p) (he : ∀ u, e ≠ .closeReturned u) (hs : pushAt s t v e = some (s', es)) :
    ClosedInv s' (h ++ es) := by
  obtain ⟨h1, rfl, h3, h4⟩ := pushAt_shape hs
  rcases h4 with ⟨g1, g2⟩ | ⟨g1, g2, g3⟩
  · exact closedInv_set hI ht g2 h1 rfl rfl (fun _ => ⟨rfl, rfl⟩) (fun u hu => he u (List.mem_singleton.mp hu).symm)
  · exact closedInv_set hI ht g3 h1 rfl rfl (fun _ => ⟨rfl, rfl⟩) (fun u hu => he u (List.mem_singleton.mp hu).symm)

theorem pullFront_closed {s s' : State V} {h es : List (Event V)} {t : Nat} {p : PC V} (hI : ClosedInv s h)
    (ht : s.ts[t]? = some p) (hs : pullFront s t = some (s', es)) : ClosedInv s' (h ++ es) := by
  obtain ⟨h1, ⟨e, rfl, he⟩, h3, h4⟩ := pullFront_shape hs
  rcases h4 with ⟨g1, g2⟩ | ⟨g1, g2, g3⟩
  · exact closedInv_set hI ht g2 h1 rfl rfl (fun _ => ⟨rfl, rfl⟩) (fun u hu => he u (List.mem_singleton.mp hu).symm)
  · exact closedInv_set hI ht g3 h1 rfl rfl (fun _ => ⟨rfl, rfl⟩) (fun u hu => he u (List.mem_singleton.mp hu).symm)

theorem pushEvent_ne (t : Nat) (k : Kind) (v : V) (r : Status) (u : Nat) : pushEvent t k v r ≠ .closeReturned u := by
  cases k <;> simp [pushEvent]

theorem roundPush_closed {s s' : State V} {h es : List (Event V)} {t : Nat} {p : PC V} {k : Kind} {v : V} (hI : ClosedInv s h)
    (ht : s.ts[t]? = some p) (hs : roundPush s t k v = some (s', es)) : ClosedInv s' (h ++ es) := by
  simp only [roundPush] at hs
  (repeat' split at hs)
  · cases hs
    exact closedInv_set hI ht rfl rfl rfl rfl (fun _ => ⟨rfl, rfl⟩)
      (fun u hu => pushEvent_ne t k v .threw u (List.mem_singleton.mp hu).symm)
  · next hc _ =>
    cases hs
    exact closedInv_set hI ht rfl rfl rfl rfl (fun h => absurd h hc) (by simp)
  · exact pushAt_closed hI ht (pushEvent_ne t k v .success) hs

theorem roundPull_closed {s s' : State V} {h es : List (Event V)} {t : Nat} {p : PC V} {k : Kind} (hI : ClosedInv s h)
    (ht : s.ts[t]? = some p) (hs : roundPull s t k = some (s', es)) : ClosedInv s' (h ++ es) := by
  simp only [roundPull] at hs
  split at hs
  · exact pullFront_closed hI ht hs
  split at hs
  · cases hs
    exact closedInv_set hI ht rfl rfl rfl rfl (fun _ => ⟨rfl, rfl⟩) (by simp)
  · next hc =>
    cases hs
    exact closedInv_set hI ht rfl rfl rfl rfl (fun h => absurd h hc) (by simp)

/-- A step that changes no thread and does not return from `close()`. -/
theorem closedInv_same {s : State V} {h : List (Event V)} {e : Event V} (hI : ClosedInv s h) (he : ∀ u, e ≠ .closeReturned u) :
    ClosedInv s (h ++ [e]) := by
  obtain ⟨h1, h2, h3⟩ := hI
  refine ⟨h1, h2, ?_⟩
  rintro ⟨u, hu⟩
  simp only [List.mem_append, List.mem_singleton] at hu
  rcases hu with hu | hu
  · exact h3 ⟨u, hu⟩
  · exact absurd hu.symm (he u)

theorem counts_closing_wake (ts : List (PC V)) :
    cnt PC.isClosing1 (ts.map PC.wakeE) = cnt PC.isClosing1 ts ∧ cnt PC.isClosing2 (ts.map PC.wakeE) = cnt PC.isClosing2 ts ∧
    cnt PC.isClosing1 (ts.map PC.wakeF) = cnt PC.isClosing1 ts ∧ cnt PC.isClosing2 (ts.map PC.wakeF) = cnt PC.isClosing2 ts := by
  simp only [cnt_map]
  exact ⟨cnt_congr _ fun a => by cases a <;> rfl, cnt_congr _ fun a => by cases a <;> rfl,
    cnt_congr _ fun a => by cases a <;> rfl, cnt_congr _ fun a => by cases a <;> rfl⟩

theorem step_closed {s s' : State V} {l : Label V} {h es : List (Event V)} (hI : ClosedInv s h)
    (hs : step s l = some (s', es)) : ClosedInv s' (h ++ es) := by
  cases l with
  | push t k v =>
    simp only [step] at hs
    split at hs
    · next ht =>
      cases k
      · exact roundPush_closed hI ht hs
      · simp only at hs
        split at hs
        · cases hs; exact closedInv_same hI (by simp)
        · exact roundPush_closed hI ht hs
    · cases hs
  | tryPush t v =>
    simp only [step] at hs
    (repeat' split at hs)
    · cases hs; exact closedInv_same hI (by simp)
    · cases hs; exact closedInv_same hI (by simp)
    · next ht _ hf => exact pushAt_closed hI ht (by simp) hs
    · cases hs
  | pull t k =>
    simp only [step] at hs
    split at hs
    · next ht => exact roundPull_closed hI ht hs
    · cases hs
  | tryPull t =>
    simp only [step] at hs
    (repeat' split at hs)
    · cases hs; exact closedInv_same hI (by simp)
    · cases hs; exact closedInv_same hI (by simp)
    · next ht hem => exact pullFront_closed hI ht hs
    · cases hs
  | resume t =>
    simp only [step] at hs
    split at hs
    · next k ht => exact roundPull_closed hI ht hs
    · next k v ht => exact roundPush_closed hI ht hs
    · cases hs
  | notify t target =>
    simp only [step] at hs
    (repeat' split at hs) <;> cases hs
    · next ht _ _ => exact closedInv_set hI ht rfl rfl rfl rfl (fun _ => ⟨rfl, rfl⟩) (by simp)
    · next ht _ u _ k hu =>
      have hne : t ≠ u := by rintro rfl; rw [ht] at hu; cases hu
      have hu' : (s.ts.set t .idle)[u]? = some (.asleepE k) := by rw [getElem?_set_eq ht]; simp [hne, hu]
      have h1 : ClosedInv { s with ts := s.ts.set t .idle } (h ++ []) :=
        closedInv_set hI ht rfl rfl rfl rfl (fun _ => ⟨rfl, rfl⟩) (by simp)
      rw [List.append_nil] at h1
      exact closedInv_set h1 hu' rfl rfl rfl rfl (fun _ => ⟨rfl, rfl⟩) (by simp)
    · next ht _ _ => exact closedInv_set hI ht rfl rfl rfl rfl (fun _ => ⟨rfl, rfl⟩) (by simp)
    · next ht _ u _ k v hu =>
      have hne : t ≠ u := by rintro rfl; rw [ht] at hu; cases hu
      have hu' : (s.ts.set t .idle)[u]? = some (.asleepF k v) := by rw [getElem?_set_eq ht]; simp [hne, hu]
      have h1 : ClosedInv { s with ts := s.ts.set t .idle } (h ++ []) :=
        closedInv_set hI ht rfl rfl rfl rfl (fun _ => ⟨rfl, rfl⟩) (by simp)
      rw [List.append_nil] at h1
      exact closedInv_set h1 hu' rfl rfl rfl rfl (fun _ => ⟨rfl, rfl⟩) (by simp)
  | close t =>
    simp only [step] at hs
    (repeat' split at hs) <;> cases hs
    rename_i ht
    obtain ⟨h1, h2, h3⟩ := hI
    have c := counts_set .closing1 ht
    have d2 := cnt_set PC.isClosing2 .closing1 ht
    simp [PC.isAsleepE, PC.isAsleepF, PC.isWokenE, PC.isWokenF, PC.isNotifyE, PC.isNotifyF] at c
    simp only [PC.isClosing2, b2n_false] at d2
    refine ⟨fun _ => rfl, fun hh => ⟨rfl, ?_⟩, ?_⟩
    · have := (h2 (by simp only at hh; omega)).2; simp only; omega
    · rintro ⟨u, hu⟩
      have := h3 ⟨u, by simpa using hu⟩
      exact ⟨rfl, by simp only; omega, by simp only; omega⟩
  | closeNotify t =>
    simp only [step] at hs
    obtain ⟨h1, h2, h3⟩ := hI
    (repeat' split at hs) <;> cases hs
    · next ht =>
      have hc := h1 (cnt_pos ht rfl)
      have c := counts_set .closing2 ht
      have c' := counts_wakeE (s.ts.set t .closing2)
      simp [PC.isAsleepE, PC.isAsleepF, PC.isWokenE, PC.isWokenF, PC.isNotifyE, PC.isNotifyF] at c
      refine ⟨fun _ => hc, fun _ => ⟨hc, c'.1⟩, ?_⟩
      rintro ⟨u, hu⟩
      have := h3 ⟨u, by simpa using hu⟩
      exact ⟨hc, c'.1, by simp only; omega⟩
    · next ht =>
      have hc := h2 (cnt_pos ht rfl)
      have c := counts_set .idle ht
      have c' := counts_wakeF (s.ts.set t .idle)
      simp [PC.isAsleepE, PC.isAsleepF, PC.isWokenE, PC.isWokenF, PC.isNotifyE, PC.isNotifyF] at c
      refine ⟨fun _ => hc.1, fun _ => ⟨hc.1, by simp only; omega⟩, fun _ => ⟨hc.1, by simp only; omega, c'.1⟩⟩
  | spurious t =>
    simp only [step] at hs
    (repeat' split at hs) <;> cases hs <;> rename_i ht <;>
      exact closedInv_set hI ht rfl rfl rfl rfl (fun _ => ⟨rfl, rfl⟩) (by simp)
  | interrupt t =>
    simp only [step] at hs
    (repeat' split at hs) <;> cases hs <;> rename_i ht <;>
      exact closedInv_set hI ht rfl rfl rfl rfl (fun _ => ⟨rfl, rfl⟩) (by simp)
  | interruptLate t =>
    simp only [step] at hs
    (repeat' split at hs) <;> cases hs <;> rename_i ht <;>
      exact closedInv_set hI ht rfl rfl rfl rfl (fun _ => ⟨rfl, rfl⟩) (by simp)
  | _ =>
    simp only [step] at hs
    (repeat' split at hs) <;> cases hs <;> exact closedInv_same hI (by simp)

theorem ClosedInv.closing {s : State V} {es : List (Event V)} (h : ClosedInv s es) : ClosingInv s := by
  intro t ht
  rcases ht with ht | ht
  · exact h.1 (cnt_pos ht rfl)
  · exact (h.2.1 (cnt_pos ht rfl)).1

theorem init_closed (cap n : Nat) : ClosedInv (init V cap n) [] := by
  refine ⟨?_, ?_, ?_⟩
  · intro h; simp [init, cnt_replicate, PC.isClosing1] at h
  · intro h; simp [init, cnt_replicate, PC.isClosing2] at h
  · rintro ⟨t, ht⟩; cases ht

theorem init_inv (cap n : Nat) : Inv cap (init V cap n) := by
  refine ⟨[], ring_init cap n, ?_⟩
  constructor <;> simp [init, aE, aF, wE, wF, nE, nF, cnt_replicate, PC.isAsleepE, PC.isAsleepF, PC.isWokenE, PC.isWokenF,
    PC.isNotifyE, PC.isNotifyF]

/-- The simulation relation; it needs only that `close()` sets the flag before it notifies. -/
def Sim (cap : Nat) (s : State V) (q : Queue V) : Prop := R cap s q ∧ ∃ es, ClosedInv s es

theorem sim {cap : Nat} (s : State V) (l : Label V) (s' : State V) (es : List (Event V)) (q : Queue V) (h : Sim cap s q)
    (hs : step s l = some (s', es)) : Follows (specNext .kept cap) (Sim cap s') q es := by
  obtain ⟨hR, h0, hI⟩ := h
  exact (step_sim hI.closing hR hs).and ⟨_, step_closed hI hs⟩

theorem init_sim (cap n : Nat) : Sim cap (init V cap n) (Queue.new V) := ⟨⟨ring_init cap n, rfl⟩, _, init_closed cap n⟩

end Verif.BoundedQueue
